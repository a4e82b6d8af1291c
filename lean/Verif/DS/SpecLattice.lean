import Verif.DS.Spec
/-!
# Client code: the join and the meet of two partitions

A client with two disjoint sets wants the partition that both together generate, or the one of elements that are united in
both. The functions here are such a client over the modelled calls; the state is the two disjoint sets at hand.
-/

open Rust
namespace DS
variable {T : Type} [DecidableEq T]

/-- a call on the first of two disjoint sets -/
def onFirst {β : Type} (m : M (DSet T) β) : M (DSet T × DSet T) β := fun s =>
  let (r, t) := m s.1
  (r, (t, s.2))

/-- a call on the second of two disjoint sets -/
def onSecond {β : Type} (m : M (DSet T) β) : M (DSet T × DSet T) β := fun s =>
  let (r, t) := m s.2
  (r, (s.1, t))

/-- `for y in it { a.union(first.clone(), y.clone()) }` -/
def uniteAll [Cfg] (stack : Nat) (first : T) : List T → M (DSet T × DSet T) Unit
  | [] => return ()
  | y :: ys => do
    onFirst (DSet.union stack first y false false)
    uniteAll stack first ys

/-- `for group in groups { let mut it = group.into_iter(); let first = it.next().unwrap(); a.make_set(first.clone()); … }` -/
def joinGroups [Cfg] (stack : Nat) : List (List T) → M (DSet T × DSet T) Unit
  | [] => return ()
  | [] :: _ => M.throw .explicit
  | (first :: it) :: gs => do
    onFirst (DSet.makeSet first false)
    uniteAll stack first it
    joinGroups stack gs

/-- `for group in &mut b { … }`: all groups of `b` are united in `a`. -/
def join [Cfg] (stack : Nat) (order : List (T × Nat) → List (T × Nat))
    (order' : List (Nat × List T) → List (Nat × List T)) : M (DSet T × DSet T) Unit := do
  joinGroups stack (← onSecond (DSet.iterate stack order order'))

/-- `for y in others { if b.in_union(x, y) { c.union(x.clone(), y.clone()) } }`; the state is `(b, c)`. -/
def meetWith [Cfg] (stack : Nat) (x : T) : List T → M (DSet T × DSet T) Unit
  | [] => return ()
  | y :: ys => do
    if ← onFirst (DSet.inUnion stack x y false false) then onSecond (DSet.union stack x y false false)
    meetWith stack x ys

/-- every element of a group with all behind it -/
def meetGroup [Cfg] (stack : Nat) : List T → M (DSet T × DSet T) Unit
  | [] => return ()
  | x :: xs => do
    if ← onFirst (DSet.contains x false) then onSecond (DSet.makeSet x false)
    meetWith stack x xs
    meetGroup stack xs

/-- `for group in &mut a { … }`, with the groups of `a` -/
def meet [Cfg] (stack : Nat) : List (List T) → M (DSet T × DSet T) Unit
  | [] => return ()
  | g :: gs => do
    meetGroup stack g
    meet stack gs

/-- The meet of `a` and `b` in a new disjoint set: what happened, and `a`, `b` and the new one afterwards. -/
def meetOf [Cfg] (stack : Nat) (order : List (T × Nat) → List (T × Nat))
    (order' : List (Nat × List T) → List (Nat × List T)) (a b : DSet T) : Except Fault Unit × DSet T × DSet T × DSet T :=
  match DSet.iterate stack order order' a with
  | (.ok gs, a) =>
    let (r, (b, c)) := meet stack gs (b, DSet.new)
    (r, a, b, c)
  | (.error e, a) => (.error e, a, b, DSet.new)

end DS
