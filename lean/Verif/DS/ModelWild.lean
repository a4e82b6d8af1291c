import Verif.DS.Model
/-!
# Disjoint sets of elements whose `Hash` or `Eq` is wrong

The methods of `DS/Model.lean` that handle elements again, for element types whose `Hash` and `Eq` keep none of the
promises the standard library asks for: a wrapper around `f64` in which NaN does not equal itself, a key that was
changed behind a `Cell`, `Eq` and `Hash` that disagree. Looking a value up in the table then finds an arbitrary stored
entry or none. Which one is a choice `c` that comes with every value handed over: `some i` for the entry that was
stored as number `i` since the last `clear`, anything else for none. Nothing is assumed about the choices. A table that
looks a value up neither changes nor forgets entries, and iteration still shows every entry once. What works on
`data_by_id` only is the same as in `DS/Model.lean`, and so are `len`, `is_empty`, `clear`, `reserve` and iteration.
-/

open Rust
namespace DS.Wild

variable {T : Type}

/-- what the table finds; entries are listed newest first -/
def search (c : Option Nat) (s : DSet T) : Option Nat :=
  c.bind fun i => (s.ids.entries.reverse[i]?).map (·.2)

/-- disjoint_set.rs:242-254 `make_or_get_set` -/
def makeOrGetSet (val : T) (c : Option Nat) (kp : Bool) : M (DSet T) Nat := fun s =>
  if kp then (.error .user, s)
  else
    let nextId := s.ids.len
    match search c s with
    | none => (.ok nextId, { ids := ⟨(val, nextId) :: s.ids.entries⟩, dataById := s.dataById ++ [Data.new nextId] })
    | some id => (.ok id, s)

/-- disjoint_set.rs:162-164 `make_set` -/
def makeSet (val : T) (c : Option Nat) (kp : Bool) : M (DSet T) Unit := do
  let _ ← makeOrGetSet val c kp
  return ()

/-- disjoint_set.rs:174-194 `union` -/
def union [Cfg] (stack : Nat) (a b : T) (ac bc : Option Nat) (ap bp : Bool) : M (DSet T) Unit := do
  let a ← makeOrGetSet a ac ap
  let b ← makeOrGetSet b bc bp
  DSet.onData (unionIds stack a b)

/-- disjoint_set.rs:201-203 `contains` -/
def contains (c : Option Nat) (kp : Bool) : M (DSet T) Bool := fun s =>
  if kp then (.error .user, s) else (.ok (search c s).isSome, s)

/-- `self.ids.get(key)` with a key that may panic -/
def lookup (c : Option Nat) (kp : Bool) : M (DSet T) (Option Nat) := fun s =>
  if kp then (.error .user, s) else (.ok (search c s), s)

/-- disjoint_set.rs:210-222 `in_union` -/
def inUnion (stack : Nat) (ac bc : Option Nat) (ap bp : Bool) : M (DSet T) Bool := do
  match ← lookup ac ap with
  | none => return false
  | some a =>
    match ← lookup bc bp with
    | none => return false
    | some b =>
      let x ← DSet.onData (find stack a)
      let y ← DSet.onData (find stack b)
      return decide (x = y)

/-- the loop of disjoint_set.rs:342-344, also 299-301 -/
def extendLoop : List (T × Option Nat) → Bool → M (DSet T) Unit
  | [], p => if p then M.throw .user else pure ()
  | (val, c) :: rest, p => do
    makeSet val c false
    extendLoop rest p

/-- disjoint_set.rs:339-345 `Extend<T>` -/
def extend (hint : Nat) (cp : Bool) (items : List (T × Option Nat)) (p : Bool) : M (DSet T) Unit := do
  DSet.reserve hint cp
  extendLoop items p

/-- the loop of disjoint_set.rs:362-364, also 320-322; the items are the clones that are stored -/
def extendRefLoop : List (T × Option Nat) → Bool → M (DSet T) Unit
  | [], p => if p then M.throw .user else pure ()
  | (val, c) :: rest, p => do
    makeSet val c false
    extendRefLoop rest p

/-- disjoint_set.rs:359-365 `Extend<&T>` -/
def extendRef (hint : Nat) (cp : Bool) (items : List (T × Option Nat)) (p : Bool) : M (DSet T) Unit := do
  DSet.reserve hint cp
  extendRefLoop items p

/-- disjoint_set.rs:296-303 `FromIterator<T>` -/
def fromIter (items : List (T × Option Nat)) (p : Bool) : Except Fault (DSet T) :=
  match extendLoop items p DSet.new with
  | (.ok _, s) => .ok s
  | (.error e, _) => .error e

/-- disjoint_set.rs:317-324 `FromIterator<&T>` -/
def fromIterRef (items : List (T × Option Nat)) (p : Bool) : Except Fault (DSet T) :=
  match extendRefLoop items p DSet.new with
  | (.ok _, s) => .ok s
  | (.error e, _) => .error e

end DS.Wild
