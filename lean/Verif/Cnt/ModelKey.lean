import Verif.Cnt.Model
import Verif.Map.KeyMap
/-!
# Counters of values that compare equal without being the same

The methods of `Cnt/Model.lean` again, with values compared (and hashed) by `key`, see `Map/KeyMap.lean`. The methods
that clone a value store `clone x`, which compares equal to `x` but need not be the same.
-/

open Rust
namespace Cnt.Key

variable {T K : Type} [DecidableEq K] (key : T → K) (clone : T → T)

/-- counter.rs:223-234 `Default::default` and the other empty constructors -/
def new : Counter T := { counter := ⟨[]⟩ }

/-- counter.rs:503-521 `From<HashMap>`; `order` is the iteration order of `rhs` -/
def fromMap (order : List (T × Nat)) : Counter T := { counter := KMap.fromIter key order }

/-- counter.rs:523-534 `From<&HashMap>` -/
def fromMapRef (order : List (T × Nat)) : Counter T :=
  { counter := KMap.fromIter key (order.map fun e => (clone e.1, e.2)) }

/-- counter.rs:38 derived `PartialEq` -/
def eq (a b : Counter T) : Bool := KMap.eq key a.counter b.counter

/-- counter.rs:165-169 `into_most_common` -/
def intoMostCommon [Cfg] (sort : List (Nat × (T × Nat)) → List (Nat × (T × Nat))) (order : List (T × Nat)) :
    Except Fault (List (T × Nat)) := do
  let keyed ← order.mapM fun e => do return (← usub usizeMax e.2, e)
  return (sort keyed).map (·.2)

/-- counter.rs:190-200 `most_common` -/
def mostCommon [Cfg] (sort : List (Nat × (T × Nat)) → List (Nat × (T × Nat))) (order : List (T × Nat)) :
    Except Fault (List (T × Nat)) := do
  let res := order.map fun e => (clone e.1, e.2)
  let keyed ← res.mapM fun e => do return (← usub usizeMax e.2, e)
  return (sort keyed).map (·.2)

/-- `*map.entry(x).or_insert(0) += val` -/
def entryAdd [Cfg] (map : HMap T Nat) (x : T) (val : Nat) : Except Fault Unit × HMap T Nat :=
  let (cur, m) := KMap.orInsert key map x 0
  match uadd cur val with
  | .ok v => (.ok (), KMap.insert key m x v)
  | .error e => (.error e, m)

/-- counter.rs:218-220 `push` -/
def push [Cfg] (val : T) : M (Counter T) Unit := fun self =>
  let (r, m) := entryAdd key self.counter val 1
  (r, { self with counter := m })

/-- counter.rs:313-319 `Extend<T>`, also the loop of counter.rs:245-247 -/
def extend [Cfg] : List T → Bool → M (Counter T) Unit
  | [], panics => if panics then M.throw .user else pure ()
  | x :: rest, panics => do
    push key x
    extend rest panics

/-- counter.rs:328-334 `Extend<&T>`; the items are copied bitwise (`T: Copy`) -/
def extendRef [Cfg] : List T → Bool → M (Counter T) Unit
  | [], panics => if panics then M.throw .user else pure ()
  | x :: rest, panics => do
    push key x
    extendRef rest panics

/-- the loop of counter.rs:261-263 -/
def fromIterRefLoop [Cfg] : List T → Bool → M (Counter T) Unit
  | [], panics => if panics then M.throw .user else pure ()
  | x :: rest, panics => do
    push key (clone x)
    fromIterRefLoop rest panics

/-- counter.rs:242-249 `FromIterator<T>` -/
def fromIter [Cfg] (items : List T) (panics : Bool := false) : Except Fault (Counter T) :=
  Counter.owned (extend key items panics) new

/-- counter.rs:258-265 `FromIterator<&T>` -/
def fromIterRef [Cfg] (items : List T) (panics : Bool := false) : Except Fault (Counter T) :=
  Counter.owned (fromIterRefLoop key clone items panics) new

/-- counter.rs:365-369 `AddAssign<Counter>`; `order` is the iteration order of the right-hand side -/
def addAssign [Cfg] (order : List (T × Nat)) (panics : Bool) : M (Counter T) Unit :=
  match order with
  | [] => if panics then M.throw .user else pure ()
  | (x, val) :: rest => do
    (fun self => let (r, m) := entryAdd key self.counter x val; (r, { self with counter := m }))
    addAssign rest panics

/-- counter.rs:378-382 `AddAssign<&Counter>`, also the loop of counter.rs:406-408 -/
def addAssignRef [Cfg] (order : List (T × Nat)) (panics : Bool) : M (Counter T) Unit :=
  match order with
  | [] => if panics then M.throw .user else pure ()
  | (x, val) :: rest => do
    (fun self => let (r, m) := entryAdd key self.counter (clone x) val; (r, { self with counter := m }))
    addAssignRef rest panics

/-- counter.rs:392-395 `Add<Counter>` -/
def add [Cfg] (order : List (T × Nat)) (self : Counter T) : Except Fault (Counter T) :=
  Counter.owned (addAssign key order false) self

/-- counter.rs:405-410 `Add<&Counter>` -/
def addRef [Cfg] (order : List (T × Nat)) (self : Counter T) : Except Fault (Counter T) :=
  Counter.owned (addAssignRef key clone order false) self

/-- one round of the loops of counter.rs:420-434, 445-459 and 484-498 -/
def subAssignStep [Cfg] (x : T) (val : Nat) : M (Counter T) Unit := fun self =>
  match KMap.get key self.counter x with
  | some cur =>
    if cur ≤ val then (.ok (), { self with counter := KMap.remove key self.counter x })
    else
      match usub cur val with
      | .ok newVal => (.ok (), { self with counter := KMap.insert key self.counter x newVal })
      | .error e => (.error e, self)
  | none => (.ok (), self)

/-- counter.rs:419-435 `SubAssign<Counter>` -/
def subAssign [Cfg] (order : List (T × Nat)) (panics : Bool) : M (Counter T) Unit :=
  match order with
  | [] => if panics then M.throw .user else pure ()
  | (x, val) :: rest => do
    subAssignStep key x val
    subAssign rest panics

/-- counter.rs:444-460 `SubAssign<&Counter>`, also the loop of counter.rs:484-498 -/
def subAssignRef [Cfg] (order : List (T × Nat)) (panics : Bool) : M (Counter T) Unit :=
  match order with
  | [] => if panics then M.throw .user else pure ()
  | (x, val) :: rest => do
    subAssignStep key (clone x) val
    subAssignRef rest panics

/-- counter.rs:470-473 `Sub<Counter>` -/
def sub [Cfg] (order : List (T × Nat)) (self : Counter T) : Except Fault (Counter T) :=
  Counter.owned (subAssign key order false) self

/-- counter.rs:483-500 `Sub<&Counter>` -/
def subRef [Cfg] (order : List (T × Nat)) (self : Counter T) : Except Fault (Counter T) :=
  Counter.owned (subAssignRef key clone order false) self

end Cnt.Key
