import Verif.Map.HashMap
/-!
# Model of `src/counter`

* `T: Hash + Eq` is a type with decidable equality; the hasher only influences the iteration order, which is
  an argument (`order`) wherever the code iterates over a map. `fast_counter.rs:13` (`FastCounter`) is the
  same type with another hasher, so everything said here is also said about it.
* `Clone` returns an equal value; by-reference variants take the referenced value.
* `size_hint`, `reserve` and `with_capacity` only influence the capacity, which is modelled, with refused requests for
  memory, in `ModelMem.lean`.
* An iterator given by the user is the list of items it yields and a flag saying whether it panics after
  them.
* The loops of `+=` and `-=` have the same flag: the user's `Hash`, `Eq` or `Clone` panics on the entry after the
  given ones. Those are called by `entry(key)` only, before the map is touched. (`or_insert` may also grow the map,
  which hashes keys again; a panic in there is not modelled, the standard library may then lose entries.)
* `Deref`/`DerefMut` (counter.rs:337-357) give the whole map to the user: `counter` is a public field here.
  `IntoIterator` (counter.rs:268-305) is the iteration of the map, that is any permutation of its entries.
* `Debug` (derived) is in `ModelDebug.lean`.
-/

open Rust
namespace Cnt

variable {T : Type} [DecidableEq T]

/-- counter.rs:38-46 `Counter` -/
structure Counter (T : Type) where
  counter : HMap T Nat
deriving DecidableEq, Repr

namespace Counter

/-- counter.rs:223-234 `Default::default`, 68-70 `new`, 90-94 `with_capacity`, 102-106 `with_hasher`,
114-118 `with_capacity_and_hasher` -/
def new : Counter T := { counter := HMap.empty }

/-- counter.rs:142-144 `from_hashmap` -/
def fromHashmap (rhs : HMap T Nat) : Counter T := { counter := rhs }

/-- counter.rs:503-521 `From<HashMap>`; `order` is the iteration order of `rhs` -/
def fromMap (order : List (T × Nat)) : Counter T := { counter := HMap.fromIter order }

/-- counter.rs:523-534 `From<&HashMap>` -/
def fromMapRef (order : List (T × Nat)) : Counter T :=
  { counter := HMap.fromIter (order.map fun e => (e.1, e.2)) }

/-- `counter.get(&k)` through `Deref` -/
def get (c : Counter T) (k : T) : Option Nat := c.counter.get k
/-- `counter.len()` through `Deref` -/
def len (c : Counter T) : Nat := c.counter.len

/-- counter.rs:38 derived `PartialEq`: equality of the maps -/
def eq (a b : Counter T) : Bool := a.counter.eq b.counter

/-- counter.rs:165-169 `into_most_common`. The keys `usize::MAX - val` are computed with the build's
arithmetic; `sort` sorts pairs by their first component. -/
def intoMostCommon [Cfg] (sort : List (Nat × (T × Nat)) → List (Nat × (T × Nat))) (order : List (T × Nat)) :
    Except Fault (List (T × Nat)) := do
  let keyed ← order.mapM fun e => do return (← usub usizeMax e.2, e)
  return (sort keyed).map (·.2)

/-- counter.rs:190-200 `most_common` -/
def mostCommon [Cfg] (sort : List (Nat × (T × Nat)) → List (Nat × (T × Nat))) (order : List (T × Nat)) :
    Except Fault (List (T × Nat)) := do
  let res := order.map fun e => (e.1, e.2)
  let keyed ← res.mapM fun e => do return (← usub usizeMax e.2, e)
  return (sort keyed).map (·.2)

/-- `*map.entry(key).or_insert(0) += val` -/
def entryAdd [Cfg] (map : HMap T Nat) (key : T) (val : Nat) : Except Fault Unit × HMap T Nat :=
  let (cur, m) := map.orInsert key 0
  match uadd cur val with
  | .ok v => (.ok (), m.insert key v)
  | .error e => (.error e, m)

/-- counter.rs:218-220 `push` -/
def push [Cfg] (val : T) : M (Counter T) Unit := fun self =>
  let (r, m) := entryAdd self.counter val 1
  (r, { self with counter := m })

/-- result of a function that owns the counter it works on: a panic drops it -/
def owned {α : Type} (m : M (Counter T) α) (self : Counter T) : Except Fault (Counter T) :=
  match m self with
  | (.ok _, s) => .ok s
  | (.error e, _) => .error e

/-- the loop of counter.rs:245-247 -/
def fromIterLoop [Cfg] : List T → Bool → M (Counter T) Unit
  | [], panics => if panics then M.throw .user else pure ()
  | key :: rest, panics => do
    push key
    fromIterLoop rest panics

/-- counter.rs:242-249 `FromIterator<T>` -/
def fromIter [Cfg] (items : List T) (panics : Bool := false) : Except Fault (Counter T) :=
  owned (fromIterLoop items panics) new

/-- the loop of counter.rs:261-263 -/
def fromIterRefLoop [Cfg] : List T → Bool → M (Counter T) Unit
  | [], panics => if panics then M.throw .user else pure ()
  | key :: rest, panics => do
    push key
    fromIterRefLoop rest panics

/-- counter.rs:258-265 `FromIterator<&T>` -/
def fromIterRef [Cfg] (items : List T) (panics : Bool := false) : Except Fault (Counter T) :=
  owned (fromIterRefLoop items panics) new

/-- counter.rs:313-319 `Extend<T>` -/
def extend [Cfg] : List T → Bool → M (Counter T) Unit
  | [], panics => if panics then M.throw .user else pure ()
  | key :: rest, panics => do
    push key
    extend rest panics

/-- counter.rs:328-334 `Extend<&T>` -/
def extendRef [Cfg] : List T → Bool → M (Counter T) Unit
  | [], panics => if panics then M.throw .user else pure ()
  | key :: rest, panics => do
    push key
    extendRef rest panics

/-- counter.rs:365-369 `AddAssign<Counter>`; `order` is the iteration order of the right-hand side -/
def addAssign [Cfg] (order : List (T × Nat)) (panics : Bool) : M (Counter T) Unit :=
  match order with
  | [] => if panics then M.throw .user else pure ()
  | (key, val) :: rest => do
    (fun self => let (r, m) := entryAdd self.counter key val; (r, { self with counter := m }))
    addAssign rest panics

/-- counter.rs:378-382 `AddAssign<&Counter>` -/
def addAssignRef [Cfg] (order : List (T × Nat)) (panics : Bool) : M (Counter T) Unit :=
  match order with
  | [] => if panics then M.throw .user else pure ()
  | (key, val) :: rest => do
    (fun self => let (r, m) := entryAdd self.counter key val; (r, { self with counter := m }))
    addAssignRef rest panics

/-- counter.rs:392-395 `Add<Counter>` -/
def add [Cfg] (order : List (T × Nat)) (self : Counter T) : Except Fault (Counter T) :=
  owned (addAssign order false) self

/-- the loop of counter.rs:406-408 -/
def addRefLoop [Cfg] (order : List (T × Nat)) (panics : Bool) : M (Counter T) Unit :=
  match order with
  | [] => if panics then M.throw .user else pure ()
  | (key, val) :: rest => do
    (fun self => let (r, m) := entryAdd self.counter key val; (r, { self with counter := m }))
    addRefLoop rest panics

/-- counter.rs:405-410 `Add<&Counter>` -/
def addRef [Cfg] (order : List (T × Nat)) (self : Counter T) : Except Fault (Counter T) :=
  owned (addRefLoop order false) self

/-- one round of the loop of counter.rs:420-434 -/
def subAssignStep [Cfg] (key : T) (val : Nat) : M (Counter T) Unit := fun self =>
  match self.counter.get key with
  | some cur =>
    if cur ≤ val then (.ok (), { self with counter := self.counter.remove key })
    else
      match usub cur val with
      | .ok newVal => (.ok (), { self with counter := self.counter.insert key newVal })
      | .error e => (.error e, self)
  | none => (.ok (), self)

/-- counter.rs:419-435 `SubAssign<Counter>` -/
def subAssign [Cfg] (order : List (T × Nat)) (panics : Bool) : M (Counter T) Unit :=
  match order with
  | [] => if panics then M.throw .user else pure ()
  | (key, val) :: rest => do
    subAssignStep key val
    subAssign rest panics

/-- one round of the loop of counter.rs:445-459 -/
def subAssignRefStep [Cfg] (key : T) (val : Nat) : M (Counter T) Unit := fun self =>
  match self.counter.get key with
  | some cur =>
    if cur ≤ val then (.ok (), { self with counter := self.counter.remove key })
    else
      match usub cur val with
      | .ok newVal => (.ok (), { self with counter := self.counter.insert key newVal })
      | .error e => (.error e, self)
  | none => (.ok (), self)

/-- counter.rs:444-460 `SubAssign<&Counter>` -/
def subAssignRef [Cfg] (order : List (T × Nat)) (panics : Bool) : M (Counter T) Unit :=
  match order with
  | [] => if panics then M.throw .user else pure ()
  | (key, val) :: rest => do
    subAssignRefStep key val
    subAssignRef rest panics

/-- counter.rs:470-473 `Sub<Counter>` -/
def sub [Cfg] (order : List (T × Nat)) (self : Counter T) : Except Fault (Counter T) :=
  owned (subAssign order false) self

/-- one round of the loop of counter.rs:484-498 -/
def subRefStep [Cfg] (key : T) (val : Nat) : M (Counter T) Unit := fun self =>
  match self.counter.get key with
  | some cur =>
    if cur ≤ val then (.ok (), { self with counter := self.counter.remove key })
    else
      match usub cur val with
      | .ok newVal => (.ok (), { self with counter := self.counter.insert key newVal })
      | .error e => (.error e, self)
  | none => (.ok (), self)

/-- the loop of counter.rs:484-498 -/
def subRefLoop [Cfg] (order : List (T × Nat)) (panics : Bool) : M (Counter T) Unit :=
  match order with
  | [] => if panics then M.throw .user else pure ()
  | (key, val) :: rest => do
    subRefStep key val
    subRefLoop rest panics

/-- counter.rs:483-500 `Sub<&Counter>` -/
def subRef [Cfg] (order : List (T × Nat)) (self : Counter T) : Except Fault (Counter T) :=
  owned (subRefLoop order false) self

end Counter
end Cnt
