import Verif.DS.Model
import Verif.Map.Memory
/-!
# The memory of a disjoint set

The methods of `DS/Model.lean` that need memory, with the capacities of the map and of the vector carried along, and with
the lower size bounds of the iterators (`hint`). A request for memory may be refused. In `make_or_get_set` the key is in
the map already when the vector asks for memory.

The local map `build_sets` returns (disjoint_set.rs:265-272) belongs to the iteration; its memory is in
`DS/ModelMemIter.lean`.
-/

open Rust Mem
namespace DS.Mem

/-- the decisions on the memory of the map and of the vector -/
structure Stds where
  map : Std
  vec : Std

/-- a disjoint set with the memory of `ids` and of `data_by_id` -/
structure State (T : Type) where
  set : DSet T
  ids : Room
  data : Room
deriving DecidableEq, Repr

variable {T : Type} [DecidableEq T]

/-- a method that needs no memory -/
def onSet {α : Type} (m : M (DSet T) α) : M (State T) α := fun s =>
  let (r, d) := m s.set
  (r, { s with set := d })

/-- `self.ids.reserve(additional)` -/
def reserveIds (std : Stds) (additional : Nat) : M (State T) Unit := fun s =>
  let (r, room) := s.ids.reserve std.map s.set.ids.len additional
  (r, { s with ids := room })

/-- `self.data_by_id.reserve(additional)` -/
def reserveData (std : Stds) (additional : Nat) : M (State T) Unit := fun s =>
  let (r, room) := s.data.reserve std.vec s.set.dataById.length additional
  (r, { s with data := room })

/-- disjoint_set.rs:123-128 `with_capacity`, 148-153 `with_capacity_and_hasher`; `new` (113-115) and `with_hasher`
(135-140) make the same as capacity 0 -/
def withCapacity (std : Stds) (capacity : Nat) : Except Fault (State T) :=
  match Room.reserve std.map 0 capacity {} with
  | (.error e, _) => .error e
  | (.ok _, ids) =>
    match Room.reserve std.vec 0 capacity {} with
    | (.error e, _) => .error e
    | (.ok _, data) => .ok { set := DSet.new, ids, data }

/-- disjoint_set.rs:246-251: the key is missing -/
def makeNew (std : Stds) (val : T) (nextId : Nat) : M (State T) Nat := do
  reserveIds std 1
  M.modify fun s => { s with set := { s.set with ids := s.set.ids.insert val nextId } }
  reserveData std 1
  M.modify fun s => { s with set := { s.set with dataById := s.set.dataById ++ [Data.new nextId] } }
  return nextId

/-- disjoint_set.rs:242-254 `make_or_get_set` -/
def makeOrGetSet (std : Stds) (val : T) (kp : Bool) : M (State T) Nat := fun s =>
  if kp then (.error .user, s)
  else
    let nextId := s.set.ids.len
    match s.set.ids.get val with
    | none => makeNew std val nextId s
    | some id => (.ok id, s)

/-- disjoint_set.rs:162-164 `make_set` -/
def makeSet (std : Stds) (val : T) (kp : Bool) : M (State T) Unit := do
  let _ ← makeOrGetSet std val kp
  return ()

/-- disjoint_set.rs:174-194 `union` -/
def union [Cfg] (std : Stds) (stack : Nat) (a b : T) (ap bp : Bool) : M (State T) Unit := do
  let a ← makeOrGetSet std a ap
  let b ← makeOrGetSet std b bp
  onSet (DSet.onData (unionIds stack a b))

/-- disjoint_set.rs:237-240 `reserve` -/
def reserve (std : Stds) (additional : Nat) : M (State T) Unit := do
  reserveData std additional
  reserveIds std additional

/-- the loops of disjoint_set.rs:299-301, 320-322, 342-344 and 362-364 -/
def makeAll (std : Stds) : List T → Bool → M (State T) Unit
  | [], p => if p then M.throw .user else pure ()
  | val :: rest, p => do
    makeSet std val false
    makeAll std rest p

/-- disjoint_set.rs:296-303 `FromIterator<T>`, 317-324 `FromIterator<&T>` -/
def fromIter (std : Stds) (hint : Nat) (items : List T) (p : Bool) : Except Fault (State T) := do
  let ds ← withCapacity std hint
  match makeAll std items p ds with
  | (.ok _, s) => .ok s
  | (.error e, _) => .error e

/-- disjoint_set.rs:339-345 `Extend<T>`, 359-365 `Extend<&T>` -/
def extend (std : Stds) (hint : Nat) (items : List T) (p : Bool) : M (State T) Unit := do
  reserve std hint
  makeAll std items p

end DS.Mem
