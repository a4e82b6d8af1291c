import Verif.Map.HashMap
/-!
# Model of `src/disjoint_set`

* `T: Hash + Eq` is a type with decidable equality. The hasher only influences iteration orders, which are
  arguments. `fast_disjoint_set.rs:13` (`FastDisjointSet`) is the same type with another hasher.
* A key handed to the code may panic when it is hashed or compared; this is a flag next to the key (`kp`).
  Rehashing calls `hash` on stored keys too; it is assumed not to panic there (see `ModelRehash.lean`).
* An iterator given by the user is the list of its items and a flag saying whether it panics after them.
* `stack` is the number of stack frames the recursion of `find_with_path_compression` may use.
* Of capacities only the panic "capacity overflow" of an explicit `reserve` is modelled here (flag `cp`): it leaves
  the contents alone. Capacities, growth on insertion and refused requests for memory are in `ModelMem.lean`.
* `Clone` copies the state. `Debug` is in `ModelDebug.lean`.
-/

open Rust
namespace DS

/-- `u32::MAX` -/
def u32Max : Nat := 2 ^ 32 - 1

/-- `r + 1` on `u32` -/
def u32Succ [Cfg] (r : Nat) : Except Fault Nat :=
  if r + 1 ≤ u32Max then .ok (r + 1)
  else if Cfg.overflowChecks then .error .overflow
  else .ok 0

/-- disjoint_set.rs:10-14 `Data` -/
structure Data where
  parent : Nat
  rank : Nat
deriving DecidableEq, Repr

/-- disjoint_set.rs:17-22 `Data::new` -/
def Data.new (id : Nat) : Data := { parent := id, rank := 0 }

/-- disjoint_set.rs:105-108 `DisjointSet` -/
structure DSet (T : Type) where
  ids : HMap T Nat
  dataById : List Data
deriving DecidableEq, Repr

/-- `data_by_id[id]` -/
def at' (id : Nat) : M (List Data) Data := fun d =>
  match d[id]? with
  | some x => (.ok x, d)
  | none => (.error .indexOutOfBounds, d)

/-- `data_by_id[id].parent = p` -/
def setParent (id p : Nat) : M (List Data) Unit := fun d =>
  match d[id]? with
  | some x => (.ok (), d.set id { x with parent := p })
  | none => (.error .indexOutOfBounds, d)

/-- `data_by_id[id].rank += 1` -/
def incRank [Cfg] (id : Nat) : M (List Data) Unit := fun d =>
  match d[id]? with
  | some x =>
    match u32Succ x.rank with
    | .ok r => (.ok (), d.set id { x with rank := r })
    | .error e => (.error e, d)
  | none => (.error .indexOutOfBounds, d)

/-- disjoint_set.rs:256-263 `find_with_path_compression` -/
def find : Nat → Nat → M (List Data) Nat
  | 0, _ => M.throw .stackOverflow
  | stack + 1, id => do
    let x ← at' id
    if x.parent ≠ id then
      let parent ← find stack x.parent
      setParent id parent
      return parent
    else return x.parent

/-- disjoint_set.rs:177-193, the part of `union` that works on `data_by_id` -/
def unionIds [Cfg] (stack a b : Nat) : M (List Data) Unit := do
  let aRoot ← find stack a
  let bRoot ← find stack b
  if aRoot = bRoot then return ()
  let x ← at' aRoot
  let y ← at' bRoot
  let (aRoot, bRoot) := if x.rank < y.rank then (bRoot, aRoot) else (aRoot, bRoot)
  setParent bRoot aRoot
  let x ← at' aRoot
  let y ← at' bRoot
  if x.rank = y.rank then incRank aRoot

namespace DSet
variable {T : Type} [DecidableEq T]

/-- a step that only works on `data_by_id` -/
def onData {α : Type} (m : M (List Data) α) : M (DSet T) α := fun s =>
  let (r, d) := m s.dataById
  (r, { s with dataById := d })

/-- disjoint_set.rs:275-283 `Default::default`, 113-115 `new`, 123-128 `with_capacity`, 135-140
`with_hasher`, 148-153 `with_capacity_and_hasher` -/
def new : DSet T := { ids := HMap.empty, dataById := [] }

/-- disjoint_set.rs:242-254 `make_or_get_set`; `kp`: hashing or comparing the key panics, or the key is a
duplicate and its destructor panics when the occupied entry is dropped (the map is unchanged in each case) -/
def makeOrGetSet (val : T) (kp : Bool) : M (DSet T) Nat := fun s =>
  if kp then (.error .user, s)
  else
    let nextId := s.ids.len
    match s.ids.get val with
    | none => (.ok nextId, { ids := s.ids.insert val nextId, dataById := s.dataById ++ [Data.new nextId] })
    | some id => (.ok id, s)

/-- disjoint_set.rs:162-164 `make_set` -/
def makeSet (val : T) (kp : Bool) : M (DSet T) Unit := do
  let _ ← makeOrGetSet val kp
  return ()

/-- disjoint_set.rs:174-194 `union` -/
def union [Cfg] (stack : Nat) (a b : T) (ap bp : Bool) : M (DSet T) Unit := do
  let a ← makeOrGetSet a ap
  let b ← makeOrGetSet b bp
  onData (unionIds stack a b)

/-- disjoint_set.rs:201-203 `contains` -/
def contains (val : T) (kp : Bool) : M (DSet T) Bool := fun s =>
  if kp then (.error .user, s) else (.ok (s.ids.containsKey val), s)

/-- `self.ids.get(key)` with a key that may panic -/
def lookup (key : T) (kp : Bool) : M (DSet T) (Option Nat) := fun s =>
  if kp then (.error .user, s) else (.ok (s.ids.get key), s)

/-- disjoint_set.rs:210-222 `in_union` -/
def inUnion (stack : Nat) (a b : T) (ap bp : Bool) : M (DSet T) Bool := do
  match ← lookup a ap with
  | none => return false
  | some a =>
    match ← lookup b bp with
    | none => return false
    | some b =>
      let x ← onData (find stack a)
      let y ← onData (find stack b)
      return decide (x = y)

/-- disjoint_set.rs:224-226 `is_empty` -/
def isEmpty (s : DSet T) : Bool := s.ids.isEmpty
/-- disjoint_set.rs:228-230 `len` -/
def len (s : DSet T) : Nat := s.ids.len

/-- disjoint_set.rs:232-235 `clear`; `dp` says whether the destructor of some element panics, in which case
`HashMap::clear` still empties the map before the panic goes on. -/
def clear (dp : Bool) : M (DSet T) Unit := do
  M.modify fun s => { s with ids := HMap.empty }
  if dp then M.throw .user
  M.modify fun s => { s with dataById := [] }

/-- disjoint_set.rs:237-240 `reserve`: capacity only; `cp` says whether one of the two requests is larger than
can be allocated -/
def reserve (_additional : Nat) (cp : Bool) : M (DSet T) Unit :=
  if cp then M.throw .capacityOverflow else pure ()

/-- the loop of disjoint_set.rs:267-270 -/
def buildLoop (stack : Nat) : List (T × Nat) → HMap Nat (List T) → M (DSet T) (HMap Nat (List T))
  | [], map => pure map
  | (key, val) :: rest, map => do
    let root ← onData (find stack val)
    let (group, map) := map.orInsert root []
    buildLoop stack rest (map.insert root (group ++ [key]))

/-- disjoint_set.rs:265-272 `build_sets`; `order` is the iteration order of `self.ids` -/
def buildSets (stack : Nat) (order : List (T × Nat) → List (T × Nat)) : M (DSet T) (HMap Nat (List T)) :=
  fun s => buildLoop stack (order s.ids.entries) HMap.empty s

/-- disjoint_set.rs:368-375 `IntoIterator for &mut DisjointSet` run to its end, and 39-49 `SetIter::next`; the
groups come in the iteration order `order'` of the local map. -/
def iterate (stack : Nat) (order : List (T × Nat) → List (T × Nat))
    (order' : List (Nat × List T) → List (Nat × List T)) : M (DSet T) (List (List T)) := do
  let sets ← buildSets stack order
  return (order' sets.entries).map fun (_key, vect) => vect

/-- the loop of disjoint_set.rs:299-301 -/
def fromIterLoop : List T → Bool → M (DSet T) Unit
  | [], p => if p then M.throw .user else pure ()
  | val :: rest, p => do
    makeSet val false
    fromIterLoop rest p

/-- disjoint_set.rs:296-303 `FromIterator<T>` -/
def fromIter (items : List T) (p : Bool) : Except Fault (DSet T) :=
  match fromIterLoop items p new with
  | (.ok _, s) => .ok s
  | (.error e, _) => .error e

/-- the loop of disjoint_set.rs:320-322 -/
def fromIterRefLoop : List T → Bool → M (DSet T) Unit
  | [], p => if p then M.throw .user else pure ()
  | val :: rest, p => do
    makeSet val false
    fromIterRefLoop rest p

/-- disjoint_set.rs:317-324 `FromIterator<&T>` -/
def fromIterRef (items : List T) (p : Bool) : Except Fault (DSet T) :=
  match fromIterRefLoop items p new with
  | (.ok _, s) => .ok s
  | (.error e, _) => .error e

/-- the loop of disjoint_set.rs:342-344; `p`: after the items the iterator panics, or handling the next key does,
which has the same effect -/
def extendLoop : List T → Bool → M (DSet T) Unit
  | [], p => if p then M.throw .user else pure ()
  | val :: rest, p => do
    makeSet val false
    extendLoop rest p

/-- disjoint_set.rs:339-345 `Extend<T>`; `hint` is the iterator's lower size bound -/
def extend (hint : Nat) (cp : Bool) (items : List T) (p : Bool) : M (DSet T) Unit := do
  reserve hint cp
  extendLoop items p

/-- the loop of disjoint_set.rs:362-364 -/
def extendRefLoop : List T → Bool → M (DSet T) Unit
  | [], p => if p then M.throw .user else pure ()
  | val :: rest, p => do
    makeSet val false
    extendRefLoop rest p

/-- disjoint_set.rs:359-365 `Extend<&T>` -/
def extendRef (hint : Nat) (cp : Bool) (items : List T) (p : Bool) : M (DSet T) Unit := do
  reserve hint cp
  extendRefLoop items p

end DSet
end DS
