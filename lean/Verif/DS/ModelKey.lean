import Verif.DS.Model
import Verif.Map.KeyMap
/-!
# Disjoint sets of values that compare equal without being the same

The methods of `DS/Model.lean` that handle elements again, with elements compared (and hashed) by `key`, see
`Map/KeyMap.lean`. What works on `data_by_id` only is the same. The methods that take a reference store `clone x`,
which compares equal to `x`.
-/

open Rust
namespace DS.Key

variable {T K : Type} [DecidableEq K] (key : T → K) (clone : T → T)

/-- disjoint_set.rs:275-283 `Default::default` and the other empty constructors -/
def new : DSet T := { ids := ⟨[]⟩, dataById := [] }

/-- a step that only works on `data_by_id` -/
def onData {α : Type} (m : M (List Data) α) : M (DSet T) α := fun s =>
  let (r, d) := m s.dataById
  (r, { s with dataById := d })

/-- disjoint_set.rs:242-254 `make_or_get_set` -/
def makeOrGetSet (val : T) (kp : Bool) : M (DSet T) Nat := fun s =>
  if kp then (.error .user, s)
  else
    let nextId := s.ids.len
    match KMap.get key s.ids val with
    | none =>
      (.ok nextId, { ids := KMap.insert key s.ids val nextId, dataById := s.dataById ++ [Data.new nextId] })
    | some id => (.ok id, s)

/-- disjoint_set.rs:162-164 `make_set` -/
def makeSet (val : T) (kp : Bool) : M (DSet T) Unit := do
  let _ ← makeOrGetSet key val kp
  return ()

/-- disjoint_set.rs:174-194 `union` -/
def union [Cfg] (stack : Nat) (a b : T) (ap bp : Bool) : M (DSet T) Unit := do
  let a ← makeOrGetSet key a ap
  let b ← makeOrGetSet key b bp
  onData (unionIds stack a b)

/-- disjoint_set.rs:201-203 `contains` -/
def contains (val : T) (kp : Bool) : M (DSet T) Bool := fun s =>
  if kp then (.error .user, s) else (.ok (KMap.get key s.ids val).isSome, s)

/-- `self.ids.get(key)` with a key that may panic -/
def lookup (val : T) (kp : Bool) : M (DSet T) (Option Nat) := fun s =>
  if kp then (.error .user, s) else (.ok (KMap.get key s.ids val), s)

/-- disjoint_set.rs:210-222 `in_union` -/
def inUnion (stack : Nat) (a b : T) (ap bp : Bool) : M (DSet T) Bool := do
  match ← lookup key a ap with
  | none => return false
  | some a =>
    match ← lookup key b bp with
    | none => return false
    | some b =>
      let x ← onData (find stack a)
      let y ← onData (find stack b)
      return decide (x = y)

/-- disjoint_set.rs:224-226 `is_empty` -/
def isEmpty (s : DSet T) : Bool := s.ids.isEmpty
/-- disjoint_set.rs:228-230 `len` -/
def len (s : DSet T) : Nat := s.ids.len

/-- disjoint_set.rs:232-235 `clear` -/
def clear : M (DSet T) Unit := do
  M.modify fun s => { s with ids := ⟨[]⟩ }
  M.modify fun s => { s with dataById := [] }

/-- disjoint_set.rs:237-240 `reserve` -/
def reserve (_additional : Nat) (cp : Bool) : M (DSet T) Unit :=
  if cp then M.throw .capacityOverflow else pure ()

/-- the loop of disjoint_set.rs:267-270 -/
def buildLoop (stack : Nat) : List (T × Nat) → HMap Nat (List T) → M (DSet T) (HMap Nat (List T))
  | [], map => pure map
  | (x, val) :: rest, map => do
    let root ← onData (find stack val)
    let (group, map) := map.orInsert root []
    buildLoop stack rest (map.insert root (group ++ [x]))

/-- disjoint_set.rs:265-272 `build_sets` -/
def buildSets (stack : Nat) (order : List (T × Nat) → List (T × Nat)) : M (DSet T) (HMap Nat (List T)) :=
  fun s => buildLoop stack (order s.ids.entries) HMap.empty s

/-- disjoint_set.rs:368-375 `IntoIterator for &mut DisjointSet` run to its end, and 39-49 `SetIter::next` -/
def iterate (stack : Nat) (order : List (T × Nat) → List (T × Nat))
    (order' : List (Nat × List T) → List (Nat × List T)) : M (DSet T) (List (List T)) := do
  let sets ← buildSets stack order
  return (order' sets.entries).map fun (_key, vect) => vect

/-- the loop of disjoint_set.rs:342-344, also 299-301 -/
def extendLoop : List T → Bool → M (DSet T) Unit
  | [], p => if p then M.throw .user else pure ()
  | val :: rest, p => do
    makeSet key val false
    extendLoop rest p

/-- the loop of disjoint_set.rs:362-364, also 320-322 -/
def extendRefLoop : List T → Bool → M (DSet T) Unit
  | [], p => if p then M.throw .user else pure ()
  | val :: rest, p => do
    makeSet key (clone val) false
    extendRefLoop rest p

/-- disjoint_set.rs:339-345 `Extend<T>` -/
def extend (hint : Nat) (cp : Bool) (items : List T) (p : Bool) : M (DSet T) Unit := do
  reserve hint cp
  extendLoop key items p

/-- disjoint_set.rs:359-365 `Extend<&T>` -/
def extendRef (hint : Nat) (cp : Bool) (items : List T) (p : Bool) : M (DSet T) Unit := do
  reserve hint cp
  extendRefLoop key clone items p

/-- disjoint_set.rs:296-303 `FromIterator<T>` -/
def fromIter (items : List T) (p : Bool) : Except Fault (DSet T) :=
  match extendLoop key items p new with
  | (.ok _, s) => .ok s
  | (.error e, _) => .error e

/-- disjoint_set.rs:317-324 `FromIterator<&T>` -/
def fromIterRef (items : List T) (p : Bool) : Except Fault (DSet T) :=
  match extendRefLoop key clone items p new with
  | (.ok _, s) => .ok s
  | (.error e, _) => .error e

end DS.Key
