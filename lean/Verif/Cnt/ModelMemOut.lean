import Verif.Cnt.ModelMem
/-!
# The memory of what is made from counters and maps

The conversions from maps collect into a map of their own, `most_common` and `into_most_common` into a vector. Iterators of
maps announce exactly what they yield (std).
-/

open Rust Mem
namespace Cnt.Mem

variable {T : Type} [DecidableEq T]

/-- the insertions of `HashMap::from_iter` (std); `panics` says that the user's `Clone` panics after these entries -/
def insertAll (std : Std) : List (T × Nat) → Bool → M (State T) Unit
  | [], panics => if panics then M.throw .user else pure ()
  | (key, val) :: rest, panics => do
    entry std key
    M.modify fun s => ({ s.1 with counter := s.1.counter.insert key val }, s.2)
    insertAll std rest panics

/-- counter.rs:516-520 `From<HashMap>`, 529-533 `From<&HashMap>`: `size` is the number of entries the iterator announces,
`order` the entries it yields -/
def fromMap (std : Std) (size : Nat) (order : List (T × Nat)) (panics : Bool) : Except Fault (State T) := do
  let map ← withCapacity std size
  owned (insertAll std order panics) map

/-- the pushes of `Vec::from_iter` (std) on a vector of `len` elements -/
def pushEach (std : Std) (len : Nat) : List (T × Nat) → Bool → M Room Unit
  | [], panics => if panics then M.throw .user else pure ()
  | _ :: rest, panics => do
    Room.reserve std len 1
    pushEach std (len + 1) rest panics

/-- counter.rs:166 and 194-197: the entries are collected into a vector -/
def collect (std : Std) (size : Nat) (order : List (T × Nat)) (panics : Bool) : Except Fault Room :=
  match (do Room.reserve std 0 size; pushEach std 0 order panics : M Room Unit) {} with
  | (.ok _, room) => .ok room
  | (.error e, _) => .error e

/-- counter.rs:165-169 `into_most_common`, 190-200 `most_common`: the list, and the memory of the vector. Sorting is in
place (std). -/
def mostCommon [Cfg] (std : Std) (sort : List (Nat × (T × Nat)) → List (Nat × (T × Nat))) (size : Nat)
    (order : List (T × Nat)) (panics : Bool) : Except Fault (List (T × Nat) × Room) := do
  let room ← collect std size order panics
  let res ← Counter.mostCommon sort order
  return (res, room)

end Cnt.Mem
