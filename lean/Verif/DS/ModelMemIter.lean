import Verif.DS.ModelMem
/-!
# The memory of an iteration over the groups

`build_sets` and the iterator of `DS/Model.lean` with the memory of the local map from roots to vectors. The map takes
memory when a root is met for the first time, the vector of a root when an element is pushed. If a request is refused,
`build_sets` panics and the local map is dropped; the nodes that were searched stay as the searches left them.
-/

open Rust Mem
namespace DS.Mem

/-- the decisions on the memory of the local map, and on the memory of the vector of each root -/
structure IterStds where
  map : Std
  vec : Nat → Std

/-- the local map of `build_sets` with its memory and that of the vectors in it; disjoint_set.rs:266 makes an empty one,
which has no memory -/
structure Local (T : Type) where
  sets : HMap Nat (List T) := HMap.empty
  map : Room := {}
  /-- the memory of the vector of a root, none if there is no vector -/
  vecs : Nat → Room := fun _ => {}

namespace Local
variable {T : Type}

/-- disjoint_set.rs:269 `map.entry(root).or_insert_with(|| Vec::new())` -/
def entry (std : IterStds) (root : Nat) (l : Local T) : Except Fault (Local T) :=
  match l.sets.get root with
  | some _ => .ok l
  | none =>
    match l.map.reserve std.map l.sets.len 1 with
    | (.ok _, room) => .ok { l with sets := l.sets.insert root [], map := room }
    | (.error e, _) => .error e

/-- disjoint_set.rs:269 `.push(key)` -/
def push (std : IterStds) (root : Nat) (key : T) (l : Local T) : Except Fault (Local T) :=
  let vect := (l.sets.get root).getD []
  match (l.vecs root).reserve (std.vec root) vect.length 1 with
  | (.ok _, room) =>
    .ok { l with sets := l.sets.insert root (vect ++ [key]), vecs := fun r => if r = root then room else l.vecs r }
  | (.error e, _) => .error e

/-- how many elements and groups there is room for, the map and the vectors taken together -/
def slots (l : Local T) : Nat := l.map.slots + (l.sets.entries.map fun e => (l.vecs e.1).slots).sum

/-- how many elements and groups were moved because the map or a vector grew -/
def moved (l : Local T) : Nat := l.map.moved + (l.sets.entries.map fun e => (l.vecs e.1).moved).sum

end Local

variable {T : Type} [DecidableEq T]

/-- the loop of disjoint_set.rs:267-270 -/
def buildLoop (std : IterStds) (stack : Nat) : List (T × Nat) → Local T → M (DSet T) (Local T)
  | [], l => pure l
  | (key, val) :: rest, l => do
    let root ← DSet.onData (find stack val)
    let l ← M.lift (l.entry std root)
    let l ← M.lift (l.push std root key)
    buildLoop std stack rest l

/-- disjoint_set.rs:265-272 `build_sets` -/
def buildSets (std : IterStds) (stack : Nat) (order : List (T × Nat) → List (T × Nat)) : M (DSet T) (Local T) :=
  fun s => buildLoop std stack (order s.ids.entries) {} s

/-- disjoint_set.rs:368-375 `IntoIterator for &mut DisjointSet` run to its end, and 39-49 `SetIter::next`, which take no
memory besides that of `build_sets` -/
def iterate (std : IterStds) (stack : Nat) (order : List (T × Nat) → List (T × Nat))
    (order' : List (Nat × List T) → List (Nat × List T)) : M (DSet T) (List (List T)) := do
  let l ← buildSets std stack order
  return (order' l.sets.entries).map fun (_key, vect) => vect

end DS.Mem
