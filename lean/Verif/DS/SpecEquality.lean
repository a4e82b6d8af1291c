import Verif.DS.Spec
/-!
# Specification vocabulary: a client that decides whether equations and inequations agree

Some unknowns are known to be equal and some to be different; the values they stand for are of any kind.
-/

open Rust
namespace DS

/-- the values agree with all equations and inequations -/
def Agrees {V U : Type} (val : V → U) (equal differ : List (V × V)) : Prop :=
  (∀ p ∈ equal, val p.1 = val p.2) ∧ ∀ p ∈ differ, val p.1 ≠ val p.2

/-- the unknowns of a list of pairs -/
def mentioned {V : Type} (ps : List (V × V)) : List V := ps.flatMap fun p => [p.1, p.2]

variable {V : Type} [DecidableEq V]

/-- `for (a, b) in equal { ds.union(a, b); }` -/
def equateAll [Cfg] (stack : Nat) : List (V × V) → M (DSet V) Unit
  | [] => pure ()
  | (a, b) :: rest => do
    DSet.union stack a b false false
    equateAll stack rest

/-- `differ.iter().all(|(a, b)| !ds.in_union(a, b))` -/
def allApart (stack : Nat) : List (V × V) → M (DSet V) Bool
  | [] => pure true
  | (a, b) :: rest => do
    if ← DSet.inUnion stack a b false false then pure false else allApart stack rest

/-- ```
let mut ds = DisjointSet::new();
for (a, b) in equal { ds.union(a, b); }
ds.extend(differ.iter().flat_map(|(a, b)| [a, b]));
differ.iter().all(|(a, b)| !ds.in_union(a, b))
```
Spare room does not matter here, so the hint of the iterator is taken to be zero. -/
def agree [Cfg] (stack : Nat) (equal differ : List (V × V)) : M (DSet V) Bool := do
  equateAll stack equal
  DSet.extend 0 false (mentioned differ) false
  allApart stack differ

end DS
