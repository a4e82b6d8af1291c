import Verif.DS.Spec
/-!
# Specification vocabulary: groups that are far apart

Single-linkage clustering: all points start on their own, and the closest pair of points that are still in different groups
is united until the wanted number of groups is left.
-/

open Rust
namespace DS

variable {T : Type} [DecidableEq T]

/-- ```
for (a, b) in pairs {
    if groups <= wanted { break; }
    if !ds.in_union(&a, &b) {
        ds.union(a, b);
        groups -= 1;
    }
}
``` -/
def unite [Cfg] (stack wanted : Nat) : List (T × T) → Nat → M (DSet T) Unit
  | [], _ => pure ()
  | p :: pairs, groups => do
    if groups ≤ wanted then pure ()
    else if ← DSet.inUnion stack p.1 p.2 false false then unite stack wanted pairs groups
    else
      DSet.union stack p.1 p.2 false false
      let groups ← M.lift (usub groups 1)
      unite stack wanted pairs groups

/-- ```
let mut ds: DisjointSet<T> = points.into_iter().collect();
let mut groups = ds.len();
…
ds.into_iter().collect()
```
`order` and `order'` are the orders in which the hash maps are iterated. -/
def cluster [Cfg] (stack wanted : Nat) (order : List (T × Nat) → List (T × Nat))
    (order' : List (Nat × List T) → List (Nat × List T)) (points : List T) (pairs : List (T × T)) :
    Except Fault (List (List T)) := do
  let ds ← DSet.fromIter points false
  ((do unite stack wanted pairs ds.len; DSet.iterate stack order order') ds).1

/-- groups that are not empty and list every point exactly once -/
structure Grouping (points : List T) (groups : List (List T)) : Prop where
  nonempty : ∀ g ∈ groups, g ≠ []
  once : groups.flatten.Nodup
  all : ∀ x, x ∈ groups.flatten ↔ x ∈ points

/-- two points are in different groups -/
def Separated (groups : List (List T)) (p q : T) : Prop :=
  p ∈ groups.flatten ∧ q ∈ groups.flatten ∧ ¬ ∃ g ∈ groups, p ∈ g ∧ q ∈ g

end DS
