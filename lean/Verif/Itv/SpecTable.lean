import Verif.Itv.Spec
import Mathlib.Data.List.Chain
/-!
# Specification vocabulary: a client that keeps intervals in a sorted table

The table is a vector of non-empty intervals, each `<` the next. The client searches it by bisection.
-/

open Rust
namespace Itv

/-- A binary search as a client writes it; `probe` says on which side of the target an entry lies.
```
let (mut lo, mut hi) = (0, table.len());
while lo < hi {
    let mid = lo + (hi - lo) / 2;
    match probe(&table[mid]) {
        Less => lo = mid + 1,
        Greater => hi = mid,
        Equal => return Ok(mid),
    }
}
Err(lo)
```
Also counts how often an entry is probed. -/
def bisect {A : Type} (probe : A → Ordering) (table : List A) (lo hi : Nat) : Except Fault (Nat × Except Nat Nat) :=
  if lo < hi then
    match table[lo + (hi - lo) / 2]? with
    | none => .error .indexOutOfBounds
    | some entry =>
      match probe entry with
      | .lt => do
        let (n, r) ← bisect probe table (lo + (hi - lo) / 2 + 1) hi
        return (n + 1, r)
      | .gt => do
        let (n, r) ← bisect probe table lo (lo + (hi - lo) / 2)
        return (n + 1, r)
      | .eq => return (1, .ok (lo + (hi - lo) / 2))
  else return (0, .error lo)
termination_by hi - lo

variable {T : Type} [LinearOrder T]

/-- `if *i < v { Less } else if *i > v { Greater } else { Equal }` -/
def probeVal (v : T) (i : Interval T) : Ordering := if i.ltV v then .lt else if i.gtV v then .gt else .eq

/-- the same with an interval instead of a value -/
def probeItv (q i : Interval T) : Ordering := if i.lt q then .lt else if i.gt q then .gt else .eq

/-- the entry that contains the value, or where one would have to be inserted -/
def findVal (table : List (Interval T)) (v : T) : Except Fault (Nat × Except Nat Nat) :=
  bisect (probeVal v) table 0 table.length

/-- an entry that intersects the interval, or where the interval can be inserted -/
def findItv (table : List (Interval T)) (q : Interval T) : Except Fault (Nat × Except Nat Nat) :=
  bisect (probeItv q) table 0 table.length

/-- a sorted table -/
structure Table (table : List (Interval T)) : Prop where
  obtainable : ∀ i ∈ table, Obtainable i
  nonempty : ∀ i ∈ table, i.isEmpty = false
  sorted : table.IsChain fun a b => a.lt b = true

end Itv
