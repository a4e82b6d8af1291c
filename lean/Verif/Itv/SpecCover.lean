import Verif.Itv.SpecTable
/-!
# Specification vocabulary: a client that counts intervals by their sorted bounds

The client keeps the lower bounds and the upper bounds of a collection of intervals in two sorted vectors. How many intervals
contain a value, or intersect an interval, it finds out with one binary search in each.
-/

open Rust
namespace Itv

/-- `slice::partition_point`: the place of the first entry that fails; also counts the entries looked at -/
def partitionPoint {A : Type} (pred : A → Bool) (table : List A) : Except Fault (Nat × Nat) := do
  let (n, r) ← bisect (fun x => if pred x then .lt else .gt) table 0 table.length
  match r with
  | .ok i => return (n, i)
  | .error i => return (n, i)

/-- `a - b` on `usize` in a build with overflow checks -/
def usizeDiff (a b : Nat) : Except Fault Nat := if b ≤ a then .ok (a - b) else .error .overflow

variable {T : Type} [LinearOrder T]

/-- what the client keeps -/
structure Bounds (T : Type) where
  lowers : List (LowerBound T)
  uppers : List (UpperBound T)

/-- The two vectors hold the bounds of all intervals (an empty interval has none), sorted:
```
let (mut lowers, mut uppers): (Vec<_>, Vec<_>) = intervals.into_iter().filter_map(|i| i.into_bounds()).unzip();
lowers.sort();
uppers.sort();
```
-/
structure Bounds.Of (t : Bounds T) (l : List (Interval T)) : Prop where
  lowers : t.lowers.Perm ((l.filterMap Interval.intoBounds).map Prod.fst)
  uppers : t.uppers.Perm ((l.filterMap Interval.intoBounds).map Prod.snd)
  lowers_sorted : t.lowers.Pairwise fun a b => a.cmp b ≠ .gt
  uppers_sorted : t.uppers.Pairwise fun a b => a.cmp b ≠ .gt

/-- `lowers.partition_point(|l| *l <= v) - uppers.partition_point(|u| *u < v)` -/
def Bounds.cover (t : Bounds T) (v : T) : Except Fault (Nat × Nat) := do
  let (n, a) ← partitionPoint (fun l => l.leV v) t.lowers
  let (m, b) ← partitionPoint (fun u => u.ltV v) t.uppers
  return (n + m, ← usizeDiff a b)

/-- `match q.bounds() { None => 0, Some((lo, up)) => lowers.partition_point(|l| !(*l > *up)) -
uppers.partition_point(|u| *u < *lo) }` -/
def Bounds.meets (t : Bounds T) (q : Interval T) : Except Fault (Nat × Nat) :=
  match q.bounds with
  | none => return (0, 0)
  | some (lo, up) => do
    let (n, a) ← partitionPoint (fun l => !(l.gtU up)) t.lowers
    let (m, b) ← partitionPoint (fun u => u.ltL lo) t.uppers
    return (n + m, ← usizeDiff a b)

end Itv
