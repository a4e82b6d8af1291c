import Verif.DS.Spec
import Verif.Itv.SpecFold
/-!
# Specification vocabulary: a client that groups intervals

The client puts intervals into a `DisjointSet` (they can be hashed and compared), unites those that can be merged, and
takes the span of every group. The crate has no such function; it is what a client writes.
-/

open Rust
namespace Client

variable {T : Type} [LinearOrder T] [Cfg]

/-- ```
for (a, b) in pairs {
    if a.can_be_merged(b) { ds.union(a.clone(), b.clone()); }
}
``` -/
def joinTouching (stack : Nat) : List (Itv.Interval T × Itv.Interval T) → M (DS.DSet (Itv.Interval T)) Unit
  | [] => pure ()
  | (a, b) :: pairs => do
    if a.canBeMerged b then DS.DSet.union stack a b false false
    joinTouching stack pairs

/-- all pairs, as in two nested loops -/
def allPairs {α : Type} (l : List α) : List (α × α) := l.flatMap fun a => l.map fun b => (a, b)

/-- `group.fold(first, |a, b| a.into_span(b))`; there are no empty groups -/
def groupSpan : List (Itv.Interval T) → Except Fault (Itv.Interval T)
  | [] => .error .explicit
  | first :: rest => Itv.spanAll first rest

/-- ```
let mut ds = DisjointSet::from_iter(intervals);
/* joinTouching */
(&mut ds).into_iter().map(|group| /* groupSpan */).collect()
```
`o` and `o'` are the orders in which the two hash maps of an iteration are walked through. -/
def cluster (stack : Nat) (o : DS.Shuffle (Itv.Interval T × Nat)) (o' : DS.Shuffle (Nat × List (Itv.Interval T)))
    (l : List (Itv.Interval T)) : Except Fault (List (Itv.Interval T)) := do
  let ds ← DS.DSet.fromIter l false
  let (r, ds) := joinTouching stack (allPairs l) ds
  r
  let groups ← (DS.DSet.iterate stack o.f o'.f ds).1
  groups.mapM groupSpan

end Client
