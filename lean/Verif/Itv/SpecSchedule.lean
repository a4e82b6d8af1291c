import Verif.Itv.Collect
/-!
# Specification vocabulary: clients that schedule intervals

Two greedy algorithms over a collection of non-empty intervals, written with the public comparisons of the crate: choosing
as many intervals as possible no two of which intersect, and distributing intervals over as few rooms as possible.
-/

open Rust
namespace Itv
variable {T : Type} [LinearOrder T]

/-- sorted by upper bounds, as `sort_by(|a, b| a.bounds().unwrap().1.cmp(b.bounds().unwrap().1))` does -/
def SortedByUpper (l : List (Interval T)) : Prop :=
  (∀ i ∈ l, i.isEmpty = false) ∧ l.Pairwise fun a b => ∀ lo up lo' up',
    a.bounds = some (lo, up) → b.bounds = some (lo', up') → up.cmp up' ≠ .gt

/-- the loop of `schedule`; `last` was chosen last -/
def scheduleFrom (last : Interval T) : List (Interval T) → List (Interval T)
  | [] => []
  | x :: rest => if x.intersects last then scheduleFrom last rest else x :: scheduleFrom x rest

/-- Chooses intervals one after the other, comparing with the one chosen last only.
```
let mut chosen: Vec<Interval<T>> = Vec::new();
for x in sorted_by_upper {
    if chosen.last().map_or(true, |last| !x.intersects(last)) { chosen.push(x); }
}
```
-/
def schedule : List (Interval T) → List (Interval T)
  | [] => []
  | x :: rest => x :: scheduleFrom x rest

/-- the inner loop of `rooms`: the first room whose last interval does not intersect, or a new room. A room lists its
intervals from the last to the first. -/
def place (x : Interval T) : List (List (Interval T)) → List (List (Interval T))
  | [] => [[x]]
  | [] :: rest => [x] :: rest
  | (last :: earlier) :: rest =>
    if last.intersects x then (last :: earlier) :: place x rest else (x :: last :: earlier) :: rest

/-- Distributes intervals over rooms.
```
let mut rooms: Vec<Vec<Interval<T>>> = Vec::new();
for x in sorted_by_lower {
    match rooms.iter_mut().find(|r| !r.last().unwrap().intersects(&x)) {
        Some(room) => room.push(x),
        None => rooms.push(vec![x]),
    }
}
```
-/
def rooms (l : List (Interval T)) : List (List (Interval T)) := l.foldl (fun rs x => place x rs) []

/-- no two of them intersect -/
def Apart (l : List (Interval T)) : Prop := l.Pairwise fun a b => a.intersects b = false

/-- any two of them intersect -/
def Clash (l : List (Interval T)) : Prop := l.Pairwise fun a b => a.intersects b = true

end Itv
