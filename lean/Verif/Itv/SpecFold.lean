import Verif.Itv.Spec
/-!
# Specification vocabulary: what clients write to intersect or span a collection
-/

open Rust
namespace Itv

variable {T : Type} [LinearOrder T]

/-- `rest.into_iter().fold(first, |a, b| a.into_intersection(b))` -/
def meetAll (first : Interval T) (rest : List (Interval T)) : Except Fault (Interval T) :=
  rest.foldlM Interval.intoIntersection first

/-- `for b in rest { first.intersection(b); }` -/
def meetEach : List (Interval T) → M (Interval T) Unit
  | [] => pure ()
  | b :: rest => do
    Interval.intersection b
    meetEach rest

/-- `rest.into_iter().fold(first, |a, b| a.into_span(b))` -/
def spanAll (first : Interval T) (rest : List (Interval T)) : Except Fault (Interval T) :=
  rest.foldlM Interval.intoSpan first

/-- `for b in rest { first.span(b); }` -/
def spanEach : List (Interval T) → M (Interval T) Unit
  | [] => pure ()
  | b :: rest => do
    Interval.span b
    spanEach rest

end Itv
