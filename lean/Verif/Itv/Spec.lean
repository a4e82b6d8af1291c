import Verif.Itv.Model
/-!
# Specification vocabulary for intervals

Intervals are judged by what `into_tuple()` reports: the set of values between the reported bounds, and
whether the reported bounds are well formed.
-/

open Rust
namespace Itv

variable {T : Type} [LinearOrder T]

namespace Spec

/-- The values above a lower bound. -/
def Above (l : T) (closed : Bool) (v : T) : Prop := l < v ∨ closed = true ∧ l = v
/-- The values below an upper bound. -/
def Below (u : T) (closed : Bool) (v : T) : Prop := v < u ∨ closed = true ∧ v = u

end Spec

/-- `v` is a point of the interval: it lies between the bounds `into_tuple()` reports. -/
def Mem (i : Interval T) (v : T) : Prop :=
  match i.intoTuple with
  | none => False
  | some (l, lc, u, uc) => Spec.Above l lc v ∧ Spec.Below u uc v

/-- The bounds reported by `into_tuple()` are those of a non-empty mathematical interval, or there are
none. -/
def WellFormed (i : Interval T) : Prop :=
  match i.intoTuple with
  | none => True
  | some (l, lc, u, uc) => l < u ∨ l = u ∧ lc = true ∧ uc = true

/-- Intervals a client can obtain, with any (possibly panicking, lawless, impure) arithmetic and any `Clone` of
the right operand. An assigning operator that panicked in the middle is not included; it is the subject of
C42. -/
inductive Obtainable : Interval T → Prop
  | new {l lc u uc i} : Interval.new l lc u uc = .ok i → Obtainable i
  | fromBounds {lo up i} : Interval.fromBounds lo up = .ok i → Obtainable i
  | single (v : T) : Obtainable (Interval.single v)
  | «open» {l u i} : Interval.open l u = .ok i → Obtainable i
  | closed {l u i} : Interval.closed l u = .ok i → Obtainable i
  | lowerClosed {l u i} : Interval.lowerClosed l u = .ok i → Obtainable i
  | upperClosed {l u i} : Interval.upperClosed l u = .ok i → Obtainable i
  | empty : Obtainable Interval.empty
  | intoMerged {a b i} : Obtainable a → Obtainable b → Interval.intoMerged a b = .ok (.ok i) → Obtainable i
  | intoMergedErr {a b i j} : Obtainable a → Obtainable b →
      Interval.intoMerged a b = .ok (.error (i, j)) → Obtainable i
  | intoMergedErr' {a b i j} : Obtainable a → Obtainable b →
      Interval.intoMerged a b = .ok (.error (i, j)) → Obtainable j
  | merge {a b r i} : Obtainable a → Obtainable b → Interval.merge b a = (r, i) → Obtainable i
  | intoIntersection {a b i} : Obtainable a → Obtainable b →
      Interval.intoIntersection a b = .ok i → Obtainable i
  | intersection {a b r i} : Obtainable a → Obtainable b → Interval.intersection b a = (r, i) → Obtainable i
  | intoSpan {a b i} : Obtainable a → Obtainable b → Interval.intoSpan a b = .ok i → Obtainable i
  | span {a b r i} : Obtainable a → Obtainable b → Interval.span b a = (r, i) → Obtainable i
  | arith {a i} (opUp opLo : T → Except Fault T) : Obtainable a →
      Interval.binOp2 opUp opLo a = .ok i → Obtainable i
  | arithAssign {a i} (opLo opUp : M T Unit) : Obtainable a →
      Interval.opAssign2 opLo opUp a = (.ok (), i) → Obtainable i
  | neg {a i} (opU opL : T → Except Fault T) : Obtainable a → Interval.neg2 opU opL a = .ok i → Obtainable i

/-- `x op= c` does to a value what `x = x op c` does, and panics when that panics, whatever it leaves behind
then. -/
def Agrees (op : T → Except Fault T) (aop : M T Unit) : Prop :=
  ∀ x, match op x with
    | .ok r => aop x = (.ok (), r)
    | .error e => ∃ x', aop x = (.error e, x')

end Itv
