import Verif.Itv.ModelFlags
import Verif.Itv.PropsPretty
/-!
# C132 for intervals
-/

open Rust Rust.Fmt
namespace Itv

section
variable {T : Type} {fl : Flags}

theorem fmt_bound (hp : fl.precision ≠ some 0) (hc : fl.width = 0 ∨ fl.fill ∉ closers) {d : T → List Char} (h : Code d) :
    Code (Bound.fmt fl d) :=
  (fmt_struct2 (f := "val") (g := "is_closed") h (code_fmtBool hp hc) (n := "Bound") (by decide)).comp
    (f := fun b : Bound T => (b.val, b.isClosed)) fun x y hxy => by cases x; cases y; simpa using hxy

theorem fmt_lower (hp : fl.precision ≠ some 0) (hc : fl.width = 0 ∨ fl.fill ∉ closers) {d : T → List Char} (h : Code d) :
    Code (LowerBound.fmt fl d) :=
  (fmt_struct1 (f := "bound") (fmt_bound hp hc h) (n := "LowerBound") (by decide)).comp
    (f := fun b : LowerBound T => b.bound) fun x y hxy => by cases x; cases y; simpa using hxy

theorem fmt_upper (hp : fl.precision ≠ some 0) (hc : fl.width = 0 ∨ fl.fill ∉ closers) {d : T → List Char} (h : Code d) :
    Code (UpperBound.fmt fl d) :=
  (fmt_struct1 (f := "bound") (fmt_bound hp hc h) (n := "UpperBound") (by decide)).comp
    (f := fun b : UpperBound T => b.bound) fun x y hxy => by cases x; cases y; simpa using hxy

theorem fmt_nonEmpty (hp : fl.precision ≠ some 0) (hc : fl.width = 0 ∨ fl.fill ∉ closers) {d : T → List Char} (h : Code d) :
    Code (NonEmptyInterval.fmt fl d) :=
  (fmt_struct2 (f := "lo") (g := "up") (fmt_lower hp hc h) (fmt_upper hp hc h) (n := "NonEmptyInterval") (by decide)).comp
    (f := fun i : NonEmptyInterval T => (i.lo, i.up)) fun x y hxy => by cases x; cases y; simpa using hxy

theorem fmt_interval (hp : fl.precision ≠ some 0) (hc : fl.width = 0 ∨ fl.fill ∉ closers) {d : T → List Char} (h : Code d) :
    Code (Interval.fmt fl d) :=
  (fmt_struct1 (f := "imp") (fmt_option (fmt_nonEmpty hp hc h)) (n := "Interval") (by decide)).comp
    (f := fun i : Interval T => i.imp) fun x y hxy => by cases x; cases y; simpa using hxy

/-- C132: whatever the flags, except precision 0 and a closing bracket to fill with: if the texts of the values can be told
apart, two intervals (and two bounds of the same kind) have the same text exactly if they are the same. A lower bound never
prints like an upper one. The text can be part of a longer text. -/
theorem c132_interval (hp : fl.precision ≠ some 0) (hc : fl.width = 0 ∨ fl.fill ∉ closers) {d : T → List Char} (h : Code d) :
    (∀ a b : Interval T, a.fmt fl d = b.fmt fl d ↔ a = b) ∧
    (∀ a b : LowerBound T, a.fmt fl d = b.fmt fl d ↔ a = b) ∧
    (∀ a b : UpperBound T, a.fmt fl d = b.fmt fl d ↔ a = b) ∧
    (∀ (a : LowerBound T) (b : UpperBound T), a.fmt fl d ≠ b.fmt fl d) ∧
    Code (Interval.fmt fl d) ∧ Code (LowerBound.fmt fl d) ∧ Code (UpperBound.fmt fl d) := by
  refine ⟨fun a b => ⟨(fmt_interval hp hc h).injective, fun h => by rw [h]⟩,
    fun a b => ⟨(fmt_lower hp hc h).injective, fun h => by rw [h]⟩,
    fun a b => ⟨(fmt_upper hp hc h).injective, fun h => by rw [h]⟩,
    fun a b he => ?_, fmt_interval hp hc h, fmt_lower hp hc h, fmt_upper hp hc h⟩
  have := congrArg List.head? he
  cases hf : fl.alt <;> simp [LowerBound.fmt, UpperBound.fmt, fmtStruct, hf, prettyStruct, debugStruct] at this

/-- C132: without flags this is the text of C98, with `#` alone that of C102. -/
theorem c132_interval_plain (d : T → List Char) (i : Interval T) :
    i.fmt {} d = i.debug d ∧ i.fmt { alt := true } d = i.pretty d := by
  rcases i with ⟨_ | ⟨lo, up⟩⟩
  · exact ⟨rfl, rfl⟩
  · constructor
    · simp only [Interval.fmt, NonEmptyInterval.fmt, LowerBound.fmt, UpperBound.fmt, Bound.fmt, fmtOption, debugOption,
        fmtBool_plain]
      rfl
    · simp only [Interval.fmt, NonEmptyInterval.fmt, LowerBound.fmt, UpperBound.fmt, Bound.fmt, fmtOption, prettyOption,
        fmtBool_alt, if_true]
      rfl

/-- C132: with precision 0 (`{:.0?}`, as one writes for durations) the text no longer tells which bounds are closed, whatever
the other flags and the values. -/
theorem c132_interval_precision (hp : fl.precision = some 0) (d : T → List Char) (lo up : T) (lc uc lc' uc' : Bool) :
    Interval.fmt fl d ⟨some ⟨⟨lo, lc⟩, ⟨up, uc⟩⟩⟩ = Interval.fmt fl d ⟨some ⟨⟨lo, lc'⟩, ⟨up, uc'⟩⟩⟩ := by
  have hb : ∀ b b', fmtBool fl b = fmtBool fl b' := by
    intro b b'
    simp only [fmtBool, hp, List.take_zero]
  have h1 : ∀ (x : T) b b', Bound.fmt fl d ⟨x, b⟩ = Bound.fmt fl d ⟨x, b'⟩ := by
    intro x b b'
    simp only [Bound.fmt, hb b b']
  simp only [Interval.fmt, fmtOption, prettyOption, debugOption, NonEmptyInterval.fmt, LowerBound.fmt, UpperBound.fmt,
    h1 lo lc lc', h1 up uc uc']

end

-- `{:.1?}`, `{:>6?}`, and `{:.0?}`
example : Code (fmtNat { precision := some 1 }) ∧ Code (fmtNat { align := some .right, width := 6 }) ∧
    LowerBound.fmt { precision := some 1 } debugNat ⟨3, true⟩ = "LowerBound { bound: Bound { val: 3, is_closed: t } }".toList ∧
    LowerBound.fmt { align := some .right, width := 6 } debugNat ⟨3, true⟩ =
      "LowerBound { bound: Bound { val: 3, is_closed:   true } }".toList ∧
    UpperBound.fmt { precision := some 0 } debugNat ⟨3, true⟩ = "UpperBound { bound: Bound { val: 3, is_closed:  } }".toList :=
  ⟨code_fmtNat (.inr (by decide)), code_fmtNat (.inr (by decide)), by decide +kernel, by decide +kernel, by decide +kernel⟩

end Itv
