import Verif.Itv.ModelDebug
import Verif.Itv.Lemmas
/-!
# C98 for intervals
-/

open Rust Rust.Fmt
namespace Itv

variable {T : Type}

theorem code_bound {d : T → List Char} (h : Code d) : Code (Bound.debug d) :=
  (code_struct2 (f := "val") (g := "is_closed") h code_bool (n := "Bound") (by decide)).comp
    (f := fun b : Bound T => (b.val, b.isClosed)) fun x y hxy => by
      cases x; cases y; simpa using hxy

theorem code_lower {d : T → List Char} (h : Code d) : Code (LowerBound.debug d) :=
  (code_struct1 (f := "bound") (code_bound h) (n := "LowerBound") (by decide)).comp
    (f := fun b : LowerBound T => b.bound) fun x y hxy => by cases x; cases y; simpa using hxy

theorem code_upper {d : T → List Char} (h : Code d) : Code (UpperBound.debug d) :=
  (code_struct1 (f := "bound") (code_bound h) (n := "UpperBound") (by decide)).comp
    (f := fun b : UpperBound T => b.bound) fun x y hxy => by cases x; cases y; simpa using hxy

theorem code_nonEmpty {d : T → List Char} (h : Code d) : Code (NonEmptyInterval.debug d) :=
  (code_struct2 (f := "lo") (g := "up") (code_lower h) (code_upper h) (n := "NonEmptyInterval") (by decide)).comp
    (f := fun i : NonEmptyInterval T => (i.lo, i.up)) fun x y hxy => by cases x; cases y; simpa using hxy

theorem code_interval {d : T → List Char} (h : Code d) : Code (Interval.debug d) :=
  (code_struct1 (f := "imp") (code_option (code_nonEmpty h)) (n := "Interval") (by decide)).comp
    (f := fun i : Interval T => i.imp) fun x y hxy => by cases x; cases y; simpa using hxy

/-- C98: if the texts of the values can be told apart, two intervals (and two bounds of the same kind) have the same
`Debug` text exactly if they are the same. A lower bound never prints like an upper one. The text can be part of a longer
text, such as a list of intervals. -/
theorem c98_interval {d : T → List Char} (h : Code d) :
    (∀ a b : Interval T, a.debug d = b.debug d ↔ a = b) ∧
    (∀ a b : LowerBound T, a.debug d = b.debug d ↔ a = b) ∧
    (∀ a b : UpperBound T, a.debug d = b.debug d ↔ a = b) ∧
    (∀ (a : LowerBound T) (b : UpperBound T), a.debug d ≠ b.debug d) ∧
    Code (Interval.debug d) ∧ Code (LowerBound.debug d) ∧ Code (UpperBound.debug d) := by
  refine ⟨fun a b => ⟨(code_interval h).injective, fun h => by rw [h]⟩,
    fun a b => ⟨(code_lower h).injective, fun h => by rw [h]⟩, fun a b => ⟨(code_upper h).injective, fun h => by rw [h]⟩,
    fun a b he => ?_, code_interval h, code_lower h, code_upper h⟩
  have := congrArg List.head? he
  simp [LowerBound.debug, UpperBound.debug, debugStruct] at this

example : Code debugNat ∧ Code (debugOption debugNat) ∧
    Interval.debug debugNat ⟨none⟩ = "Interval { imp: None }".toList ∧
    Interval.debug debugNat ⟨some ⟨⟨3, true⟩, ⟨12, false⟩⟩⟩ =
      ("Interval { imp: Some(NonEmptyInterval { lo: LowerBound { bound: Bound { val: 3, is_closed: true } }, " ++
        "up: UpperBound { bound: Bound { val: 12, is_closed: false } } }) }").toList :=
  ⟨code_nat, code_option code_nat, by decide +kernel, by decide +kernel⟩

/-- C98: the assumption is needed. Where the texts of values can be confused, so can those of intervals; here all values
print alike. -/
theorem c98_needs_texts : ∃ (d : Nat → List Char) (a b : Interval Nat), a ≠ b ∧ a.debug d = b.debug d :=
  ⟨fun _ => ['_'], ⟨some ⟨⟨1, true⟩, ⟨2, true⟩⟩⟩, ⟨some ⟨⟨1, true⟩, ⟨3, true⟩⟩⟩, by decide, rfl⟩

end Itv
