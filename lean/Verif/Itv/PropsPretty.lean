import Verif.Itv.ModelPretty
import Verif.Itv.PropsDebug
/-!
# C102 for intervals
-/

open Rust Rust.Fmt
namespace Itv

variable {T : Type}

theorem pretty_bound {d : T → List Char} (h : Code d) : Code (Bound.pretty d) :=
  (pretty_struct2 (f := "val") (g := "is_closed") h code_bool (n := "Bound") (by decide)).comp
    (f := fun b : Bound T => (b.val, b.isClosed)) fun x y hxy => by
      cases x; cases y; simpa using hxy

theorem pretty_lower {d : T → List Char} (h : Code d) : Code (LowerBound.pretty d) :=
  (pretty_struct1 (f := "bound") (pretty_bound h) (n := "LowerBound") (by decide)).comp
    (f := fun b : LowerBound T => b.bound) fun x y hxy => by cases x; cases y; simpa using hxy

theorem pretty_upper {d : T → List Char} (h : Code d) : Code (UpperBound.pretty d) :=
  (pretty_struct1 (f := "bound") (pretty_bound h) (n := "UpperBound") (by decide)).comp
    (f := fun b : UpperBound T => b.bound) fun x y hxy => by cases x; cases y; simpa using hxy

theorem pretty_nonEmpty {d : T → List Char} (h : Code d) : Code (NonEmptyInterval.pretty d) :=
  (pretty_struct2 (f := "lo") (g := "up") (pretty_lower h) (pretty_upper h) (n := "NonEmptyInterval") (by decide)).comp
    (f := fun i : NonEmptyInterval T => (i.lo, i.up)) fun x y hxy => by cases x; cases y; simpa using hxy

theorem pretty_interval {d : T → List Char} (h : Code d) : Code (Interval.pretty d) :=
  (pretty_struct1 (f := "imp") (pretty_option (pretty_nonEmpty h)) (n := "Interval") (by decide)).comp
    (f := fun i : Interval T => i.imp) fun x y hxy => by cases x; cases y; simpa using hxy

/-- C102: if the `{:#?}` texts of the values can be told apart, also where they take several lines, two intervals (and two
bounds of the same kind) have the same `{:#?}` text exactly if they are the same. A lower bound never prints like an upper
one. The text can be part of a longer text. If the `{:?}` texts of the values can be told apart too, the two forms agree on
what is the same. -/
theorem c102_interval {d : T → List Char} (h : Code d) :
    (∀ a b : Interval T, a.pretty d = b.pretty d ↔ a = b) ∧
    (∀ a b : LowerBound T, a.pretty d = b.pretty d ↔ a = b) ∧
    (∀ a b : UpperBound T, a.pretty d = b.pretty d ↔ a = b) ∧
    (∀ (a : LowerBound T) (b : UpperBound T), a.pretty d ≠ b.pretty d) ∧
    (Code (Interval.pretty d) ∧ Code (LowerBound.pretty d) ∧ Code (UpperBound.pretty d)) ∧
    ∀ e : T → List Char, Code e → ∀ a b : Interval T, a.pretty d = b.pretty d ↔ a.debug e = b.debug e := by
  refine ⟨fun a b => ⟨(pretty_interval h).injective, fun h => by rw [h]⟩,
    fun a b => ⟨(pretty_lower h).injective, fun h => by rw [h]⟩,
    fun a b => ⟨(pretty_upper h).injective, fun h => by rw [h]⟩,
    fun a b he => ?_, ⟨pretty_interval h, pretty_lower h, pretty_upper h⟩,
    fun e he a b => ⟨fun hp => by rw [(pretty_interval h).injective hp],
      fun hp => by rw [(code_interval he).injective hp]⟩⟩
  have := congrArg List.head? he
  simp [LowerBound.pretty, UpperBound.pretty, prettyStruct] at this

-- numbers, and values that take several lines themselves
example : Code debugNat ∧ Code (prettyOption debugNat) ∧
    Interval.pretty debugNat ⟨none⟩ = "Interval {\n    imp: None,\n}".toList ∧
    LowerBound.pretty (prettyOption debugNat) ⟨some 3, true⟩ = ("LowerBound {\n    bound: Bound {\n        val: Some(\n" ++
      "            3,\n        ),\n        is_closed: true,\n    },\n}").toList ∧
    Interval.pretty debugNat ⟨some ⟨⟨3, true⟩, ⟨12, false⟩⟩⟩ =
      ("Interval {\n    imp: Some(\n        NonEmptyInterval {\n            lo: LowerBound {\n" ++
        "                bound: Bound {\n                    val: 3,\n                    is_closed: true,\n" ++
        "                },\n            },\n            up: UpperBound {\n                bound: Bound {\n" ++
        "                    val: 12,\n                    is_closed: false,\n                },\n            },\n" ++
        "        },\n    ),\n}").toList :=
  ⟨code_nat, pretty_option code_nat, by decide +kernel, by decide +kernel, by decide +kernel⟩

end Itv
