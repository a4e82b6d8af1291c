import Verif.Cnt.ModelFlags
import Verif.Cnt.PropsPretty
/-!
# C132 for counters
-/

open Rust Rust.Fmt
namespace Cnt

section
variable {T : Type} [DecidableEq T] [Cfg]

/-- C132: whatever the flags, if the texts of the items can be told apart and the fill character is neither a digit nor a
closing bracket (or `0` is asked for, or no width), counters with the same text have the same counts (and are `==`), and the
maps were read in the same order. -/
theorem c132_counter {fl : Flags} (hfl : fl.zero = true ∨ fl.Clear) {d : T → List Char} (h : Code d) {a b : Counter T}
    (ha : Valid a) (hb : Valid b) {o o' : List (T × Nat)} (ho : IterOf o a) (ho' : IterOf o' b)
    (he : Counter.fmt fl d o = Counter.fmt fl d o') : o = o' ∧ (∀ k, a.get k = b.get k) ∧ a.eq b = true := by
  have h1 : o = o' := (fmt_struct1 (f := "counter") (fmt_map h (code_fmtNat hfl)) (n := "Counter") (by decide)).injective he
  exact c98_counter h ha hb ho ho' (by rw [h1])

omit [DecidableEq T] [Cfg] in
/-- C132: without flags this is the text of C98, with `#` alone that of C102. -/
theorem c132_counter_plain (d : T → List Char) (o : List (T × Nat)) :
    Counter.fmt {} d o = Counter.debug d o ∧ Counter.fmt { alt := true } d o = Counter.pretty d o := by
  constructor
  · simp only [Counter.fmt, fmtNat_plain]; rfl
  · simp only [Counter.fmt, fmtNat_alt]; rfl

end

-- `{:+6x?}`, `{:05?}`, `{:-^5?}`, `{:#x?}`
open Demo in
example : Flags.Clear { plus := true, hex := .lower, width := 6 } ∧ Flags.Clear { fill := '-', align := some .center, width := 5 } ∧
    Code (fmtNat { width := 4 }) ∧ Valid cb ∧ IterOf [(7, 1), (9, 3)] cb ∧
    Counter.fmt { plus := true, hex := .lower, width := 6 } debugNat [(7, 1), (9, 30)] =
      "Counter { counter: {7:     +1, 9:    +1e} }".toList ∧
    Counter.fmt { zero := true, width := 5 } debugNat [(7, 1), (9, 30)] = "Counter { counter: {7: 00001, 9: 00030} }".toList ∧
    Counter.fmt { fill := '-', align := some .center, width := 5 } debugNat [(7, 1), (9, 30)] =
      "Counter { counter: {7: --1--, 9: -30--} }".toList ∧
    Counter.fmt { alt := true, hex := .upper } debugNat [(7, 30)] =
      "Counter {\n    counter: {\n        7: 0x1E,\n    },\n}".toList :=
  ⟨by decide, by decide, code_fmtNat (.inr (by decide)), cb_valid, List.Perm.swap _ _ _, by decide +kernel, by decide +kernel,
    by decide +kernel, by decide +kernel⟩

open Demo in
/-- C132: the fill character matters: with `{:1<2?}` two counters with different counts have the same text. -/
theorem c132_counter_fill : ∃ (fl : Flags) (a b : Counter Nat), Built a ∧ Built b ∧ a.eq b = false ∧
    ∃ o o', IterOf o a ∧ IterOf o' b ∧ Counter.fmt fl (fmtNat fl) o = Counter.fmt fl (fmtNat fl) o' :=
  ⟨{ fill := '1', align := some .left, width := 2 }, ⟨⟨[(5, 1)]⟩⟩, ⟨⟨[(5, 11)]⟩⟩,
    .fromIter (items := [5]) (p := false) (by decide), .fromIter (items := List.replicate 11 5) (p := false) (by decide),
    by decide, _, _, List.Perm.refl _, List.Perm.refl _, by decide +kernel⟩

end Cnt
