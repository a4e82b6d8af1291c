import Verif.Cnt.ModelDebug
import Verif.Cnt.Props
/-!
# C98 for counters
-/

open Rust Rust.Fmt
namespace Cnt

section
variable {T : Type} [DecidableEq T] [Cfg]

/-- C98: if the texts of the items can be told apart, counters with the same `Debug` text have the same counts (and are
`==`), and the maps were read in the same order. -/
theorem c98_counter {d : T → List Char} (h : Code d) {a b : Counter T} (ha : Valid a) (hb : Valid b)
    {o o' : List (T × Nat)} (ho : IterOf o a) (ho' : IterOf o' b) (he : Counter.debug d o = Counter.debug d o') :
    o = o' ∧ (∀ k, a.get k = b.get k) ∧ a.eq b = true := by
  have h1 : o = o' := (code_struct1 (f := "counter") (code_map h code_nat) (n := "Counter") (by decide)).injective he
  subst h1
  have hg : ∀ k, a.get k = b.get k := by
    intro k
    apply Option.ext
    intro n
    show a.counter.get k = some n ↔ b.counter.get k = some n
    rw [HMap.get_eq_some ha.1, HMap.get_eq_some hb.1, ← ho.mem_iff, ho'.mem_iff]
  refine ⟨rfl, hg, ?_⟩
  rw [Counter.eq, HMap.eq, Bool.and_eq_true]
  refine ⟨decide_eq_true ?_, List.all_eq_true.mpr fun e he => decide_eq_true ?_⟩
  · exact (ho.symm.trans ho').length_eq
  · have : a.get e.1 = some e.2 := (HMap.get_eq_some ha.1).mpr he
    rw [← this]
    exact (hg e.1).symm

end

open Demo in
example : Code debugNat ∧ Valid cb ∧ IterOf [(7, 1), (9, 3)] cb ∧
    Counter.debug debugNat [(7, 1), (9, 3)] = "Counter { counter: {7: 1, 9: 3} }".toList ∧
    Counter.debug debugNat [] = "Counter { counter: {} }".toList :=
  ⟨code_nat, cb_valid, List.Perm.swap _ _ _, by decide +kernel, by decide +kernel⟩

open Demo in
/-- C98: the converse fails: one and the same counter has different texts, depending on the iteration order of its map. -/
theorem c98_counter_not_unique : ∃ (c : Counter Nat) (o o' : List (Nat × Nat)), Built c ∧ IterOf o c ∧ IterOf o' c ∧
    Counter.debug debugNat o ≠ Counter.debug debugNat o' :=
  ⟨⟨⟨[(2, 1), (1, 1)]⟩⟩, [(2, 1), (1, 1)], [(1, 1), (2, 1)], .fromIter (items := [1, 2]) (p := false) (by decide),
    List.Perm.refl _, List.Perm.swap _ _ _, by decide +kernel⟩

end Cnt
