import Verif.Cnt.ModelPretty
import Verif.Cnt.PropsDebug
/-!
# C102 for counters
-/

open Rust Rust.Fmt
namespace Cnt

section
variable {T : Type} [DecidableEq T] [Cfg]

/-- C102: if the `{:#?}` texts of the items can be told apart, counters with the same `{:#?}` text have the same counts
(and are `==`), and the maps were read in the same order. If the `{:?}` texts of the items can be told apart too, the two
forms agree on what is the same. -/
theorem c102_counter {d : T → List Char} (h : Code d) {a b : Counter T} (ha : Valid a) (hb : Valid b)
    {o o' : List (T × Nat)} (ho : IterOf o a) (ho' : IterOf o' b) :
    (Counter.pretty d o = Counter.pretty d o' → o = o' ∧ (∀ k, a.get k = b.get k) ∧ a.eq b = true) ∧
    ∀ e : T → List Char, Code e → (Counter.pretty d o = Counter.pretty d o' ↔ Counter.debug e o = Counter.debug e o') := by
  have key : Counter.pretty d o = Counter.pretty d o' → o = o' := fun he =>
    (pretty_struct1 (f := "counter") (pretty_map h code_nat) (n := "Counter") (by decide)).injective he
  refine ⟨fun he => c98_counter h ha hb ho ho' (by rw [key he]), fun e he => ⟨fun hp => by rw [key hp], fun hp => ?_⟩⟩
  rw [(c98_counter he ha hb ho ho' hp).1]

end

open Demo in
example : Code debugNat ∧ Valid cb ∧ IterOf [(7, 1), (9, 3)] cb ∧
    Counter.pretty debugNat [(7, 1), (9, 3)] = "Counter {\n    counter: {\n        7: 1,\n        9: 3,\n    },\n}".toList ∧
    Counter.pretty debugNat [] = "Counter {\n    counter: {},\n}".toList :=
  ⟨code_nat, cb_valid, List.Perm.swap _ _ _, by decide +kernel, by decide +kernel⟩

end Cnt
