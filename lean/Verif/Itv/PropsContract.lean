import Verif.Itv.Props
/-!
# Property theorem C32: exactly where the comparison operators break the contract of `PartialOrd`
-/

open Rust
namespace Itv

section
variable {T : Type} [LinearOrder T] {a b : Interval T}

/-- C32, partial but exact: `a <= b` holds although `partial_cmp` says neither `Less` nor `Equal` exactly if the two
differ and `a` ends at a value at which `b` begins, both including it. `a <= b` fails although `partial_cmp` says
`Less` or `Equal` exactly if the two are the same and are not a single value. Dually for `>=`. Missing: that there
are no such cases, which `c32_le_inconsistent` shows to be false. -/
theorem c32_exact_partial (ha : Obtainable a) (hb : Obtainable b) :
    ((a.le b = true ∧ ¬ (a.partialCmp b = some .lt ∨ a.partialCmp b = some .eq)) ↔
      a ≠ b ∧ ∃ p, a.upper = some (UpperBound.new p true) ∧ b.lower = some (LowerBound.new p true)) ∧
    ((a.le b = false ∧ (a.partialCmp b = some .lt ∨ a.partialCmp b = some .eq)) ↔ a = b ∧ a.isSingle = false) ∧
    ((a.ge b = true ∧ ¬ (a.partialCmp b = some .gt ∨ a.partialCmp b = some .eq)) ↔
      a ≠ b ∧ ∃ p, a.lower = some (LowerBound.new p true) ∧ b.upper = some (UpperBound.new p true)) ∧
    ((a.ge b = false ∧ (a.partialCmp b = some .gt ∨ a.partialCmp b = some .eq)) ↔ a = b ∧ a.isSingle = false) := by
  have w1 := ha.wf
  have w2 := hb.wf
  rcases Interval.cases2 a with rfl | ⟨l, lc, u, uc, rfl⟩
  · rcases Interval.cases2 b with rfl | ⟨l', lc', u', uc', rfl⟩
    · refine ⟨⟨?_, ?_⟩, ⟨?_, ?_⟩, ⟨?_, ?_⟩, ?_, ?_⟩ <;> rintro ⟨h1, h2⟩ <;>
        first | exact ⟨rfl, rfl⟩ | exact ⟨rfl, Or.inr rfl⟩ | exact absurd rfl h1 | cases h1
    · refine ⟨⟨?_, ?_⟩, ⟨?_, ?_⟩, ⟨?_, ?_⟩, ?_, ?_⟩ <;> rintro ⟨h1, h2⟩ <;>
        first | cases h1; done | (obtain ⟨p, hp, hq⟩ := h2; cases hp; done) | (rcases h2 with h2 | h2 <;> cases h2)
  rcases Interval.cases2 b with rfl | ⟨l', lc', u', uc', rfl⟩
  · refine ⟨⟨?_, ?_⟩, ⟨?_, ?_⟩, ⟨?_, ?_⟩, ?_, ?_⟩ <;> rintro ⟨h1, h2⟩ <;>
      first | cases h1; done | (obtain ⟨p, hp, hq⟩ := h2; cases hq; done) | (rcases h2 with h2 | h2 <;> cases h2)
  obtain ⟨h1, h2, h3, -⟩ := c32_consistent_partial ha hb l
  rw [wf_mk] at w1 w2
  have e0 : iv l lc u uc = iv l' lc' u' uc' ↔ l = l' ∧ lc = lc' ∧ u = u' ∧ uc = uc' := by
    constructor
    · intro h; cases h; exact ⟨rfl, rfl, rfl, rfl⟩
    · rintro ⟨rfl, rfl, rfl, rfl⟩; rfl
  have e1 : (iv l lc u uc).isSingle = false ↔ l ≠ u := decide_eq_false_iff_not
  have e2 : (∃ p, (iv l lc u uc).upper = some (UpperBound.new p true) ∧
      (iv l' lc' u' uc').lower = some (LowerBound.new p true)) ↔ u = l' ∧ uc = true ∧ lc' = true := by
    constructor
    · rintro ⟨p, hp, hq⟩; cases hp; cases hq; exact ⟨rfl, rfl, rfl⟩
    · rintro ⟨rfl, rfl, rfl⟩; exact ⟨u, rfl, rfl⟩
  have e3 : (∃ p, (iv l lc u uc).lower = some (LowerBound.new p true) ∧
      (iv l' lc' u' uc').upper = some (UpperBound.new p true)) ↔ l = u' ∧ lc = true ∧ uc' = true := by
    constructor
    · rintro ⟨p, hp, hq⟩; cases hp; cases hq; exact ⟨rfl, rfl, rfl⟩
    · rintro ⟨rfl, rfl, rfl⟩; exact ⟨l, rfl, rfl⟩
  rw [ne_eq, h1, h2, h3, e0, e1, e2, e3, ← Bool.not_eq_true (Interval.le _ _), ← Bool.not_eq_true (Interval.ge _ _),
    ← Bool.not_eq_true (Interval.lt _ _), ← Bool.not_eq_true (Interval.gt _ _), Interval.le_mk, Interval.ge_mk,
    Interval.lt_mk, Interval.gt_mk]
  refine ⟨?_, ?_, ?_, ?_⟩ <;> cases lc <;> cases uc <;> cases lc' <;> cases uc' <;> grind

/-- C32, partial but exact, for an interval and a value: `i <= v` holds although `partial_cmp` says neither `Less` nor
`Equal` exactly if `i` ends with `v` and is more than `v`. Dually for `>=`. Missing: as above; the other direction
always holds, see `c32_consistent_partial`. -/
theorem c32_value_exact_partial (ha : Obtainable a) (v : T) :
    ((a.leV v = true ∧ ¬ (a.partialCmpV v = some .lt ∨ a.partialCmpV v = some .eq)) ↔
      a ≠ Interval.single v ∧ a.upper = some (UpperBound.new v true)) ∧
    ((a.geV v = true ∧ ¬ (a.partialCmpV v = some .gt ∨ a.partialCmpV v = some .eq)) ↔
      a ≠ Interval.single v ∧ a.lower = some (LowerBound.new v true)) := by
  have w1 := ha.wf
  obtain ⟨-, -, -, -, -, -, h1, h2, h3, -⟩ := c32_consistent_partial ha ha v
  rcases Interval.cases2 a with rfl | ⟨l, lc, u, uc, rfl⟩
  · refine ⟨⟨?_, ?_⟩, ?_, ?_⟩ <;> rintro ⟨h1, h2⟩ <;> first | cases h1; done | cases h2
  rw [wf_mk] at w1
  have e0 : iv l lc u uc = Interval.single v ↔ l = v ∧ lc = true ∧ u = v ∧ uc = true := by
    constructor
    · intro h; cases h; exact ⟨rfl, rfl, rfl, rfl⟩
    · rintro ⟨rfl, rfl, rfl, rfl⟩; rfl
  have e1 : (iv l lc u uc).upper = some (UpperBound.new v true) ↔ u = v ∧ uc = true := by
    constructor
    · intro h; cases h; exact ⟨rfl, rfl⟩
    · rintro ⟨rfl, rfl⟩; rfl
  have e2 : (iv l lc u uc).lower = some (LowerBound.new v true) ↔ l = v ∧ lc = true := by
    constructor
    · intro h; cases h; exact ⟨rfl, rfl⟩
    · rintro ⟨rfl, rfl⟩; rfl
  rw [ne_eq, h1, h2, h3, e0, e1, e2, Interval.leV_mk, Interval.geV_mk, Interval.ltV_mk, Interval.gtV_mk,
    Interval.eqV_mk]
  refine ⟨?_, ?_⟩ <;> cases lc <;> cases uc <;> grind

end

example : Obtainable demo ∧ Obtainable demo2 ∧ demo ≠ demo2 ∧ demo.upper = some (UpperBound.new 3 true) ∧
    demo2.lower = some (LowerBound.new 3 true) ∧ demo.isSingle = false ∧ demo ≠ Interval.single 3 :=
  ⟨demo_ok, demo2_ok, by decide, rfl, rfl, rfl, by decide⟩

end Itv
