import Verif.Itv.LemmasSchedule
/-!
# Lemmas about the order of intervals, seen through their cuts
-/

open Rust
namespace Itv
variable {T : Type} [LinearOrder T] {a b : Interval T}

theorem lt_iff_real (ha : Real a) (hb : Real b) : a.lt b = true ↔ upp a ≤ low b := by
  obtain ⟨p, hp⟩ := Option.ne_none_iff_exists'.mp ha.1
  obtain ⟨q, hq⟩ := Option.ne_none_iff_exists'.mp hb.1
  rw [lt_cuts, low, upp, hp, hq]
  constructor
  · rintro ⟨p', hp', q', hq', h⟩
    cases hp'; cases hq'
    exact WithBot.coe_le_coe.mpr h
  · intro h
    exact ⟨p, rfl, q, rfl, WithBot.coe_le_coe.mp h⟩

theorem contains_iff_real (ha : Real a) (hb : Real b) :
    a.containsInterval b = true ↔ low a ≤ low b ∧ upp b ≤ upp a := by
  rcases a with ⟨_ | ⟨⟨⟨l, lc⟩⟩, ⟨⟨u, uc⟩⟩⟩⟩
  · exact absurd rfl ha.1
  rcases b with ⟨_ | ⟨⟨⟨l', lc'⟩⟩, ⟨⟨u', uc'⟩⟩⟩⟩
  · exact absurd rfl hb.1
  refine contains_cut.trans ?_
  exact and_congr WithBot.coe_le_coe.symm WithBot.coe_le_coe.symm

theorem least_at {K : Type} [LinearOrder K] (f : Nat → K) (n : Nat) (hn : 0 < n) : ∃ m < n, ∀ i < n, f m ≤ f i := by
  induction n with
  | zero => cases hn
  | succ n ih =>
    rcases Nat.eq_zero_or_pos n with rfl | h
    · exact ⟨0, hn, fun i hi => by rw [Nat.lt_one_iff.mp hi]⟩
    · obtain ⟨m, hm, hmin⟩ := ih h
      rcases le_total (f m) (f n) with g | g
      · refine ⟨m, by omega, fun i hi => ?_⟩
        rcases Nat.lt_succ_iff_lt_or_eq.mp hi with hi | rfl
        · exact hmin i hi
        · exact g
      · refine ⟨n, by omega, fun i hi => ?_⟩
        rcases Nat.lt_succ_iff_lt_or_eq.mp hi with hi | rfl
        · exact g.trans (hmin i hi)
        · exact le_rfl

end Itv
