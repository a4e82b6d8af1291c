import Verif.Itv.SpecTable
import Verif.Itv.PropsOrder
/-!
# Lemmas for C107
-/

open Rust
namespace Itv

section
variable {A : Type}

/-- what the bisection returns if the entries below the target come before the entries above it -/
theorem bisect_ok {probe : A → Ordering} {table : List A}
    (mono : table.Pairwise fun a b => (probe a = .gt → probe b = .gt) ∧ (probe b = .lt → probe a = .lt)) :
    ∀ (k lo hi : Nat), hi - lo ≤ k → lo ≤ hi → hi ≤ table.length →
      (∀ i a, i < lo → table[i]? = some a → probe a = .lt) → (∀ i a, hi ≤ i → table[i]? = some a → probe a = .gt) →
      ∃ n r, bisect probe table lo hi = .ok (n, r) ∧ (n = 0 ∨ 2 ^ (n - 1) ≤ hi - lo) ∧
        (∀ i, r = .ok i → ∃ a, table[i]? = some a ∧ probe a = .eq) ∧
        ∀ j, r = .error j → j ≤ table.length ∧ (∀ i a, i < j → table[i]? = some a → probe a = .lt) ∧
          ∀ i a, j ≤ i → table[i]? = some a → probe a = .gt := by
  intro k
  induction k with
  | zero =>
    intro lo hi hk hle hlen h1 h2
    have : ¬ lo < hi := by omega
    refine ⟨0, .error lo, by unfold bisect; rw [if_neg this]; rfl, .inl rfl, fun i h => (by cases h), fun j h => ?_⟩
    cases h
    exact ⟨by omega, h1, fun i a hi' => h2 i a (by omega)⟩
  | succ k ih =>
    intro lo hi hk hle hlen h1 h2
    by_cases hlt : lo < hi
    · have hmid : lo + (hi - lo) / 2 < table.length := by omega
      obtain ⟨a, ha⟩ : ∃ a, table[lo + (hi - lo) / 2]? = some a := ⟨_, List.getElem?_eq_getElem hmid⟩
      have before : ∀ i b, i < lo + (hi - lo) / 2 → table[i]? = some b →
          (probe b = .gt → probe a = .gt) ∧ (probe a = .lt → probe b = .lt) := by
        intro i b hi' hb
        obtain ⟨p1, p2⟩ := List.getElem?_eq_some_iff.mp hb
        obtain ⟨q1, q2⟩ := List.getElem?_eq_some_iff.mp ha
        have := List.pairwise_iff_getElem.mp mono i _ p1 q1 hi'
        rwa [p2, q2] at this
      have after : ∀ i b, lo + (hi - lo) / 2 < i → table[i]? = some b →
          (probe a = .gt → probe b = .gt) ∧ (probe b = .lt → probe a = .lt) := by
        intro i b hi' hb
        obtain ⟨p1, p2⟩ := List.getElem?_eq_some_iff.mp hb
        obtain ⟨q1, q2⟩ := List.getElem?_eq_some_iff.mp ha
        have := List.pairwise_iff_getElem.mp mono _ i q1 p1 hi'
        rwa [p2, q2] at this
      unfold bisect
      rw [if_pos hlt, ha]
      dsimp only
      have count : ∀ n m : Nat, (n = 0 ∨ 2 ^ (n - 1) ≤ m) → m ≤ (hi - lo) / 2 →
          n + 1 = 0 ∨ 2 ^ (n + 1 - 1) ≤ hi - lo := by
        intro n m h hm
        refine .inr ?_
        rw [Nat.add_sub_cancel]
        rcases h with rfl | h
        · simp; omega
        · cases n with
          | zero => simp; omega
          | succ n =>
            rw [Nat.add_sub_cancel] at h
            rw [Nat.pow_succ]; omega
      cases hp : probe a with
      | lt =>
        dsimp only
        obtain ⟨n, r, g1, g2, g3, g4⟩ := ih (lo + (hi - lo) / 2 + 1) hi (by omega) (by omega) hlen
          (fun i b hi' hb => by
            rcases Nat.lt_succ_iff_lt_or_eq.mp hi' with h | h
            · exact (before i b h hb).2 hp
            · subst h; rw [ha] at hb; cases hb; exact hp) h2
        rw [g1]
        exact ⟨n + 1, r, rfl, count n _ g2 (by omega), g3, g4⟩
      | gt =>
        dsimp only
        obtain ⟨n, r, g1, g2, g3, g4⟩ := ih lo (lo + (hi - lo) / 2) (by omega) (by omega) (by omega) h1
          (fun i b hi' hb => by
            rcases Nat.eq_or_lt_of_le hi' with h | h
            · subst h; rw [ha] at hb; cases hb; exact hp
            · exact (after i b h hb).1 hp)
        rw [g1]
        exact ⟨n + 1, r, rfl, count n _ g2 (by omega), g3, g4⟩
      | eq =>
        refine ⟨1, .ok _, rfl, .inr (by simp; omega), fun i h => ?_, fun j h => by cases h⟩
        cases h
        exact ⟨a, ha, hp⟩
    · refine ⟨0, .error lo, by unfold bisect; rw [if_neg hlt]; rfl, .inl rfl, fun i h => (by cases h), fun j h => ?_⟩
      cases h
      exact ⟨by omega, h1, fun i a hi' => h2 i a (by omega)⟩

theorem probes_le {n m : Nat} (h : n = 0 ∨ 2 ^ (n - 1) ≤ m) : n ≤ Nat.log2 m + 1 := by
  rcases h with rfl | h
  · omega
  · have hm : m ≠ 0 := by have := Nat.pow_pos (n := n - 1) (show 0 < 2 by decide); omega
    have := (Nat.le_log2 hm).mpr h
    omega

end

section
variable {T : Type} [LinearOrder T] {table : List (Interval T)} {v : T} {q : Interval T}

theorem Table.pairwise (h : Table table) : table.Pairwise fun a b => Obtainable a ∧ Obtainable b ∧ a.lt b = true :=
  (c73_sorted table h.obtainable h.sorted).imp_of_mem fun ha hb hab => ⟨h.obtainable _ ha, h.obtainable _ hb, hab.1⟩

theorem probeVal_mono (h : Table table) : table.Pairwise fun a b =>
    (probeVal v a = .gt → probeVal v b = .gt) ∧ (probeVal v b = .lt → probeVal v a = .lt) := by
  refine h.pairwise.imp fun {a b} ⟨ha, hb, hab⟩ => ?_
  rcases Interval.cases2 a with rfl | ⟨l, lc, u, uc, rfl⟩
  · cases hab
  rcases Interval.cases2 b with rfl | ⟨l', lc', u', uc', rfl⟩
  · cases hab
  rw [Interval.lt_mk] at hab
  have h1 : l < u ∨ l = u ∧ lc = true ∧ uc = true := ha.wf
  have h2 : l' < u' ∨ l' = u' ∧ lc' = true ∧ uc' = true := hb.wf
  unfold probeVal
  simp only [Interval.ltV_mk, Interval.gtV_mk]
  grind

theorem probeVal_eq {a : Interval T} (ha : Obtainable a) (hne : a.isEmpty = false) :
    (probeVal v a = .eq ↔ Mem a v) ∧ (probeVal v a = .lt ↔ a.ltV v = true) ∧ (probeVal v a = .gt ↔ a.gtV v = true) := by
  obtain ⟨h1, h2, h3, h4⟩ := (c33_value_comparison ha v).2.2.2.2.2.2.2 hne
  rw [← (c24_contains_val_partial ha v).1 hne]
  unfold probeVal
  cases e1 : a.ltV v <;> cases e2 : a.gtV v <;> simp_all

theorem probeItv_mono (h : Table table) (hq : Obtainable q) : table.Pairwise fun a b =>
    (probeItv q a = .gt → probeItv q b = .gt) ∧ (probeItv q b = .lt → probeItv q a = .lt) := by
  refine h.pairwise.imp fun {a b} ⟨ha, hb, hab⟩ => ?_
  have h1 := (c73_strict_order ha hb hq).2.2.1 hab
  have h2 := (c73_strict_order hb ha hq).2.2.2.1 (by rw [(c30_strict hb ha).2.2.1]; exact hab)
  have h3 : ¬ (a.lt q = true ∧ a.gt q = true) := (c30_strict ha hq).2.2.2.2.1
  have h4 : ¬ (b.lt q = true ∧ b.gt q = true) := (c30_strict hb hq).2.2.2.2.1
  unfold probeItv
  cases e1 : a.lt q <;> cases e2 : a.gt q <;> cases e3 : b.lt q <;> cases e4 : b.gt q <;> simp_all

theorem probeItv_eq {a : Interval T} (ha : Obtainable a) (hq : Obtainable q) (hne : a.isEmpty = false)
    (hqe : q.isEmpty = false) :
    (probeItv q a = .eq ↔ a.intersects q = true) ∧ (probeItv q a = .lt ↔ a.lt q = true) ∧
      (probeItv q a = .gt ↔ q.lt a = true) := by
  obtain ⟨h1, h2, h3⟩ := (c73_trichotomy ha hq).1 hne hqe
  have h4 := (c30_strict ha hq).2.2.1
  have h5 := (c30_strict ha hq).2.2.2.1
  unfold probeItv
  rw [h4]
  cases e1 : a.lt q <;> cases e2 : q.lt a <;> simp_all

end
end Itv
