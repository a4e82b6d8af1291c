import Verif.Itv.LemmasCover
import Verif.Itv.PropsSchedule
/-!
# C135: counting intervals by their sorted bounds
-/

open Rust
namespace Itv

section
variable {T : Type} [LinearOrder T] {t : Bounds T} {l : List (Interval T)} {q : Interval T}

open Classical in
/-- **C135 (values).** Two binary searches in the sorted bounds, with comparisons between bounds and a value, tell how many
intervals contain the value. They never panic, the difference cannot underflow, and each looks at no more than `log2` of the
size, plus one, entries. -/
theorem c135_cover (hl : ∀ i ∈ l, Obtainable i) (h : t.Of l) (v : T) :
    ∃ n, t.cover v = .ok (n, l.countP fun i => decide (Mem i v)) ∧ n ≤ 2 * (Nat.log2 l.length + 1) := by
  obtain ⟨n, e1, b1⟩ := partitionPoint_ok (pred := fun lo : LowerBound T => lo.leV v) (table := t.lowers)
    (h.lowers_sorted.imp fun {a b} hab hb => leV_before.mpr ((lower_le hab).trans (leV_before.mp hb)))
  obtain ⟨m, e2, b2⟩ := partitionPoint_ok (pred := fun up : UpperBound T => up.ltV v) (table := t.uppers)
    (h.uppers_sorted.imp fun {a b} hab hb => ltV_before.mpr ((upper_le hab).trans (ltV_before.mp hb)))
  rw [h.count_lower] at e1
  rw [h.count_upper] at e2
  obtain ⟨d1, d2⟩ := count_diff (l := l) (q := fun i => decide (Mem i v))
    (p := lowerHas fun lo => lo.leV v) (r := upperHas fun up => up.ltV v) (fun i hi => by
      have hw := (hl i hi).wf
      rcases Interval.cases2 i with rfl | ⟨l, lc, u, uc, rfl⟩
      · exact ⟨fun h => (by cases h), by simp [mem_none, lowerHas, Interval.intoBounds]⟩
      · have hv := wf_cut.mp hw
        have k1 := leV_before (lo := ⟨⟨l, lc⟩⟩) (v := v)
        have k2 := ltV_before (up := ⟨⟨u, uc⟩⟩) (v := v)
        refine ⟨fun g => k1.mpr (hv.le.trans (k2.mp g)), ?_⟩
        rw [decide_eq_true_iff, ← (c24_contains_val_partial (hl _ hi) v).1 rfl, Interval.containsVal, Bool.not_eq_true',
          Bool.or_eq_false_iff, ← Bool.not_eq_true, Interval.gtV_mk]
        refine and_congr ?_ Iff.rfl
        refine Iff.trans ?_ k1.symm
        unfold cutL before
        rw [Prod.Lex.toLex_le_toLex]
        cases lc <;> simp [bool_tf] <;> grind)
  have s1 := log2_mono h.size_lower
  have s2 := log2_mono h.size_upper
  refine ⟨n + m, ?_, by omega⟩
  unfold Bounds.cover
  rw [e1, e2, d1]
  dsimp only [bind, Except.bind]
  rw [usizeDiff_ok d2]
  rfl

/-- **C135 (intervals).** With comparisons between lower and upper bounds they tell how many non-empty intervals intersect
a given one. -/
theorem c135_meets (hl : ∀ i ∈ l, Obtainable i) (h : t.Of l) (hq : Obtainable q) (hne : q.isEmpty = false) :
    ∃ n, t.meets q = .ok (n, l.countP fun i => !i.isEmpty && i.intersects q) ∧ n ≤ 2 * (Nat.log2 l.length + 1) := by
  rcases Interval.cases2 q with rfl | ⟨ql, qlc, qu, quc, rfl⟩
  · cases hne
  have hqw := wf_cut.mp hq.wf
  obtain ⟨n, e1, b1⟩ := partitionPoint_ok (pred := fun lo : LowerBound T => !(lo.gtU ⟨⟨qu, quc⟩⟩)) (table := t.lowers)
    (h.lowers_sorted.imp fun {a b} hab hb => by
      rw [Bool.not_eq_true', ← Bool.not_eq_true, gtU_cuts, not_le] at hb ⊢
      exact (lower_le hab).trans_lt hb)
  obtain ⟨m, e2, b2⟩ := partitionPoint_ok (pred := fun up : UpperBound T => up.ltL ⟨⟨ql, qlc⟩⟩) (table := t.uppers)
    (h.uppers_sorted.imp fun {a b} hab hb => ltL_cuts.mpr ((upper_le hab).trans (ltL_cuts.mp hb)))
  rw [h.count_lower] at e1
  rw [h.count_upper] at e2
  obtain ⟨d1, d2⟩ := count_diff (l := l) (q := fun i => !i.isEmpty && i.intersects (iv ql qlc qu quc))
    (p := lowerHas fun lo => !(lo.gtU ⟨⟨qu, quc⟩⟩)) (r := upperHas fun up => up.ltL ⟨⟨ql, qlc⟩⟩) (fun i hi => by
      have hw := (hl i hi).wf
      rcases Interval.cases2 i with rfl | ⟨l, lc, u, uc, rfl⟩
      · exact ⟨fun h => (by cases h), by simp [Interval.isEmpty, lowerHas, Interval.intoBounds]⟩
      · have hv := wf_cut.mp hw
        have k1 := gtU_cuts (lo := ⟨⟨l, lc⟩⟩) (up := ⟨⟨qu, quc⟩⟩)
        have k2 := ltL_cuts (up := ⟨⟨u, uc⟩⟩) (lo := ⟨⟨ql, qlc⟩⟩)
        refine ⟨fun g => ?_, ?_⟩
        · have g := k2.mp g
          show (!LowerBound.gtU _ _) = true
          rw [Bool.not_eq_true', ← Bool.not_eq_true, k1, not_le]
          exact hv.trans_le (g.trans hqw.le)
        · show (true && !(LowerBound.gtU _ _ || UpperBound.ltL _ _)) = true ↔ (!LowerBound.gtU _ _) = true ∧ UpperBound.ltL _ _ = false
          rw [Bool.true_and, Bool.not_eq_true', Bool.or_eq_false_iff, Bool.not_eq_true'])
  have s1 := log2_mono h.size_lower
  have s2 := log2_mono h.size_upper
  refine ⟨n + m, ?_, by omega⟩
  unfold Bounds.meets
  show (do
    let (n, a) ← partitionPoint (fun l : LowerBound T => !(l.gtU ⟨⟨qu, quc⟩⟩)) t.lowers
    let (m, b) ← partitionPoint (fun u : UpperBound T => u.ltL ⟨⟨ql, qlc⟩⟩) t.uppers
    return (n + m, ← usizeDiff a b)) = _
  rw [e1, e2, d1]
  dsimp only [bind, Except.bind]
  rw [usizeDiff_ok d2]
  rfl

end

/-- the bounds of `jobs`, `[0, 2]`, `[1, 3)`, `(2, 5]`, `[3, 6)` and `[6]` -/
def jobBounds : Bounds Rat :=
  ⟨[⟨⟨0, true⟩⟩, ⟨⟨1, true⟩⟩, ⟨⟨2, false⟩⟩, ⟨⟨3, true⟩⟩, ⟨⟨6, true⟩⟩],
   [⟨⟨2, true⟩⟩, ⟨⟨3, false⟩⟩, ⟨⟨5, true⟩⟩, ⟨⟨6, false⟩⟩, ⟨⟨6, true⟩⟩]⟩

theorem jobBounds_of : jobBounds.Of jobs where
  lowers := List.Perm.refl _
  uppers := List.Perm.refl _
  lowers_sorted := by decide +kernel
  uppers_sorted := by decide +kernel

-- 2 is in two of them, and `[3]` intersects two
example : (∀ i ∈ jobs, Obtainable i) ∧ jobBounds.Of jobs ∧ (jobs.countP fun i => i.containsVal 2) = 2 ∧
    Obtainable (Interval.single (3 : Rat)) ∧ (Interval.single (3 : Rat)).isEmpty = false ∧
    (jobs.countP fun i => !i.isEmpty && i.intersects (Interval.single 3)) = 2 :=
  ⟨jobs_ok, jobBounds_of, by decide +kernel, Obtainable.single 3, rfl, by decide +kernel⟩

end Itv
