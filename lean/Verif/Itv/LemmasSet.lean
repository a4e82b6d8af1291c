import Verif.Itv.SpecSet
/-!
# Helper lemmas for C118
-/

open Rust
namespace Itv

section
variable {T : Type} [LinearOrder T] {a b i j : Interval T} {l m r : List (Interval T)} {v : T}
  {lo : LowerBound T} {up : UpperBound T}

theorem nonempty_cuts : a.isEmpty = false ↔ ∃ p, cuts a = some p := by
  rw [← Bool.not_eq_true, isEmpty_cuts, ← ne_eq, Option.ne_none_iff_exists']

/-- two intervals that are not empty can be merged exactly if they share a cut -/
theorem mergeable_iff (ha : Obtainable a) (hb : Obtainable b) (na : a.isEmpty = false) (nb : b.isEmpty = false) :
    a.canBeMerged b = true ↔ ∃ k, Seg a k ∧ Seg b k := by
  obtain ⟨p, hp⟩ := nonempty_cuts.mp na
  obtain ⟨q, hq⟩ := nonempty_cuts.mp nb
  have wa := wf_cuts.mp ha.wf p hp
  have wb := wf_cuts.mp hb.wf q hq
  rw [canBeMerged_cuts]
  constructor
  · intro h
    obtain ⟨h1, h2⟩ := h p hp q hq
    exact ⟨max p.1 q.1, ⟨p, hp, le_max_left _ _, max_le wa.le h2⟩, q, hq, le_max_right _ _, max_le h1 wb.le⟩
  · rintro ⟨k, ⟨p', hp', p1, p2⟩, q', hq', q1, q2⟩ p'' hp'' q'' hq''
    cases Option.mem_unique hp' hp''
    cases Option.mem_unique hq' hq''
    exact ⟨p1.trans q2, q1.trans p2⟩

theorem separate_iff (ha : Obtainable a) (hb : Obtainable b) (na : a.isEmpty = false) (nb : b.isEmpty = false) :
    a.canBeMerged b = false ↔ ∀ k, Seg a k → ¬ Seg b k := by
  rw [← Bool.not_eq_true, mergeable_iff ha hb na nb]
  exact ⟨fun h k h1 h2 => h ⟨k, h1, h2⟩, fun h ⟨k, h1, h2⟩ => h k h1 h2⟩

theorem seg_of_mem (h : Mem a v) : Seg a (toLex (v, false)) := by
  obtain ⟨p, hp, h1, h2⟩ := mem_cuts.mp h
  exact ⟨p, hp, h1, (val_cut v).le.trans h2⟩

theorem covered_cons : Covered (a :: l) v ↔ Mem a v ∨ Covered l v := by
  unfold Covered; simp
theorem covered_append : Covered (l ++ m) v ↔ Covered l v ∨ Covered m v := by
  unfold Covered; simp only [List.mem_append, or_and_right, exists_or]
theorem cov_cons {k : T ×ₗ Bool} : Cov (a :: l) k ↔ Seg a k ∨ Cov l k := by
  unfold Cov; simp
theorem cov_append {k : T ×ₗ Bool} : Cov (l ++ m) k ↔ Cov l k ∨ Cov m k := by
  unfold Cov; simp only [List.mem_append, or_and_right, exists_or]

theorem isSet_nil : IsSet ([] : List (Interval T)) :=
  ⟨fun _ h => (by cases h), fun _ h => (by cases h), .nil⟩

theorem isSet_cons : IsSet (a :: l) ↔
    Obtainable a ∧ a.isEmpty = false ∧ (∀ k, Seg a k → ¬ Cov l k) ∧ IsSet l := by
  constructor
  · rintro ⟨h1, h2, h3⟩
    have h4 := List.pairwise_cons.mp h3
    have ha := h1 a List.mem_cons_self
    have na := h2 a List.mem_cons_self
    refine ⟨ha, na, ?_, fun i hi => h1 i (List.mem_cons_of_mem _ hi), fun i hi => h2 i (List.mem_cons_of_mem _ hi), h4.2⟩
    rintro k hk ⟨x, hx, hxk⟩
    exact (separate_iff ha (h1 x (List.mem_cons_of_mem _ hx)) na (h2 x (List.mem_cons_of_mem _ hx))).mp (h4.1 x hx) k hk hxk
  · rintro ⟨ha, na, hs, h1, h2, h3⟩
    refine ⟨List.forall_mem_cons.mpr ⟨ha, h1⟩, List.forall_mem_cons.mpr ⟨na, h2⟩, List.pairwise_cons.mpr ⟨fun x hx => ?_, h3⟩⟩
    exact (separate_iff ha (h1 x hx) na (h2 x hx)).mpr fun k hk hxk => hs k hk ⟨x, hx, hxk⟩

theorem isSet_append (hl : IsSet l) (hm : IsSet m) (h : ∀ k, Cov l k → ¬ Cov m k) : IsSet (l ++ m) := by
  induction l with
  | nil => exact hm
  | cons a l ih =>
    obtain ⟨h1, h2, h3, h4⟩ := isSet_cons.mp hl
    refine isSet_cons.mpr ⟨h1, h2, fun k hk hc => ?_, ih h4 fun k hk => h k (cov_cons.mpr (.inr hk))⟩
    rcases cov_append.mp hc with hc | hc
    · exact h3 k hk hc
    · exact h k (cov_cons.mpr (.inl hk)) hc

theorem addFrom_ok (hl : IsSet l) : ∀ {i : Interval T}, Obtainable i → i.isEmpty = false →
    ∃ r, addFrom i l = .ok r ∧ IsSet r ∧ (∀ k, Cov r k ↔ Seg i k ∨ Cov l k) ∧
      (∀ v, Covered r v ↔ Mem i v ∨ Covered l v) ∧ r.length ≤ l.length + 1 := by
  induction l with
  | nil =>
    intro i hi ni
    exact ⟨[i], rfl, isSet_cons.mpr ⟨hi, ni, fun k _ ⟨_, h, _⟩ => (by cases h), isSet_nil⟩, fun k => cov_cons,
      fun v => covered_cons, Nat.le_refl _⟩
  | cons x l ih =>
    intro i hi ni
    obtain ⟨hx, nx, hs, hl⟩ := isSet_cons.mp hl
    by_cases hm : i.canBeMerged x = true
    · obtain ⟨s, e, hso, hsm, _⟩ := (c28_merge hi hx).1 hm
      have hseg := (merged_seg hi hx e).1
      have ns : s.isEmpty = false := by
        obtain ⟨p, hp⟩ := nonempty_cuts.mp ni
        obtain ⟨q, hq⟩ := nonempty_cuts.mp nx
        rw [nonempty_cuts, (merged_ok hi hx e).2.1, hp, hq]
        exact ⟨_, rfl⟩
      obtain ⟨r, h1, h2, h3, h4, h5⟩ := ih hl (merged_ok hi hx e).2.2 ns
      refine ⟨r, ?_, h2, fun k => ?_, fun v => ?_, Nat.le_trans h5 (Nat.le_succ _)⟩
      · rw [addFrom, e]; exact h1
      · rw [h3, hseg, cov_cons, or_assoc]
      · rw [h4, hsm, covered_cons, or_assoc]
    · have e : Interval.intoMerged i x = .ok (.error (i, x)) := by
        rw [intoMerged_cut hi.wf hx.wf, if_neg hm]
      obtain ⟨r, h1, h2, h3, h4, h5⟩ := ih hl hi ni
      refine ⟨x :: r, ?_, isSet_cons.mpr ⟨hx, nx, fun k hk hc => ?_, h2⟩, fun k => ?_, fun v => ?_, Nat.succ_le_succ h5⟩
      · rw [addFrom, e]
        show ((do return x :: (← addFrom i l)) : Except Fault _) = _
        rw [h1]; rfl
      · rcases (h3 k).mp hc with hc | hc
        · exact hm ((mergeable_iff hi hx ni nx).mpr ⟨k, hc, hk⟩)
        · exact hs k hk hc
      · rw [cov_cons, h3, cov_cons, or_left_comm]
      · rw [covered_cons, h4, covered_cons, or_left_comm]

/-- the cut of a lower bound -/
abbrev LowerBound.cut (lo : LowerBound T) : T ×ₗ Bool := cutL lo.val lo.isClosed
/-- the cut of an upper bound -/
abbrev UpperBound.cut (up : UpperBound T) : T ×ₗ Bool := cutU up.val up.isClosed

theorem lower_max (lo lo' : LowerBound T) : (lo.max lo').cut = max lo.cut lo'.cut := by
  rw [LowerBound.max_eq]
  split <;> rename_i h
  · exact (max_eq_right (cut_lowerLe.mp h)).symm
  · exact (max_eq_left (le_of_not_ge fun hc => h (cut_lowerLe.mpr hc))).symm
theorem upper_min (up up' : UpperBound T) : (up.min up').cut = min up.cut up'.cut := by
  rw [UpperBound.min_eq]
  split <;> rename_i h
  · exact (min_eq_left (cut_upperLe.mp h)).symm
  · exact (min_eq_right (le_of_not_ge fun hc => h (cut_upperLe.mpr hc))).symm

theorem piece_ok (lo : LowerBound T) (up : UpperBound T) :
    (lo.cut < up.cut ∧ ∃ i, piece lo up = .ok [i] ∧ Obtainable i ∧ cuts i = some (lo.cut, up.cut)) ∨
    (up.cut ≤ lo.cut ∧ piece lo up = .ok []) := by
  have hw : WellFormed (⟨some ⟨lo, up⟩⟩ : Interval T) ↔ lo.cut < up.cut := wf_cut
  unfold piece
  by_cases h : lo.val < up.val ∨ lo.val = up.val ∧ lo.isClosed = true ∧ up.isClosed = true
  · have hwf : WellFormed (⟨some ⟨lo, up⟩⟩ : Interval T) := h
    refine .inl ⟨hw.mp hwf, _, ?_, obtainable_of_wf hwf, rfl⟩
    rw [if_pos h, Interval.fromBounds_eq _ _ hwf]; rfl
  · exact .inr ⟨not_lt.mp fun hc => h (hw.mpr hc), if_neg h⟩

/-- what a piece is, whether there is one or not -/
theorem piece_spec (lo : LowerBound T) (up : UpperBound T) : ∃ r, piece lo up = .ok r ∧ IsSet r ∧ r.length ≤ 1 ∧
    (r ≠ [] → lo.cut < up.cut) ∧ (∀ k, Cov r k → lo.cut ≤ k ∧ k ≤ up.cut) ∧
    (∀ v, Covered r v ↔ lo.cut ≤ toLex (v, false) ∧ toLex (v, true) ≤ up.cut) := by
  rcases piece_ok lo up with ⟨h, i, h1, h2, h3⟩ | ⟨h, h1⟩
  · refine ⟨[i], h1, isSet_cons.mpr ⟨h2, nonempty_cuts.mpr ⟨_, h3⟩, fun k _ ⟨_, h, _⟩ => (by cases h), isSet_nil⟩, Nat.le_refl _,
      fun _ => h, ?_, fun v => ?_⟩
    · rintro k ⟨x, hx, p, hp, hk⟩
      cases List.mem_singleton.mp hx
      cases Option.mem_unique hp h3
      exact hk
    · unfold Covered
      simp only [List.mem_singleton, exists_eq_left, mem_cuts, h3, Option.mem_def, Option.some.injEq, exists_eq_left']
  · refine ⟨[], h1, isSet_nil, Nat.zero_le _, fun h => absurd rfl h, fun k ⟨_, h, _⟩ => (by cases h), fun v => ⟨fun ⟨_, h, _⟩ => (by cases h), fun hv => ?_⟩⟩
    exact absurd (hv.2.trans (h.trans hv.1)) (not_le.mpr (val_cut v))

/-- a cut is on one side of every value -/
theorem cut_side (k : T ×ₗ Bool) (v : T) : k ≤ toLex (v, false) ∨ toLex (v, true) ≤ k := by
  obtain ⟨x, c⟩ := k
  rcases lt_trichotomy x v with h | h | h
  · exact .inl (Prod.Lex.toLex_le_toLex.mpr (.inl h))
  · cases c
    · exact .inl (Prod.Lex.toLex_le_toLex.mpr (.inr ⟨h, le_rfl⟩))
    · exact .inr (Prod.Lex.toLex_le_toLex.mpr (.inr ⟨h.symm, le_rfl⟩))
  · exact .inr (Prod.Lex.toLex_le_toLex.mpr (.inl h))

theorem without_ok (ha : Obtainable a) (na : a.isEmpty = false) (hb : Obtainable b) : ∃ r, without b a = .ok r ∧ IsSet r ∧
    (∀ k, Cov r k → Seg a k) ∧ (∀ v, Covered r v ↔ Mem a v ∧ ¬ Mem b v) ∧ r.length ≤ 2 ∧
    (r.length = 2 → ∃ q, cuts b = some q ∧ Seg a q.1) := by
  rcases hA : a with ⟨_ | ⟨la, ua⟩⟩
  · subst hA; cases na
  subst hA
  rcases hB : b with ⟨_ | ⟨lb, ub⟩⟩
  · refine ⟨[⟨some ⟨la, ua⟩⟩], rfl, isSet_cons.mpr ⟨ha, na, fun k _ ⟨_, h, _⟩ => (by cases h), isSet_nil⟩, ?_, fun v => ?_, by simp,
      fun h => by cases h⟩
    · rintro k ⟨x, hx, hk⟩
      cases List.mem_singleton.mp hx
      exact hk
    · unfold Covered
      simp [mem_none]
  subst hB
  have hca : cuts (⟨some ⟨la, ua⟩⟩ : Interval T) = some (la.cut, ua.cut) := rfl
  have hcb : cuts (⟨some ⟨lb, ub⟩⟩ : Interval T) = some (lb.cut, ub.cut) := rfl
  have wa : la.cut < ua.cut := wf_cuts.mp ha.wf _ hca
  have wb : lb.cut < ub.cut := wf_cuts.mp hb.wf _ hcb
  have below : (UpperBound.new lb.val (!lb.isClosed)).cut = lb.cut := rfl
  have above : (LowerBound.new ub.val (!ub.isClosed)).cut = ub.cut := by
    show toLex (_, !!ub.isClosed) = _
    rw [Bool.not_not]; rfl
  obtain ⟨r1, e1, s1, n1, g1, c1, v1⟩ := piece_spec la (ua.min (UpperBound.new lb.val (!lb.isClosed)))
  obtain ⟨r2, e2, s2, n2, g2, c2, v2⟩ := piece_spec (la.max (LowerBound.new ub.val (!ub.isClosed))) ua
  rw [upper_min, below] at g1 c1 v1
  rw [lower_max, above] at g2 c2 v2
  refine ⟨r1 ++ r2, ?_, isSet_append s1 s2 fun k h1 h2 => ?_, fun k hk => ?_, fun v => ?_, ?_, fun h => ?_⟩
  · show ((do
      let left ← piece la (ua.min (UpperBound.new lb.val (!lb.isClosed)))
      let right ← piece (la.max (LowerBound.new ub.val (!ub.isClosed))) ua
      return left ++ right) : Except Fault _) = _
    rw [e1, e2]; rfl
  · have := (c1 k h1).2.trans (min_le_right _ _)
    have := (le_max_right _ _).trans (c2 k h2).1
    exact absurd wb (not_lt.mpr (this.trans ‹_›))
  · refine ⟨_, hca, ?_⟩
    rcases cov_append.mp hk with hk | hk
    · exact ⟨(c1 k hk).1, (c1 k hk).2.trans (min_le_left _ _)⟩
    · exact ⟨(le_max_left _ _).trans (c2 k hk).1, (c2 k hk).2⟩
  · rw [covered_append, v1, v2, mem_cuts, mem_cuts, hca, hcb]
    simp only [Option.mem_def, Option.some.injEq, exists_eq_left', le_min_iff, max_le_iff]
    have x1 : ¬ (lb.cut ≤ toLex (v, false) ∧ toLex (v, true) ≤ lb.cut) := fun h =>
      absurd (h.2.trans h.1) (not_le.mpr (val_cut v))
    have x2 : ¬ (ub.cut ≤ toLex (v, false) ∧ toLex (v, true) ≤ ub.cut) := fun h =>
      absurd (h.2.trans h.1) (not_le.mpr (val_cut v))
    rcases cut_side lb.cut v with y1 | y1 <;> rcases cut_side ub.cut v with y2 | y2 <;> grind
  · rw [List.length_append]; omega
  · rw [List.length_append] at h
    have n1 : r1 ≠ [] := by rintro rfl; simp at h; omega
    have n2 : r2 ≠ [] := by rintro rfl; simp at h; omega
    refine ⟨_, hcb, _, hca, ?_, ?_⟩
    · exact (lt_min_iff.mp (g1 n1)).2.le
    · exact wb.le.trans (max_lt_iff.mp (g2 n2)).2.le

theorem removeFrom_ok (hl : IsSet l) (hb : Obtainable b) : ∃ r, removeFrom b l = .ok r ∧ IsSet r ∧
    (∀ k, Cov r k → Cov l k) ∧ (∀ v, Covered r v ↔ Covered l v ∧ ¬ Mem b v) ∧ r.length ≤ l.length + 1 ∧
    (l.length < r.length → ∃ q, cuts b = some q ∧ Cov l q.1) := by
  induction l with
  | nil =>
    refine ⟨[], rfl, isSet_nil, fun _ h => h, fun v => ?_, Nat.zero_le _, fun h => by cases h⟩
    unfold Covered; simp
  | cons a l ih =>
    obtain ⟨ha, na, hs, hl⟩ := isSet_cons.mp hl
    obtain ⟨r1, e1, s1, c1, v1, n1, g1⟩ := without_ok ha na hb
    obtain ⟨r2, e2, s2, c2, v2, n2, g2⟩ := ih hl
    have both : ¬ (r1.length = 2 ∧ l.length < r2.length) := by
      rintro ⟨h1, h2⟩
      obtain ⟨q, hq, hk⟩ := g1 h1
      obtain ⟨q', hq', hk'⟩ := g2 h2
      cases Option.mem_unique hq hq'
      exact hs _ hk hk'
    refine ⟨r1 ++ r2, ?_, isSet_append s1 s2 fun k h1 h2 => hs k (c1 k h1) (c2 k h2), fun k hk => ?_, fun v => ?_, ?_, fun h => ?_⟩
    · show ((do return (← without b a) ++ (← removeFrom b l)) : Except Fault _) = _
      rw [e1, e2]; rfl
    · rcases cov_append.mp hk with hk | hk
      · exact cov_cons.mpr (.inl (c1 k hk))
      · exact cov_cons.mpr (.inr (c2 k hk))
    · rw [covered_append, v1, v2, covered_cons, or_and_right]
    · rw [List.length_append, List.length_cons]; omega
    · rw [List.length_append, List.length_cons] at h
      by_cases h1 : r1.length = 2
      · obtain ⟨q, hq, hk⟩ := g1 h1
        exact ⟨q, hq, cov_cons.mpr (.inl hk)⟩
      · obtain ⟨q, hq, hk⟩ := g2 (by omega)
        exact ⟨q, hq, cov_cons.mpr (.inr hk)⟩

theorem IsSet.merged (h : IsSet l) : Merged l := (merged_pairwise h.obt).mpr h.apart

/-- in a set, the interval with a value is the only one -/
theorem IsSet.one (h : IsSet l) (hi : i ∈ l) (hj : j ∈ l) (vi : Mem i v) (vj : Mem j v) : i = j :=
  h.merged.same h.obt hi hj (seg_of_mem vi) (seg_of_mem vj)

/-- an interval is convex -/
theorem Mem.between {x y w : T} (hx : Mem i x) (hy : Mem i y) (h1 : x ≤ w) (h2 : w ≤ y) : Mem i w := by
  obtain ⟨p, hp, p1, p2⟩ := mem_cuts.mp hx
  obtain ⟨q, hq, q1, q2⟩ := mem_cuts.mp hy
  cases Option.mem_unique hp hq
  exact mem_cuts.mpr ⟨p, hp, p1.trans (val_cut_le h1), (val_cut_le h2).trans q2⟩

/-- an interval whose values are all in a set lies in one interval of the set -/
theorem IsSet.holds [DenselyOrdered T] (h : IsSet l) (hc : ∀ v, Mem i v → Covered l v) (hj : j ∈ l)
    (hi : Mem i v) (hv : Mem j v) {w : T} (hw : Mem i w) : Mem j w := by
  rcases le_total v w with hvw | hvw
  · exact h.merged.convex h.obt hj hvw hv fun x h1 h2 => hc x (hi.between hw h1 h2)
  · obtain ⟨k, hk, hkw⟩ := hc w hw
    have := h.merged.convex h.obt hk hvw hkw fun x h1 h2 => hc x (hw.between hi h1 h2)
    rw [h.one hj hk hv this]
    exact hkw

theorem IsSet.value [DenselyOrdered T] (h : IsSet l) (hi : i ∈ l) : ∃ v, Mem i v := by
  obtain ⟨p, hp⟩ := nonempty_cuts.mp (h.nonempty i hi)
  obtain ⟨v, hv⟩ := cut_between (wf_cuts.mp (h.obt i hi).wf p hp)
  exact ⟨v, mem_cuts.mpr ⟨p, hp, hv⟩⟩

end

end Itv
