import Verif.Itv.Collect
import Verif.Itv.PropsAlgebra
/-!
# C92: merging a collection of intervals

A client keeps a collection of intervals and merges any two of them as long as some two can be merged
(`MergeStep`, `Merged`).
-/

open Rust
namespace Itv

section
variable {T : Type} [LinearOrder T] {l m n : List (Interval T)}

/-- C92: every step makes the collection smaller by one, so merging ends, whatever is merged first; and then all
pairs are refused, by `into_merged` and by `merge`. -/
theorem c92_ends (hl : ∀ i ∈ l, Obtainable i) :
    (∀ m, MergeStep l m → m.length + 1 = l.length) ∧
    (∀ m, MergeSteps l m → ∃ n, MergeSteps m n ∧ Merged n) ∧
    (Merged l ↔ l.Pairwise fun a b => Interval.intoMerged a b = .ok (.error (a, b)) ∧
      Interval.merge b a = (.ok (.error b), a)) := by
  refine ⟨fun m h => h.length, fun m h => ?_, ?_⟩
  · clear hl h
    generalize hk : m.length = k
    induction k generalizing m with
    | zero =>
      refine ⟨m, .refl, fun n hn => ?_⟩
      have := hn.length; omega
    | succ k ih =>
      by_cases hm : ∃ n, MergeStep m n
      · obtain ⟨n, hn⟩ := hm
        obtain ⟨r, h1, h2⟩ := ih n (by have := hn.length; omega)
        exact ⟨r, .head hn h1, h2⟩
      · exact ⟨m, .refl, fun n hn => hm ⟨n, hn⟩⟩
  · rw [merged_pairwise hl]
    constructor
    · intro h
      exact List.Pairwise.imp_of_mem (fun ha hb hab => (c28_merge (hl _ ha) (hl _ hb)).2 hab) h
    · intro h
      refine List.Pairwise.imp_of_mem (fun {a b} ha hb hab => ?_) h
      by_contra hc
      obtain ⟨i, hi, _⟩ := (c28_merge (hl _ ha) (hl _ hb)).1 (by simpa using hc)
      rw [hab.1] at hi; cases hi

/-- C92: the end result does not depend on what was merged in which order, up to the order of the collection. -/
theorem c92_unique (hl : ∀ i ∈ l, Obtainable i) (hm : MergeSteps l m) (hn : MergeSteps l n) (dm : Merged m)
    (dn : Merged n) : m.Perm n := by
  refine (List.perm_ext_iff_of_nodup (dm.nodup (hm.inv hl).1) (dn.nodup (hn.inv hl).1)).mpr fun i => ?_
  exact ⟨merged_unique hl hm hn dm dn i, merged_unique hl hn hm dn dm i⟩

/-- C92: no value is gained or lost on the way, and in the end no value is in two intervals. -/
theorem c92_points (hl : ∀ i ∈ l, Obtainable i) (hm : MergeSteps l m) :
    (∀ i ∈ m, Obtainable i) ∧ (∀ v, (∃ i ∈ m, Mem i v) ↔ ∃ i ∈ l, Mem i v) ∧
    (Merged m → m.Pairwise fun a b => ∀ v, ¬ (Mem a v ∧ Mem b v)) := by
  refine ⟨(hm.inv hl).1, fun v => hm.covered hl, fun dm => ?_⟩
  refine ((merged_pairwise (hm.inv hl).1).mp dm).imp ?_
  rintro a b hab v ⟨ha, hb⟩
  rw [← Bool.not_eq_true, canBeMerged_cuts] at hab
  obtain ⟨p, hp, p1, p2⟩ := mem_cuts.mp ha
  obtain ⟨q, hq, q1, q2⟩ := mem_cuts.mp hb
  refine hab fun p' hp' q' hq' => ?_
  cases Option.mem_unique hp hp'
  cases Option.mem_unique hq hq'
  exact ⟨p1.trans ((val_cut v).le.trans q2), q1.trans ((val_cut v).le.trans p2)⟩

/-- C92: on a densely ordered type the intervals in the end are the pieces of the union: two values are in the same
interval exactly if every value between them is in some interval of the original collection. -/
theorem c92_pieces_dense [DenselyOrdered T] (hl : ∀ i ∈ l, Obtainable i) (hm : MergeSteps l m) (dm : Merged m) {x y : T}
    (hxy : x ≤ y) :
    (∃ i ∈ m, Mem i x ∧ Mem i y) ↔ ∀ v, x ≤ v → v ≤ y → ∃ i ∈ l, Mem i v := by
  have hc := fun v => hm.covered (v := v) hl
  constructor
  · rintro ⟨i, hi, hx, hy⟩ v h1 h2
    refine (hc v).mp ⟨i, hi, mem_cuts.mpr ?_⟩
    obtain ⟨p, hp, p1, p2⟩ := mem_cuts.mp hx
    obtain ⟨q, hq, q1, q2⟩ := mem_cuts.mp hy
    cases Option.mem_unique hp hq
    exact ⟨p, hp, p1.trans (val_cut_le h1), (val_cut_le h2).trans q2⟩
  · intro h
    obtain ⟨i, hi, hx⟩ := (hc x).mpr (h x le_rfl hxy)
    exact ⟨i, hi, hx, dm.convex (hm.inv hl).1 hi hxy hx fun v h1 h2 => (hc v).mpr (h v h1 h2)⟩

/-- C92: one pass over a collection sorted by lower bounds merges all there is to merge. -/
theorem c92_sweep (hl : ∀ i ∈ l, Obtainable i) (hs : SortedByLower l) :
    ∃ r, sweep l = .ok r ∧ MergeSteps l r ∧ Merged r := by
  cases l with
  | nil =>
    refine ⟨[], rfl, .refl, fun m hm => ?_⟩
    have := hm.length; simp at this
  | cons x l =>
    obtain ⟨h1, h2⟩ := sorted_cuts hs
    obtain ⟨r, e, st, pw, _⟩ := sweepFrom_ok x l hl h1 h2
    exact ⟨r, e, st, (merged_pairwise (st.inv hl).1).mpr pw⟩

end

/-- `[1, 3]`, `(3, 5]`, `(8, 9)`, `[9, 9]`, sorted by lower bounds -/
def pile : List (Interval Rat) :=
  [⟨some ⟨⟨⟨1, true⟩⟩, ⟨⟨3, true⟩⟩⟩⟩, ⟨some ⟨⟨⟨3, false⟩⟩, ⟨⟨5, true⟩⟩⟩⟩, ⟨some ⟨⟨⟨8, false⟩⟩, ⟨⟨9, false⟩⟩⟩⟩,
   Interval.single 9]
/-- `[1, 5]`, `(8, 9]` -/
def pieces : List (Interval Rat) :=
  [⟨some ⟨⟨⟨1, true⟩⟩, ⟨⟨5, true⟩⟩⟩⟩, ⟨some ⟨⟨⟨8, false⟩⟩, ⟨⟨9, true⟩⟩⟩⟩]

theorem pile_ok : ∀ i ∈ pile, Obtainable i := by
  intro i hi
  refine obtainable_of_wf ?_
  simp only [pile, List.mem_cons, List.not_mem_nil, or_false] at hi
  rcases hi with rfl | rfl | rfl | rfl
  · exact Or.inl (by decide)
  · exact Or.inl (by decide)
  · exact Or.inl (by decide)
  · exact Or.inr ⟨rfl, rfl, rfl⟩

theorem pile_sorted : SortedByLower pile := by
  refine ⟨by decide, ?_⟩
  simp only [pile, List.pairwise_cons, List.mem_cons, List.not_mem_nil, or_false, forall_eq_or_imp, forall_eq]
  refine ⟨⟨?_, ?_, ?_⟩, ⟨?_, ?_⟩, ?_, by simp⟩ <;>
  · rintro lo up lo' up' h h'
    cases h; cases h'
    decide

theorem pile_swept : sweep pile = .ok pieces := by decide

example : (∀ i ∈ pile, Obtainable i) ∧ SortedByLower pile ∧ sweep pile = .ok pieces ∧ MergeSteps pile pieces ∧
    Merged pieces ∧ ¬ Merged pile := by
  obtain ⟨r, h1, h2, h3⟩ := c92_sweep pile_ok pile_sorted
  have e := pile_swept
  rw [e] at h1
  cases h1
  refine ⟨pile_ok, pile_sorted, e, h2, h3, fun h => ?_⟩
  exact h _ ⟨List.Perm.refl _, (by decide : _ = Except.ok (Except.ok ⟨some ⟨⟨⟨1, true⟩⟩, ⟨⟨5, true⟩⟩⟩⟩)), List.Perm.refl _⟩

end Itv
