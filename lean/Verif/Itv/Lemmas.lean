import Verif.Itv.Spec
import Mathlib.Order.Basic
/-!
# Helper lemmas for intervals

Every interval is `⟨none⟩` or `iv l lc u uc`. The lemmas below say what the modelled functions do on that
form, as statements about `<` and `=`.
-/

open Rust
namespace Itv

variable {T : Type} [LinearOrder T]

/-- A non-empty interval from its four components. -/
abbrev iv (l : T) (lc : Bool) (u : T) (uc : Bool) : Interval T := ⟨some ⟨⟨⟨l, lc⟩⟩, ⟨⟨u, uc⟩⟩⟩⟩

theorem Interval.rec2 {P : Interval T → Prop} (h0 : P ⟨none⟩) (h1 : ∀ l lc u uc, P (iv l lc u uc)) :
    ∀ i, P i
  | ⟨none⟩ => h0
  | ⟨some ⟨⟨⟨_, _⟩⟩, ⟨⟨_, _⟩⟩⟩⟩ => h1 _ _ _ _

theorem Interval.cases2 (i : Interval T) : i = ⟨none⟩ ∨ ∃ l lc u uc, i = iv l lc u uc :=
  Interval.rec2 (P := fun i => i = ⟨none⟩ ∨ ∃ l lc u uc, i = iv l lc u uc)
    (Or.inl rfl) (fun l lc u uc => Or.inr ⟨l, lc, u, uc, rfl⟩) i

variable {l u l' u' : T} {lc uc lc' uc' : Bool} {v : T}

theorem mem_none : ¬ Mem (⟨none⟩ : Interval T) v := id
theorem mem_mk : Mem (iv l lc u uc) v ↔ (l < v ∨ lc = true ∧ l = v) ∧ (v < u ∨ uc = true ∧ v = u) := Iff.rfl
theorem wf_none : WellFormed (⟨none⟩ : Interval T) := trivial
theorem wf_mk : WellFormed (iv l lc u uc) ↔ l < u ∨ l = u ∧ lc = true ∧ uc = true := Iff.rfl

section bounds
variable {a b : LowerBound T} {c d : UpperBound T}

theorem LowerBound.partialCmp_eq : LowerBound.partialCmp a b = some (LowerBound.cmp a b) := by
  unfold LowerBound.partialCmp LowerBound.cmp
  cases compare a.val b.val <;> simp only
  split
  · rfl
  · split <;> rfl

theorem UpperBound.partialCmp_eq : UpperBound.partialCmp c d = some (UpperBound.cmp c d) := by
  unfold UpperBound.partialCmp UpperBound.cmp
  cases compare c.val d.val <;> simp only
  split
  · rfl
  · split <;> rfl

theorem LowerBound.cmp_lt : LowerBound.cmp a b = .lt ↔
    a.val < b.val ∨ a.val = b.val ∧ a.isClosed = true ∧ b.isClosed = false := by
  unfold LowerBound.cmp
  cases h : compare a.val b.val
  · rw [compare_lt_iff_lt] at h; simp [h]
  · rw [compare_eq_iff_eq] at h
    cases ha : a.isClosed <;> cases hb : b.isClosed <;> simp [h]
  · rw [compare_gt_iff_gt] at h; simp [h.not_gt, h.ne']

theorem LowerBound.cmp_gt : LowerBound.cmp a b = .gt ↔
    b.val < a.val ∨ a.val = b.val ∧ a.isClosed = false ∧ b.isClosed = true := by
  unfold LowerBound.cmp
  cases h : compare a.val b.val
  · rw [compare_lt_iff_lt] at h; simp [h.not_gt, h.ne]
  · rw [compare_eq_iff_eq] at h
    cases ha : a.isClosed <;> cases hb : b.isClosed <;> simp [h]
  · rw [compare_gt_iff_gt] at h; simp [h]

theorem LowerBound.cmp_eq : LowerBound.cmp a b = .eq ↔ a.val = b.val ∧ a.isClosed = b.isClosed := by
  unfold LowerBound.cmp
  cases h : compare a.val b.val
  · rw [compare_lt_iff_lt] at h; simp [h.ne]
  · rw [compare_eq_iff_eq] at h
    cases ha : a.isClosed <;> cases hb : b.isClosed <;> simp [h]
  · rw [compare_gt_iff_gt] at h; simp [h.ne']

theorem UpperBound.cmp_lt : UpperBound.cmp c d = .lt ↔
    c.val < d.val ∨ c.val = d.val ∧ c.isClosed = false ∧ d.isClosed = true := by
  unfold UpperBound.cmp
  cases h : compare c.val d.val
  · rw [compare_lt_iff_lt] at h; simp [h]
  · rw [compare_eq_iff_eq] at h
    cases ha : c.isClosed <;> cases hb : d.isClosed <;> simp [h]
  · rw [compare_gt_iff_gt] at h; simp [h.not_gt, h.ne']

theorem UpperBound.cmp_gt : UpperBound.cmp c d = .gt ↔
    d.val < c.val ∨ c.val = d.val ∧ c.isClosed = true ∧ d.isClosed = false := by
  unfold UpperBound.cmp
  cases h : compare c.val d.val
  · rw [compare_lt_iff_lt] at h; simp [h.not_gt, h.ne]
  · rw [compare_eq_iff_eq] at h
    cases ha : c.isClosed <;> cases hb : d.isClosed <;> simp [h]
  · rw [compare_gt_iff_gt] at h; simp [h]

theorem UpperBound.cmp_eq : UpperBound.cmp c d = .eq ↔ c.val = d.val ∧ c.isClosed = d.isClosed := by
  unfold UpperBound.cmp
  cases h : compare c.val d.val
  · rw [compare_lt_iff_lt] at h; simp [h.ne]
  · rw [compare_eq_iff_eq] at h
    cases ha : c.isClosed <;> cases hb : d.isClosed <;> simp [h]
  · rw [compare_gt_iff_gt] at h; simp [h.ne']

theorem LowerBound.lt_iff : LowerBound.lt a b = true ↔
    a.val < b.val ∨ a.val = b.val ∧ a.isClosed = true ∧ b.isClosed = false := by
  unfold LowerBound.lt; rw [LowerBound.partialCmp_eq, ← LowerBound.cmp_lt]; simp

theorem LowerBound.gt_iff : LowerBound.gt a b = true ↔
    b.val < a.val ∨ a.val = b.val ∧ a.isClosed = false ∧ b.isClosed = true := by
  unfold LowerBound.gt; rw [LowerBound.partialCmp_eq, ← LowerBound.cmp_gt]; simp

theorem LowerBound.le_iff : LowerBound.le a b = true ↔
    a.val < b.val ∨ a.val = b.val ∧ (a.isClosed = true ∨ b.isClosed = false) := by
  unfold LowerBound.le
  rw [LowerBound.partialCmp_eq, Bool.or_eq_true, beq_iff_eq, beq_iff_eq, Option.some.injEq,
    Option.some.injEq, LowerBound.cmp_lt, LowerBound.cmp_eq]
  cases a.isClosed <;> cases b.isClosed <;> simp

theorem LowerBound.ge_iff : LowerBound.ge a b = true ↔
    b.val < a.val ∨ a.val = b.val ∧ (a.isClosed = false ∨ b.isClosed = true) := by
  unfold LowerBound.ge
  rw [LowerBound.partialCmp_eq, Bool.or_eq_true, beq_iff_eq, beq_iff_eq, Option.some.injEq,
    Option.some.injEq, LowerBound.cmp_gt, LowerBound.cmp_eq]
  cases a.isClosed <;> cases b.isClosed <;> simp

theorem UpperBound.lt_iff : UpperBound.lt c d = true ↔
    c.val < d.val ∨ c.val = d.val ∧ c.isClosed = false ∧ d.isClosed = true := by
  unfold UpperBound.lt; rw [UpperBound.partialCmp_eq, ← UpperBound.cmp_lt]; simp

theorem UpperBound.gt_iff : UpperBound.gt c d = true ↔
    d.val < c.val ∨ c.val = d.val ∧ c.isClosed = true ∧ d.isClosed = false := by
  unfold UpperBound.gt; rw [UpperBound.partialCmp_eq, ← UpperBound.cmp_gt]; simp

theorem UpperBound.le_iff : UpperBound.le c d = true ↔
    c.val < d.val ∨ c.val = d.val ∧ (c.isClosed = false ∨ d.isClosed = true) := by
  unfold UpperBound.le
  rw [UpperBound.partialCmp_eq, Bool.or_eq_true, beq_iff_eq, beq_iff_eq, Option.some.injEq,
    Option.some.injEq, UpperBound.cmp_lt, UpperBound.cmp_eq]
  cases c.isClosed <;> cases d.isClosed <;> simp

theorem UpperBound.ge_iff : UpperBound.ge c d = true ↔
    d.val < c.val ∨ c.val = d.val ∧ (c.isClosed = true ∨ d.isClosed = false) := by
  unfold UpperBound.ge
  rw [UpperBound.partialCmp_eq, Bool.or_eq_true, beq_iff_eq, beq_iff_eq, Option.some.injEq,
    Option.some.injEq, UpperBound.cmp_gt, UpperBound.cmp_eq]
  cases c.isClosed <;> cases d.isClosed <;> simp

theorem LowerBound.ltU_iff : LowerBound.ltU a c = true ↔
    a.val < c.val ∨ a.val = c.val ∧ (a.isClosed = false ∨ c.isClosed = false) := by
  unfold LowerBound.ltU
  cases h : compare a.val c.val
  · rw [compare_lt_iff_lt] at h; simp [h]
  · rw [compare_eq_iff_eq] at h; simp [h]
  · rw [compare_gt_iff_gt] at h; simp [h.not_gt, h.ne']

theorem LowerBound.gtU_iff : LowerBound.gtU a c = true ↔
    c.val < a.val ∨ a.val = c.val ∧ (a.isClosed = false ∨ c.isClosed = false) := by
  unfold LowerBound.gtU
  cases h : compare a.val c.val
  · rw [compare_lt_iff_lt] at h; simp [h.not_gt, h.ne]
  · rw [compare_eq_iff_eq] at h; simp [h]
  · rw [compare_gt_iff_gt] at h; simp [h]

theorem UpperBound.ltL_iff : UpperBound.ltL c a = true ↔
    c.val < a.val ∨ c.val = a.val ∧ (c.isClosed = false ∨ a.isClosed = false) := by
  unfold UpperBound.ltL
  cases h : compare c.val a.val
  · rw [compare_lt_iff_lt] at h; simp [h]
  · rw [compare_eq_iff_eq] at h; simp [h]
  · rw [compare_gt_iff_gt] at h; simp [h.not_gt, h.ne']

theorem UpperBound.gtL_iff : UpperBound.gtL c a = true ↔
    a.val < c.val ∨ c.val = a.val ∧ (c.isClosed = false ∨ a.isClosed = false) := by
  unfold UpperBound.gtL
  cases h : compare c.val a.val
  · rw [compare_lt_iff_lt] at h; simp [h.not_gt, h.ne]
  · rw [compare_eq_iff_eq] at h; simp [h]
  · rw [compare_gt_iff_gt] at h; simp [h]

theorem LowerBound.min_eq : LowerBound.min a b = if LowerBound.le a b = true then a else b := by
  unfold LowerBound.min LowerBound.le
  rw [LowerBound.partialCmp_eq]
  cases LowerBound.cmp a b <;> rfl

theorem LowerBound.max_eq : LowerBound.max a b = if LowerBound.le a b = true then b else a := by
  unfold LowerBound.max LowerBound.le
  rw [LowerBound.partialCmp_eq]
  cases LowerBound.cmp a b <;> rfl

theorem UpperBound.min_eq : UpperBound.min c d = if UpperBound.le c d = true then c else d := by
  unfold UpperBound.min UpperBound.le
  rw [UpperBound.partialCmp_eq]
  cases UpperBound.cmp c d <;> rfl

theorem UpperBound.max_eq : UpperBound.max c d = if UpperBound.le c d = true then d else c := by
  unfold UpperBound.max UpperBound.le
  rw [UpperBound.partialCmp_eq]
  cases UpperBound.cmp c d <;> rfl

end bounds

namespace Interval

theorem lt_mk : (iv l lc u uc).lt (iv l' lc' u' uc') = true ↔
    u < l' ∨ u = l' ∧ (uc = false ∨ lc' = false) := UpperBound.ltL_iff
theorem gt_mk : (iv l lc u uc).gt (iv l' lc' u' uc') = true ↔
    u' < l ∨ l = u' ∧ (lc = false ∨ uc' = false) := LowerBound.gtU_iff
theorem le_mk : (iv l lc u uc).le (iv l' lc' u' uc') = true ↔ u ≤ l' := by
  show decide (u ≤ l') = true ↔ _; simp
theorem ge_mk : (iv l lc u uc).ge (iv l' lc' u' uc') = true ↔ u' ≤ l := by
  show decide (u' ≤ l) = true ↔ _; simp

theorem lt_none_left {i : Interval T} : (⟨none⟩ : Interval T).lt i = false := rfl
theorem lt_none_right {i : Interval T} : i.lt ⟨none⟩ = false := by
  rcases i with ⟨_ | i⟩ <;> rfl
theorem gt_none_left {i : Interval T} : (⟨none⟩ : Interval T).gt i = false := rfl
theorem gt_none_right {i : Interval T} : i.gt ⟨none⟩ = false := by
  rcases i with ⟨_ | i⟩ <;> rfl

theorem ltV_mk : (iv l lc u uc).ltV v = true ↔ u < v ∨ u = v ∧ uc = false := by
  show (decide (u < v) || (decide (u = v) && !uc)) = true ↔ _; simp
theorem gtV_mk : (iv l lc u uc).gtV v = true ↔ v < l ∨ l = v ∧ lc = false := by
  show (decide (l > v) || (decide (l = v) && !lc)) = true ↔ _; simp
theorem leV_mk : (iv l lc u uc).leV v = true ↔ u ≤ v := by
  show decide (u ≤ v) = true ↔ _; simp
theorem geV_mk : (iv l lc u uc).geV v = true ↔ v ≤ l := by
  show decide (l ≥ v) = true ↔ _; simp
theorem eqV_mk : (iv l lc u uc).eqV v = true ↔ l = v ∧ lc = true ∧ u = v ∧ uc = true := by
  show ((decide (l = v) && lc) && (decide (u = v) && uc)) = true ↔ _
  simp [and_assoc]

theorem containsVal_mk : (iv l lc u uc).containsVal v = true ↔
    ¬ (v < l ∨ l = v ∧ lc = false) ∧ ¬ (u < v ∨ u = v ∧ uc = false) := by
  unfold containsVal
  rw [Bool.not_eq_true', Bool.or_eq_false_iff, ← Bool.not_eq_true, ← Bool.not_eq_true, gtV_mk, ltV_mk]

theorem containsInterval_mk : (iv l lc u uc).containsInterval (iv l' lc' u' uc') = true ↔
    (l < l' ∨ l = l' ∧ (lc = true ∨ lc' = false)) ∧ (u' < u ∨ u = u' ∧ (uc = true ∨ uc' = false)) := by
  show ((LowerBound.le ⟨⟨l, lc⟩⟩ ⟨⟨l', lc'⟩⟩) && (UpperBound.ge ⟨⟨u, uc⟩⟩ ⟨⟨u', uc'⟩⟩)) = true ↔ _
  rw [Bool.and_eq_true, LowerBound.le_iff, UpperBound.ge_iff]; rfl

theorem canBeMerged_mk : (iv l lc u uc).canBeMerged (iv l' lc' u' uc') = true ↔
    ¬ (u < l' ∨ u = l' ∧ uc = false ∧ lc' = false) ∧ ¬ (u' < l ∨ u' = l ∧ uc' = false ∧ lc = false) := by
  show (!((decide (l' > u) || (decide (u = l') && !uc && !lc')) ||
    (decide (l > u') || (decide (u' = l) && !uc' && !lc)))) = true ↔ _
  cases uc <;> cases lc <;> cases uc' <;> cases lc' <;> simp [and_assoc]

theorem intersects_mk : (iv l lc u uc).intersects (iv l' lc' u' uc') = true ↔
    ¬ (u' < l ∨ l = u' ∧ (lc = false ∨ uc' = false)) ∧ ¬ (u < l' ∨ u = l' ∧ (uc = false ∨ lc' = false)) := by
  unfold intersects
  rw [Bool.not_eq_true', Bool.or_eq_false_iff, ← Bool.not_eq_true, ← Bool.not_eq_true, gt_mk, lt_mk]

theorem createChecked_ok (h : l < u ∨ l = u ∧ lc = true ∧ uc = true) :
    createChecked l lc u uc = .ok (iv l lc u uc) := by
  unfold createChecked
  rw [if_neg (by grind), if_neg (by
    rintro ⟨h1, h2⟩
    rcases h with h | ⟨_, rfl, rfl⟩
    · exact h.ne h1
    · simp at h2)]
  rfl

theorem createChecked_err (h : u < l ∨ l = u ∧ (lc = false ∨ uc = false)) :
    createChecked l lc u uc = .error .explicit := by
  unfold createChecked
  by_cases h1 : l > u
  · rw [if_pos h1]
  · rw [if_neg h1, if_pos]
    rcases h with h | ⟨h2, h3⟩
    · exact absurd h h1
    · exact ⟨h2, by rcases h3 with rfl | rfl <;> simp⟩

/-- The lower bound a span, merge or intersection picks, by `≤`. -/
theorem fix_mk : fixAfterModification (iv l lc u uc) =
    if u < l then (iv u uc l lc) else if l = u ∧ (lc = false ∨ uc = false) then ⟨none⟩ else iv l lc u uc := by
  unfold fixAfterModification
  simp only
  by_cases h : u < l
  · rw [if_pos (show LowerBound.val ⟨⟨l, lc⟩⟩ > UpperBound.val ⟨⟨u, uc⟩⟩ from h), if_pos h,
      if_neg (fun h' => h.ne h'.1)]
  · rw [if_neg (show ¬ LowerBound.val ⟨⟨l, lc⟩⟩ > UpperBound.val ⟨⟨u, uc⟩⟩ from h), if_neg h]
    by_cases h2 : l = u ∧ (lc = false ∨ uc = false)
    · rw [if_pos h2, if_pos ⟨h2.1, by
        rcases h2.2 with rfl | rfl <;> simp [LowerBound.isClosed, UpperBound.isClosed]⟩]
    · rw [if_neg h2, if_neg]
      rintro ⟨h3, h4⟩
      apply h2
      refine ⟨h3, ?_⟩
      simpa [LowerBound.isClosed, UpperBound.isClosed] using h4

theorem fix_none : fixAfterModification (⟨none⟩ : Interval T) = ⟨none⟩ := rfl

theorem fix_wf (i : Interval T) : WellFormed (fixAfterModification i) := by
  induction i using Interval.rec2 with
  | h0 => exact wf_none
  | h1 l lc u uc =>
    rw [fix_mk]
    split
    · rw [wf_mk]; left; assumption
    · split
      · exact wf_none
      · rw [wf_mk]
        rename_i h1 h2
        by_cases h : l = u
        · right
          refine ⟨h, ?_⟩
          cases lc <;> cases uc <;> simp_all
        · left; exact lt_of_le_of_ne (not_lt.mp h1) h

theorem fix_of_wf {i : Interval T} (h : WellFormed i) : fixAfterModification i = i := by
  induction i using Interval.rec2 with
  | h0 => rfl
  | h1 l lc u uc =>
    rw [wf_mk] at h
    rw [fix_mk, if_neg (by grind), if_neg (by grind)]

/-! ### set operations on non-empty intervals -/

/-- the wider of two well-formed intervals' hull -/
theorem hull_wf (h1 : WellFormed (iv l lc u uc)) (h2 : WellFormed (iv l' lc' u' uc'))
    {a : LowerBound T} {b : UpperBound T}
    (ha : a = if LowerBound.le ⟨⟨l, lc⟩⟩ ⟨⟨l', lc'⟩⟩ = true then ⟨⟨l, lc⟩⟩ else ⟨⟨l', lc'⟩⟩)
    (hb : b = if UpperBound.le ⟨⟨u, uc⟩⟩ ⟨⟨u', uc'⟩⟩ = true then ⟨⟨u', uc'⟩⟩ else ⟨⟨u, uc⟩⟩) :
    WellFormed ⟨some ⟨a, b⟩⟩ := by
  simp only [LowerBound.le_iff, UpperBound.le_iff, LowerBound.val, UpperBound.val, LowerBound.isClosed, UpperBound.isClosed] at ha hb
  rw [wf_mk] at h1 h2
  rcases a with ⟨⟨a, ac⟩⟩
  rcases b with ⟨⟨b, bc⟩⟩
  rw [show (⟨some ⟨⟨⟨a, ac⟩⟩, ⟨⟨b, bc⟩⟩⟩⟩ : Interval T) = iv a ac b bc from rfl, wf_mk]
  split at ha <;> split at hb <;> (cases ha; cases hb; grind)

theorem fromBounds_eq (a : LowerBound T) (b : UpperBound T) (h : WellFormed ⟨some ⟨a, b⟩⟩) :
    fromBounds a b = .ok ⟨some ⟨a, b⟩⟩ := createChecked_ok h

/-- The hull of two non-empty intervals. -/
def hull (l : T) (lc : Bool) (u : T) (uc : Bool) (l' : T) (lc' : Bool) (u' : T) (uc' : Bool) : Interval T :=
  ⟨some ⟨if LowerBound.le ⟨⟨l, lc⟩⟩ ⟨⟨l', lc'⟩⟩ = true then ⟨⟨l, lc⟩⟩ else ⟨⟨l', lc'⟩⟩,
    if UpperBound.le ⟨⟨u, uc⟩⟩ ⟨⟨u', uc'⟩⟩ = true then ⟨⟨u', uc'⟩⟩ else ⟨⟨u, uc⟩⟩⟩⟩

/-- The common part of two non-empty intervals, if there is one. -/
def meet (l : T) (lc : Bool) (u : T) (uc : Bool) (l' : T) (lc' : Bool) (u' : T) (uc' : Bool) : Interval T :=
  ⟨some ⟨if LowerBound.le ⟨⟨l, lc⟩⟩ ⟨⟨l', lc'⟩⟩ = true then ⟨⟨l', lc'⟩⟩ else ⟨⟨l, lc⟩⟩,
    if UpperBound.le ⟨⟨u, uc⟩⟩ ⟨⟨u', uc'⟩⟩ = true then ⟨⟨u, uc⟩⟩ else ⟨⟨u', uc'⟩⟩⟩⟩

theorem mem_hull : Mem (hull l lc u uc l' lc' u' uc') v ↔
    (Spec.Above l lc v ∨ Spec.Above l' lc' v) ∧ (Spec.Below u uc v ∨ Spec.Below u' uc' v) := by
  unfold hull
  simp only [LowerBound.le_iff, UpperBound.le_iff, LowerBound.val, UpperBound.val, LowerBound.isClosed,
    UpperBound.isClosed]
  split <;> split <;> rw [show ∀ a b, Mem (⟨some ⟨a, b⟩⟩ : Interval T) v ↔
      Spec.Above a.bound.val a.bound.isClosed v ∧ Spec.Below b.bound.val b.bound.isClosed v from
      fun a b => Iff.rfl] <;> unfold Spec.Above Spec.Below <;> grind

theorem mem_meet : Mem (meet l lc u uc l' lc' u' uc') v ↔
    Mem (iv l lc u uc) v ∧ Mem (iv l' lc' u' uc') v := by
  unfold meet
  rw [mem_mk, mem_mk]
  simp only [LowerBound.le_iff, UpperBound.le_iff, LowerBound.val, UpperBound.val, LowerBound.isClosed,
    UpperBound.isClosed]
  split <;> split <;> rw [show ∀ a b, Mem (⟨some ⟨a, b⟩⟩ : Interval T) v ↔
      Spec.Above a.bound.val a.bound.isClosed v ∧ Spec.Below b.bound.val b.bound.isClosed v from
      fun a b => Iff.rfl] <;> unfold Spec.Above Spec.Below <;> grind

theorem meet_wf (h1 : WellFormed (iv l lc u uc)) (h2 : WellFormed (iv l' lc' u' uc'))
    (h : (iv l lc u uc).intersects (iv l' lc' u' uc') = true) :
    WellFormed (meet l lc u uc l' lc' u' uc') := by
  rw [intersects_mk] at h
  rw [wf_mk] at h1 h2
  unfold meet
  simp only [LowerBound.le_iff, UpperBound.le_iff, LowerBound.val, UpperBound.val, LowerBound.isClosed,
    UpperBound.isClosed]
  split <;> split <;> rw [show ∀ (a : LowerBound T) (b : UpperBound T), WellFormed (⟨some ⟨a, b⟩⟩ : Interval T) ↔
      a.bound.val < b.bound.val ∨ a.bound.val = b.bound.val ∧ a.bound.isClosed = true ∧
        b.bound.isClosed = true from fun a b => Iff.rfl] <;> grind

theorem intoSpan_mk (h1 : WellFormed (iv l lc u uc)) (h2 : WellFormed (iv l' lc' u' uc')) :
    intoSpan (iv l lc u uc) (iv l' lc' u' uc') = .ok (hull l lc u uc l' lc' u' uc') := by
  show fromBounds (LowerBound.min _ _) (UpperBound.max _ _) = _
  rw [LowerBound.min_eq, UpperBound.max_eq]
  exact fromBounds_eq _ _ (hull_wf h1 h2 rfl rfl)

theorem intoMerged_mk (h1 : WellFormed (iv l lc u uc)) (h2 : WellFormed (iv l' lc' u' uc')) :
    intoMerged (iv l lc u uc) (iv l' lc' u' uc') =
      .ok (if (iv l lc u uc).canBeMerged (iv l' lc' u' uc') = true then
        .ok (hull l lc u uc l' lc' u' uc') else .error (iv l lc u uc, iv l' lc' u' uc')) := by
  have hs := intoSpan_mk h1 h2
  have hs' : fromBounds (LowerBound.min ⟨⟨l, lc⟩⟩ ⟨⟨l', lc'⟩⟩) (UpperBound.max ⟨⟨u, uc⟩⟩ ⟨⟨u', uc'⟩⟩)
    = .ok (hull l lc u uc l' lc' u' uc') := hs
  cases h : (iv l lc u uc).canBeMerged (iv l' lc' u' uc') with
  | false =>
    unfold intoMerged; rw [h]; rfl
  | true =>
    unfold intoMerged; rw [h]
    show (do return Except.ok (← fromBounds (LowerBound.min ⟨⟨l, lc⟩⟩ ⟨⟨l', lc'⟩⟩)
      (UpperBound.max ⟨⟨u, uc⟩⟩ ⟨⟨u', uc'⟩⟩))) = _
    rw [hs']; rfl

theorem intoIntersection_mk (h1 : WellFormed (iv l lc u uc)) (h2 : WellFormed (iv l' lc' u' uc')) :
    intoIntersection (iv l lc u uc) (iv l' lc' u' uc') =
      .ok (if (iv l lc u uc).intersects (iv l' lc' u' uc') = true then
        meet l lc u uc l' lc' u' uc' else ⟨none⟩) := by
  cases h : (iv l lc u uc).intersects (iv l' lc' u' uc') with
  | false =>
    unfold intoIntersection; rw [h]; rfl
  | true =>
    unfold intoIntersection; rw [h]
    show fromBounds (LowerBound.max ⟨⟨l, lc⟩⟩ ⟨⟨l', lc'⟩⟩) (UpperBound.min ⟨⟨u, uc⟩⟩ ⟨⟨u', uc'⟩⟩) = _
    rw [LowerBound.max_eq, UpperBound.min_eq]
    exact fromBounds_eq _ _ (meet_wf h1 h2 h)

/-- replacing when strictly smaller is the same as taking the minimum -/
theorem lower_swap (a b : LowerBound T) : (if LowerBound.lt b a = true then b else a)
    = if LowerBound.le a b = true then a else b := by
  have : LowerBound.lt b a = !LowerBound.le a b := by
    rw [Bool.eq_iff_iff, Bool.not_eq_true', ← Bool.not_eq_true (b := LowerBound.le a b), LowerBound.lt_iff,
      LowerBound.le_iff]
    cases a.isClosed <;> cases b.isClosed <;> grind
  rw [this]
  cases LowerBound.le a b <;> rfl

theorem upper_swap (a b : UpperBound T) : (if UpperBound.gt b a = true then b else a)
    = if UpperBound.le a b = true then b else a := by
  rcases a with ⟨⟨a, ac⟩⟩
  rcases b with ⟨⟨b, bc⟩⟩
  simp only [UpperBound.gt_iff, UpperBound.le_iff, UpperBound.val, UpperBound.isClosed]
  split <;> split <;> grind

theorem lower_swap' (a b : LowerBound T) : (if LowerBound.lt a b = true then b else a)
    = if LowerBound.le a b = true then b else a := by
  rcases a with ⟨⟨a, ac⟩⟩
  rcases b with ⟨⟨b, bc⟩⟩
  simp only [LowerBound.lt_iff, LowerBound.le_iff, LowerBound.val, LowerBound.isClosed]
  split <;> split <;> grind

theorem upper_swap' (a b : UpperBound T) : (if UpperBound.gt a b = true then b else a)
    = if UpperBound.le a b = true then a else b := by
  rcases a with ⟨⟨a, ac⟩⟩
  rcases b with ⟨⟨b, bc⟩⟩
  simp only [UpperBound.gt_iff, UpperBound.le_iff, UpperBound.val, UpperBound.isClosed]
  split <;> split <;> grind

theorem span_mk : span (iv l' lc' u' uc') (iv l lc u uc) = (.ok (), hull l lc u uc l' lc' u' uc') := by
  have h1 := lower_swap (⟨⟨l, lc⟩⟩ : LowerBound T) ⟨⟨l', lc'⟩⟩
  have h2 := upper_swap (⟨⟨u, uc⟩⟩ : UpperBound T) ⟨⟨u', uc'⟩⟩
  unfold hull; rw [← h1, ← h2]
  unfold span
  simp only [isEmpty, Option.isNone_some, unwrap, Bool.false_eq_true, if_false]
  split <;> split <;> rfl

theorem merge_mk : merge (iv l' lc' u' uc') (iv l lc u uc) =
    if (iv l lc u uc).canBeMerged (iv l' lc' u' uc') = true then
      (.ok (.ok ()), hull l lc u uc l' lc' u' uc')
    else (.ok (.error (iv l' lc' u' uc')), iv l lc u uc) := by
  have h1 := lower_swap (⟨⟨l, lc⟩⟩ : LowerBound T) ⟨⟨l', lc'⟩⟩
  have h2 := upper_swap (⟨⟨u, uc⟩⟩ : UpperBound T) ⟨⟨u', uc'⟩⟩
  unfold hull; rw [← h1, ← h2]
  unfold merge
  cases (iv l lc u uc).canBeMerged (iv l' lc' u' uc') with
  | false => rfl
  | true =>
    simp only [Bool.not_true, Bool.false_eq_true, if_false, if_true]
    split <;> split <;> rfl

theorem intersection_mk : intersection (iv l' lc' u' uc') (iv l lc u uc) =
    (.ok (), if (iv l lc u uc).intersects (iv l' lc' u' uc') = true then
      meet l lc u uc l' lc' u' uc' else ⟨none⟩) := by
  have h1 := lower_swap' (⟨⟨l, lc⟩⟩ : LowerBound T) ⟨⟨l', lc'⟩⟩
  have h2 := upper_swap' (⟨⟨u, uc⟩⟩ : UpperBound T) ⟨⟨u', uc'⟩⟩
  unfold meet; rw [← h1, ← h2]
  unfold intersection intersects
  simp only [isEmpty, Option.isNone_some, unwrap, Bool.false_or]
  cases (iv l lc u uc).gt (iv l' lc' u' uc') || (iv l lc u uc).lt (iv l' lc' u' uc') with
  | true => rfl
  | false =>
    simp only [Bool.not_false, Bool.false_eq_true, if_false, if_true]
    split <;> split <;> rfl

end Interval

/-! ### every obtainable interval is well formed -/

theorem createChecked_wf {i : Interval T} (h : Interval.createChecked l lc u uc = .ok i) : WellFormed i := by
  by_cases hw : l < u ∨ l = u ∧ lc = true ∧ uc = true
  · rw [Interval.createChecked_ok hw] at h; cases h; exact hw
  · rw [Interval.createChecked_err (by cases lc <;> cases uc <;> grind)] at h; cases h

theorem hull_wf' (h1 : WellFormed (iv l lc u uc)) (h2 : WellFormed (iv l' lc' u' uc')) :
    WellFormed (Interval.hull l lc u uc l' lc' u' uc') := Interval.hull_wf h1 h2 rfl rfl

theorem Obtainable.wf {i : Interval T} (h : Obtainable i) : WellFormed i := by
  induction h with
  | new h => exact createChecked_wf h
  | fromBounds h => exact createChecked_wf h
  | single v => exact Or.inr ⟨rfl, rfl, rfl⟩
  | «open» h => exact createChecked_wf h
  | closed h => exact createChecked_wf h
  | lowerClosed h => exact createChecked_wf h
  | upperClosed h => exact createChecked_wf h
  | empty => trivial
  | @intoMerged a b i _ _ h iha ihb =>
    rcases Interval.cases2 a with rfl | ⟨l, lc, u, uc, rfl⟩
    · have : Interval.intoMerged ⟨none⟩ b = .ok (.ok b) := by
        rcases b with ⟨_ | b⟩ <;> rfl
      rw [this] at h; cases h; exact ihb
    · rcases Interval.cases2 b with rfl | ⟨l', lc', u', uc', rfl⟩
      · cases h; exact iha
      · rw [Interval.intoMerged_mk iha ihb] at h
        split at h
        · cases h; exact hull_wf' iha ihb
        · cases h
  | @intoMergedErr a b i j _ _ h iha ihb =>
    rcases Interval.cases2 a with rfl | ⟨l, lc, u, uc, rfl⟩
    · have : Interval.intoMerged ⟨none⟩ b = .ok (.ok b) := by
        rcases b with ⟨_ | b⟩ <;> rfl
      rw [this] at h; cases h
    · rcases Interval.cases2 b with rfl | ⟨l', lc', u', uc', rfl⟩
      · cases h
      · rw [Interval.intoMerged_mk iha ihb] at h
        split at h
        · cases h
        · cases h; exact iha
  | @intoMergedErr' a b i j _ _ h iha ihb =>
    rcases Interval.cases2 a with rfl | ⟨l, lc, u, uc, rfl⟩
    · have : Interval.intoMerged ⟨none⟩ b = .ok (.ok b) := by
        rcases b with ⟨_ | b⟩ <;> rfl
      rw [this] at h; cases h
    · rcases Interval.cases2 b with rfl | ⟨l', lc', u', uc', rfl⟩
      · cases h
      · rw [Interval.intoMerged_mk iha ihb] at h
        split at h
        · cases h
        · cases h; exact ihb
  | @merge a b r i _ _ h iha ihb =>
    rcases Interval.cases2 a with rfl | ⟨l, lc, u, uc, rfl⟩
    · cases h; exact ihb
    · rcases Interval.cases2 b with rfl | ⟨l', lc', u', uc', rfl⟩
      · cases h; exact iha
      · rw [Interval.merge_mk] at h
        split at h
        · cases h; exact hull_wf' iha ihb
        · cases h; exact iha
  | @intoIntersection a b i _ _ h iha ihb =>
    rcases Interval.cases2 a with rfl | ⟨l, lc, u, uc, rfl⟩
    · cases h; trivial
    · rcases Interval.cases2 b with rfl | ⟨l', lc', u', uc', rfl⟩
      · cases h; trivial
      · rw [Interval.intoIntersection_mk iha ihb] at h
        split at h
        · cases h; exact Interval.meet_wf iha ihb (by assumption)
        · cases h; trivial
  | @intersection a b r i _ _ h iha ihb =>
    rcases Interval.cases2 a with rfl | ⟨l, lc, u, uc, rfl⟩
    · cases h; trivial
    · rcases Interval.cases2 b with rfl | ⟨l', lc', u', uc', rfl⟩
      · cases h; trivial
      · rw [Interval.intersection_mk] at h
        split at h
        · cases h; exact Interval.meet_wf iha ihb (by assumption)
        · cases h; trivial
  | @intoSpan a b i _ _ h iha ihb =>
    rcases Interval.cases2 b with rfl | ⟨l', lc', u', uc', rfl⟩
    · cases h; exact iha
    · rcases Interval.cases2 a with rfl | ⟨l, lc, u, uc, rfl⟩
      · cases h; exact ihb
      · rw [Interval.intoSpan_mk iha ihb] at h
        cases h; exact hull_wf' iha ihb
  | @span a b r i _ _ h iha ihb =>
    rcases Interval.cases2 b with rfl | ⟨l', lc', u', uc', rfl⟩
    · cases h; exact iha
    · rcases Interval.cases2 a with rfl | ⟨l, lc, u, uc, rfl⟩
      · cases h; exact ihb
      · rw [Interval.span_mk] at h
        cases h; exact hull_wf' iha ihb
  | @arith a i opUp opLo _ h iha =>
    unfold Interval.binOp2 at h
    split at h
    · cases h; exact iha
    · rename_i a' _
      cases h1 : a'.up.binOp opUp with
      | error e => rw [h1] at h; cases h
      | ok up =>
        cases h2 : a'.lo.binOp opLo with
        | error e => rw [h1, h2] at h; cases h
        | ok lo => rw [h1, h2] at h; cases h; exact Interval.fix_wf _
  | @arithAssign a i opLo opUp _ h iha =>
    unfold Interval.opAssign2 at h
    split at h
    · cases h; exact Interval.fix_wf _
    · split at h
      · cases h
      · split at h
        · cases h
        · cases h; exact Interval.fix_wf _
  | @neg a i opU opL _ h iha =>
    unfold Interval.neg2 at h
    split at h
    · cases h; trivial
    · rename_i l lc u uc _
      cases h1 : opU u with
      | error e => rw [h1] at h; cases h
      | ok nu =>
        cases h2 : opL l with
        | error e => rw [h1, h2] at h; cases h
        | ok nl => rw [h1, h2] at h; cases h; exact Interval.fix_wf _

/-- Conversely every well-formed interval is obtainable. -/
theorem obtainable_of_wf {i : Interval T} (h : WellFormed i) : Obtainable i := by
  rcases Interval.cases2 i with rfl | ⟨l, lc, u, uc, rfl⟩
  · exact Obtainable.empty
  · exact Obtainable.new (Interval.createChecked_ok h)

end Itv
