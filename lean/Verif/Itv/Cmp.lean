import Verif.Itv.ModelCmp
import Verif.Itv.Lemmas
/-!
# The stages of the in-place methods, for C86
-/

open Rust
namespace Itv

section
variable {T : Type} [LinearOrder T] {a b : Interval T} {l u l' u' : T} {lc uc lc' uc' : Bool}

/-- `j` lies between `i` and `k`, by the bounds and hence point by point. -/
def Between (i j k : Interval T) : Prop :=
  j.containsInterval i = true ∧ k.containsInterval j = true ∧ (∀ v, Mem i v → Mem j v) ∧ ∀ v, Mem j v → Mem k v

theorem mem_of_contains {i j : Interval T} (h : j.containsInterval i = true) (v : T) (hv : Mem i v) : Mem j v := by
  rcases Interval.cases2 j with rfl | ⟨l, lc, u, uc, rfl⟩
  · rcases Interval.cases2 i with rfl | ⟨l', lc', u', uc', rfl⟩
    · exact hv
    · cases h
  · rcases Interval.cases2 i with rfl | ⟨l', lc', u', uc', rfl⟩
    · exact absurd hv mem_none
    · rw [Interval.containsInterval_mk] at h
      rw [mem_mk] at hv ⊢
      grind

theorem between_of {i j k : Interval T} (h4 : j.containsInterval i = true) (h5 : k.containsInterval j = true) :
    Between i j k := ⟨h4, h5, mem_of_contains h4, mem_of_contains h5⟩

theorem span_eval :
    (Interval.span (iv l' lc' u' uc') (iv l lc u uc)).2 =
      ⟨some ⟨if LowerBound.lt ⟨⟨l', lc'⟩⟩ ⟨⟨l, lc⟩⟩ then ⟨⟨l', lc'⟩⟩ else ⟨⟨l, lc⟩⟩,
        if UpperBound.gt ⟨⟨u', uc'⟩⟩ ⟨⟨u, uc⟩⟩ then ⟨⟨u', uc'⟩⟩ else ⟨⟨u, uc⟩⟩⟩⟩ := by
  simp only [Interval.span, Interval.isEmpty, Option.isNone_some, Interval.unwrap, Bool.false_eq_true, if_false]
  split <;> split <;> rfl

/-- the two stages of `span` and `merge` -/
theorem grow_stages (h1 : WellFormed (iv l lc u uc)) (h2 : WellFormed (iv l' lc' u' uc')) (p q : Bool)
    (hp : p = LowerBound.lt ⟨⟨l', lc'⟩⟩ ⟨⟨l, lc⟩⟩) (hq : q = UpperBound.gt ⟨⟨u', uc'⟩⟩ ⟨⟨u, uc⟩⟩) :
    Between (iv l lc u uc) (iv l lc u uc) ⟨some ⟨if p then ⟨⟨l', lc'⟩⟩ else ⟨⟨l, lc⟩⟩,
      if q then ⟨⟨u', uc'⟩⟩ else ⟨⟨u, uc⟩⟩⟩⟩ ∧
    WellFormed ⟨some ⟨if p then ⟨⟨l', lc'⟩⟩ else ⟨⟨l, lc⟩⟩, ⟨⟨u, uc⟩⟩⟩⟩ ∧
    Between (iv l lc u uc) ⟨some ⟨if p then ⟨⟨l', lc'⟩⟩ else ⟨⟨l, lc⟩⟩, ⟨⟨u, uc⟩⟩⟩⟩
      ⟨some ⟨if p then ⟨⟨l', lc'⟩⟩ else ⟨⟨l, lc⟩⟩, if q then ⟨⟨u', uc'⟩⟩ else ⟨⟨u, uc⟩⟩⟩⟩ := by
  rw [Bool.eq_iff_iff, LowerBound.lt_iff] at hp
  rw [Bool.eq_iff_iff, UpperBound.gt_iff] at hq
  simp only [LowerBound.val, UpperBound.val, LowerBound.isClosed, UpperBound.isClosed] at hp hq
  rw [wf_mk] at h1 h2
  cases p <;> cases q <;> refine ⟨between_of ?_ ?_, ?_, between_of ?_ ?_⟩ <;>
    first
    | (refine (Interval.containsInterval_mk).mpr ?_; cases lc <;> cases uc <;> cases lc' <;> cases uc' <;> grind)
    | (refine wf_mk.mpr ?_; cases lc <;> cases uc <;> cases lc' <;> cases uc' <;> grind)

theorem merge_eval :
    Interval.merge (iv l' lc' u' uc') (iv l lc u uc) =
      if UpperBound.isSeparatedFrom ⟨⟨u, uc⟩⟩ ⟨⟨l', lc'⟩⟩ then (.ok (.error (iv l' lc' u' uc')), iv l lc u uc)
      else if UpperBound.isSeparatedFrom ⟨⟨u', uc'⟩⟩ ⟨⟨l, lc⟩⟩ then (.ok (.error (iv l' lc' u' uc')), iv l lc u uc)
      else (.ok (.ok ()), ⟨some ⟨if LowerBound.lt ⟨⟨l', lc'⟩⟩ ⟨⟨l, lc⟩⟩ then ⟨⟨l', lc'⟩⟩ else ⟨⟨l, lc⟩⟩,
        if UpperBound.gt ⟨⟨u', uc'⟩⟩ ⟨⟨u, uc⟩⟩ then ⟨⟨u', uc'⟩⟩ else ⟨⟨u, uc⟩⟩⟩⟩) := by
  simp only [Interval.merge, Interval.canBeMerged, Interval.bounds]
  cases UpperBound.isSeparatedFrom ⟨⟨u, uc⟩⟩ ⟨⟨l', lc'⟩⟩
  · cases UpperBound.isSeparatedFrom ⟨⟨u', uc'⟩⟩ ⟨⟨l, lc⟩⟩
    · simp only [Bool.or_self, Bool.not_false, Bool.not_true, Bool.false_eq_true, if_false]
      split <;> split <;> rfl
    · rfl
  · rfl

theorem mergeC_eval (k : Nat) :
    Interval.mergeC (iv l' lc' u' uc') (iv l lc u uc, k) =
      (do
        if ← ask (UpperBound.isSeparatedFrom ⟨⟨u, uc⟩⟩ ⟨⟨l', lc'⟩⟩) then return .error (iv l' lc' u' uc')
        if ← ask (UpperBound.isSeparatedFrom ⟨⟨u', uc'⟩⟩ ⟨⟨l, lc⟩⟩) then return .error (iv l' lc' u' uc')
        let lo := if ← ask (LowerBound.lt ⟨⟨l', lc'⟩⟩ ⟨⟨l, lc⟩⟩) then ⟨⟨l', lc'⟩⟩ else ⟨⟨l, lc⟩⟩
        assignSelf ⟨some ⟨lo, ⟨⟨u, uc⟩⟩⟩⟩
        let up := if ← ask (UpperBound.gt ⟨⟨u', uc'⟩⟩ ⟨⟨u, uc⟩⟩) then ⟨⟨u', uc'⟩⟩ else ⟨⟨u, uc⟩⟩
        assignSelf ⟨some ⟨lo, up⟩⟩
        return .ok () : M (Interval T × Nat) (Except (Interval T) Unit)) (iv l lc u uc, k) := rfl

theorem intersection_eval :
    Interval.intersection (iv l' lc' u' uc') (iv l lc u uc) =
      if (iv l lc u uc).gt (iv l' lc' u' uc') then (.ok (), ⟨none⟩)
      else if (iv l lc u uc).lt (iv l' lc' u' uc') then (.ok (), ⟨none⟩)
      else (.ok (), ⟨some ⟨if LowerBound.lt ⟨⟨l, lc⟩⟩ ⟨⟨l', lc'⟩⟩ then ⟨⟨l', lc'⟩⟩ else ⟨⟨l, lc⟩⟩,
        if UpperBound.gt ⟨⟨u, uc⟩⟩ ⟨⟨u', uc'⟩⟩ then ⟨⟨u', uc'⟩⟩ else ⟨⟨u, uc⟩⟩⟩⟩) := by
  unfold Interval.intersection
  simp only [Interval.isEmpty, Option.isNone_some, Interval.unwrap, Bool.false_or]
  cases (iv l lc u uc).gt (iv l' lc' u' uc')
  · cases (iv l lc u uc).lt (iv l' lc' u' uc')
    · simp only [Bool.or_self, Bool.false_eq_true, if_false]
      split <;> split <;> rfl
    · rfl
  · rfl

/-- the two stages of `intersection` -/
theorem shrink_stages (h1 : WellFormed (iv l lc u uc)) (h2 : WellFormed (iv l' lc' u' uc')) (p q : Bool)
    (hg : (iv l lc u uc).gt (iv l' lc' u' uc') = false) (hl : (iv l lc u uc).lt (iv l' lc' u' uc') = false)
    (hp : p = LowerBound.lt ⟨⟨l, lc⟩⟩ ⟨⟨l', lc'⟩⟩) (hq : q = UpperBound.gt ⟨⟨u, uc⟩⟩ ⟨⟨u', uc'⟩⟩) :
    Between ⟨some ⟨if p then ⟨⟨l', lc'⟩⟩ else ⟨⟨l, lc⟩⟩, if q then ⟨⟨u', uc'⟩⟩ else ⟨⟨u, uc⟩⟩⟩⟩
      (iv l lc u uc) (iv l lc u uc) ∧
    WellFormed ⟨some ⟨if p then ⟨⟨l', lc'⟩⟩ else ⟨⟨l, lc⟩⟩, ⟨⟨u, uc⟩⟩⟩⟩ ∧
    Between ⟨some ⟨if p then ⟨⟨l', lc'⟩⟩ else ⟨⟨l, lc⟩⟩, if q then ⟨⟨u', uc'⟩⟩ else ⟨⟨u, uc⟩⟩⟩⟩
      ⟨some ⟨if p then ⟨⟨l', lc'⟩⟩ else ⟨⟨l, lc⟩⟩, ⟨⟨u, uc⟩⟩⟩⟩ (iv l lc u uc) := by
  rw [Bool.eq_iff_iff, LowerBound.lt_iff] at hp
  rw [Bool.eq_iff_iff, UpperBound.gt_iff] at hq
  rw [← Bool.not_eq_true, Interval.gt_mk] at hg
  rw [← Bool.not_eq_true, Interval.lt_mk] at hl
  simp only [LowerBound.val, UpperBound.val, LowerBound.isClosed, UpperBound.isClosed] at hp hq
  rw [wf_mk] at h1 h2
  cases p <;> cases q <;> refine ⟨between_of ?_ ?_, ?_, between_of ?_ ?_⟩ <;>
    first
    | (refine (Interval.containsInterval_mk).mpr ?_; cases lc <;> cases uc <;> cases lc' <;> cases uc' <;> grind)
    | (refine wf_mk.mpr ?_; cases lc <;> cases uc <;> cases lc' <;> cases uc' <;> grind)

theorem intersectionC_eval (k : Nat) :
    Interval.intersectionC (iv l' lc' u' uc') (iv l lc u uc, k) =
      (do
        if ← ask ((iv l lc u uc).gt (iv l' lc' u' uc')) then
          assignSelf ⟨none⟩
        else if ← ask ((iv l lc u uc).lt (iv l' lc' u' uc')) then
          assignSelf ⟨none⟩
        else
          let lo := if ← ask (LowerBound.lt ⟨⟨l, lc⟩⟩ ⟨⟨l', lc'⟩⟩) then ⟨⟨l', lc'⟩⟩ else ⟨⟨l, lc⟩⟩
          assignSelf ⟨some ⟨lo, ⟨⟨u, uc⟩⟩⟩⟩
          let up := if ← ask (UpperBound.gt ⟨⟨u, uc⟩⟩ ⟨⟨u', uc'⟩⟩) then ⟨⟨u', uc'⟩⟩ else ⟨⟨u, uc⟩⟩
          assignSelf ⟨some ⟨lo, up⟩⟩ : M (Interval T × Nat) Unit) (iv l lc u uc, k) := rfl

theorem opAssignC_one (op : T → T) : Interval.opAssignC op (iv l lc u uc, 1) =
    (.error .user, ⟨some (if decide (op l > op u) = true then ⟨⟨⟨op u, uc⟩⟩, ⟨⟨op l, lc⟩⟩⟩ else
      ⟨⟨⟨op l, lc⟩⟩, ⟨⟨op u, uc⟩⟩⟩)⟩, 0) := rfl

theorem opAssignC_two (op : T → T) (k : Nat) : Interval.opAssignC op (iv l lc u uc, k + 2) =
    (if (decide ((if decide (op l > op u) = true then (⟨⟨⟨op u, uc⟩⟩, ⟨⟨op l, lc⟩⟩⟩ : NonEmptyInterval T) else
        ⟨⟨⟨op l, lc⟩⟩, ⟨⟨op u, uc⟩⟩⟩).lo.val = (if decide (op l > op u) = true then
        (⟨⟨⟨op u, uc⟩⟩, ⟨⟨op l, lc⟩⟩⟩ : NonEmptyInterval T) else ⟨⟨⟨op l, lc⟩⟩, ⟨⟨op u, uc⟩⟩⟩).up.val) &&
        (!(if decide (op l > op u) = true then (⟨⟨⟨op u, uc⟩⟩, ⟨⟨op l, lc⟩⟩⟩ : NonEmptyInterval T) else
        ⟨⟨⟨op l, lc⟩⟩, ⟨⟨op u, uc⟩⟩⟩).lo.isClosed || !(if decide (op l > op u) = true then
        (⟨⟨⟨op u, uc⟩⟩, ⟨⟨op l, lc⟩⟩⟩ : NonEmptyInterval T) else ⟨⟨⟨op l, lc⟩⟩, ⟨⟨op u, uc⟩⟩⟩).up.isClosed)) = true
      then assignSelf ⟨none⟩ else pure () : M (Interval T × Nat) Unit)
      (⟨some (if decide (op l > op u) = true then ⟨⟨⟨op u, uc⟩⟩, ⟨⟨op l, lc⟩⟩⟩ else
        ⟨⟨⟨op l, lc⟩⟩, ⟨⟨op u, uc⟩⟩⟩)⟩, k) := rfl

end
end Itv
