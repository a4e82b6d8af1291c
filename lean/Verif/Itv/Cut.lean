import Verif.Itv.Lemmas
import Verif.Itv.Arith
import Mathlib.Data.Prod.Lex
import Mathlib.Order.MinMax
/-!
# Bounds as cuts (helper lemmas)

A bound cuts the line just before or just after its value. In the order of cuts an interval is a pair
`x < y`, and the set operations of the crate are maxima and minima of cuts. Only used in proofs.
-/

open Rust
namespace Itv

theorem bool_tf : ((true : Bool) ≤ false) = False := eq_false (by decide)
theorem bool_tlf : ((true : Bool) < false) = False := eq_false (by decide)

section
variable {T : Type} {l u l' u' : T} {lc uc lc' uc' : Bool}

/-- Where a lower bound cuts the line. -/
def cutL (l : T) (lc : Bool) : T ×ₗ Bool := toLex (l, !lc)
/-- Where an upper bound cuts the line. -/
def cutU (u : T) (uc : Bool) : T ×ₗ Bool := toLex (u, uc)

/-- The two cuts of an interval. -/
def cuts (i : Interval T) : Option ((T ×ₗ Bool) × (T ×ₗ Bool)) :=
  match i.imp with
  | none => none
  | some a => some (cutL a.lo.bound.val a.lo.bound.isClosed, cutU a.up.bound.val a.up.bound.isClosed)

theorem cuts_none : cuts (⟨none⟩ : Interval T) = none := rfl
theorem cuts_mk : cuts (iv l lc u uc) = some (cutL l lc, cutU u uc) := rfl

theorem cutL_inj : cutL l lc = cutL l' lc' ↔ l = l' ∧ lc = lc' := by
  unfold cutL; rw [toLex_inj, Prod.mk.injEq]; cases lc <;> cases lc' <;> simp
theorem cutU_inj : cutU u uc = cutU u' uc' ↔ u = u' ∧ uc = uc' := by
  unfold cutU; rw [toLex_inj, Prod.mk.injEq]

end

section
variable {T : Type} [LinearOrder T] {l u l' u' : T} {lc uc lc' uc' : Bool}

theorem cuts_inj {a b : Interval T} (h : cuts a = cuts b) : a = b := by
  rcases Interval.cases2 a with rfl | ⟨l, lc, u, uc, rfl⟩ <;>
    rcases Interval.cases2 b with rfl | ⟨l', lc', u', uc', rfl⟩
  · rfl
  · cases h
  · cases h
  · rw [cuts_mk, cuts_mk, Option.some.injEq, Prod.mk.injEq, cutL_inj, cutU_inj] at h
    obtain ⟨⟨rfl, rfl⟩, rfl, rfl⟩ := h
    rfl

theorem wf_cut : WellFormed (iv l lc u uc) ↔ cutL l lc < cutU u uc := by
  rw [wf_mk]; unfold cutL cutU; rw [Prod.Lex.toLex_lt_toLex]
  cases lc <;> cases uc <;> simp

theorem contains_cut : (iv l lc u uc).containsInterval (iv l' lc' u' uc') = true ↔
    cutL l lc ≤ cutL l' lc' ∧ cutU u' uc' ≤ cutU u uc := by
  rw [Interval.containsInterval_mk]; unfold cutL cutU
  rw [Prod.Lex.toLex_le_toLex, Prod.Lex.toLex_le_toLex]
  cases lc <;> cases uc <;> cases lc' <;> cases uc' <;> simp [bool_tf] <;> grind

theorem intersects_cut : (iv l lc u uc).intersects (iv l' lc' u' uc') = true ↔
    cutL l lc < cutU u' uc' ∧ cutL l' lc' < cutU u uc := by
  rw [Interval.intersects_mk]; unfold cutL cutU
  rw [Prod.Lex.toLex_lt_toLex, Prod.Lex.toLex_lt_toLex]
  cases lc <;> cases uc <;> cases lc' <;> cases uc' <;> simp [bool_tlf] <;> grind

theorem canBeMerged_cut : (iv l lc u uc).canBeMerged (iv l' lc' u' uc') = true ↔
    cutL l lc ≤ cutU u' uc' ∧ cutL l' lc' ≤ cutU u uc := by
  rw [Interval.canBeMerged_mk]; unfold cutL cutU
  rw [Prod.Lex.toLex_le_toLex, Prod.Lex.toLex_le_toLex]
  cases lc <;> cases uc <;> cases lc' <;> cases uc' <;> simp [bool_tf] <;> grind

theorem separated_cut {a : LowerBound T} {b : UpperBound T} : areSeparated a b = true ↔
    cutU b.bound.val b.bound.isClosed < cutL a.bound.val a.bound.isClosed := by
  rcases a with ⟨⟨l, lc⟩⟩
  rcases b with ⟨⟨u, uc⟩⟩
  unfold areSeparated LowerBound.isClosed UpperBound.isClosed LowerBound.val UpperBound.val cutL cutU
  rw [Prod.Lex.toLex_lt_toLex]
  cases lc <;> cases uc <;> simp

theorem lt_cut : (iv l lc u uc).lt (iv l' lc' u' uc') = true ↔ cutU u uc ≤ cutL l' lc' := by
  rw [Interval.lt_mk]; unfold cutL cutU
  rw [Prod.Lex.toLex_le_toLex]
  cases uc <;> cases lc' <;> simp [bool_tf]

/-- The common part of two pairs of cuts. -/
def cutMeet {K : Type} [LinearOrder K] : Option (K × K) → Option (K × K) → Option (K × K)
  | some (a, b), some (c, d) => if max a c < min b d then some (max a c, min b d) else none
  | _, _ => none

/-- The hull of two pairs of cuts. -/
def cutJoin {K : Type} [LinearOrder K] : Option (K × K) → Option (K × K) → Option (K × K)
  | some (a, b), some (c, d) => some (min a c, max b d)
  | some x, none => some x
  | none, y => y

theorem cut_lowerLe : LowerBound.le ⟨⟨l, lc⟩⟩ ⟨⟨l', lc'⟩⟩ = true ↔ cutL l lc ≤ cutL l' lc' := by
  rw [LowerBound.le_iff]; unfold cutL LowerBound.isClosed LowerBound.val
  rw [Prod.Lex.toLex_le_toLex]
  cases lc <;> cases lc' <;> simp [bool_tf]
theorem cut_upperLe : UpperBound.le ⟨⟨u, uc⟩⟩ ⟨⟨u', uc'⟩⟩ = true ↔ cutU u uc ≤ cutU u' uc' := by
  rw [UpperBound.le_iff]; unfold cutU UpperBound.isClosed UpperBound.val
  rw [Prod.Lex.toLex_le_toLex]
  cases uc <;> cases uc' <;> simp [bool_tf]

theorem cuts_meet : cuts (Interval.meet l lc u uc l' lc' u' uc') =
    some (max (cutL l lc) (cutL l' lc'), min (cutU u uc) (cutU u' uc')) := by
  unfold Interval.meet cuts
  simp only [Option.some.injEq, Prod.mk.injEq]
  constructor
  · split <;> rename_i h <;> rw [cut_lowerLe] at h
    · exact (max_eq_right h).symm
    · exact (max_eq_left (le_of_not_ge h)).symm
  · split <;> rename_i h <;> rw [cut_upperLe] at h
    · exact (min_eq_left h).symm
    · exact (min_eq_right (le_of_not_ge h)).symm

theorem cuts_hull : cuts (Interval.hull l lc u uc l' lc' u' uc') =
    some (min (cutL l lc) (cutL l' lc'), max (cutU u uc) (cutU u' uc')) := by
  unfold Interval.hull cuts
  simp only [Option.some.injEq, Prod.mk.injEq]
  constructor
  · split <;> rename_i h <;> rw [cut_lowerLe] at h
    · exact (min_eq_left h).symm
    · exact (min_eq_right (le_of_not_ge h)).symm
  · split <;> rename_i h <;> rw [cut_upperLe] at h
    · exact (max_eq_right h).symm
    · exact (max_eq_left (le_of_not_ge h)).symm

section
variable {K : Type} [LinearOrder K] {a b c : Option (K × K)}

theorem cutMeet_none_left : cutMeet none a = none := rfl
theorem cutMeet_none_right : cutMeet a none = none := by rcases a with _ | ⟨x, y⟩ <;> rfl
theorem cutMeet_some {x y x' y' : K} : cutMeet (some (x, y)) (some (x', y')) =
    if max x x' < min y y' then some (max x x', min y y') else none := rfl
theorem cutJoin_none_left : cutJoin none a = a := by rcases a with _ | ⟨x, y⟩ <;> rfl
theorem cutJoin_none_right : cutJoin a none = a := by rcases a with _ | ⟨x, y⟩ <;> rfl
theorem cutJoin_some {x y x' y' : K} : cutJoin (some (x, y)) (some (x', y')) =
    some (min x x', max y y') := rfl

theorem cutMeet_assoc : cutMeet (cutMeet a b) c = cutMeet a (cutMeet b c) := by
  rcases a with _ | ⟨x, y⟩
  · simp only [cutMeet_none_left]
  rcases b with _ | ⟨x1, y1⟩
  · simp only [cutMeet_none_left, cutMeet_none_right]
  rcases c with _ | ⟨x2, y2⟩
  · simp only [cutMeet_none_right]
  simp only [cutMeet_some]
  by_cases p : max x x1 < min y y1 <;> by_cases q : max x1 x2 < min y1 y2
  · rw [if_pos p, if_pos q, cutMeet_some, cutMeet_some, max_assoc, min_assoc]
  · rw [if_pos p, if_neg q, cutMeet_some, cutMeet_none_right, if_neg]
    simp only [max_lt_iff, lt_min_iff] at p q ⊢; tauto
  · rw [if_neg p, if_pos q, cutMeet_some, cutMeet_none_left, if_neg]
    simp only [max_lt_iff, lt_min_iff] at p q ⊢; tauto
  · rw [if_neg p, if_neg q, cutMeet_none_left, cutMeet_none_right]

theorem cut_mergeable (ha : ∀ p ∈ a, p.1 < p.2) (hbc : ∀ p ∈ b, ∀ q ∈ c, p.1 ≤ q.2 ∧ q.1 ≤ p.2) :
    ∀ p ∈ cutMeet a b, ∀ q ∈ cutMeet a c, p.1 ≤ q.2 ∧ q.1 ≤ p.2 := by
  intro p hp q hq
  rcases a with _ | ⟨x, y⟩
  · cases hp
  rcases b with _ | ⟨x1, y1⟩
  · cases hp
  rcases c with _ | ⟨x2, y2⟩
  · cases hq
  have h1 := ha _ rfl
  have h2 := hbc _ rfl _ rfl
  rw [cutMeet_some] at hp hq
  split at hp <;> split at hq <;> cases hp <;> cases hq
  rename_i v u
  simp only [max_lt_iff, lt_min_iff, max_le_iff, le_min_iff] at *
  exact ⟨⟨⟨h1.le, v.1.2.le⟩, u.2.1.le, h2.1⟩, ⟨h1.le, u.1.2.le⟩, v.2.1.le, h2.2⟩

theorem cut_distrib (ha : ∀ p ∈ a, p.1 < p.2) (hb : ∀ p ∈ b, p.1 < p.2) (hc : ∀ p ∈ c, p.1 < p.2)
    (hbc : ∀ p ∈ b, ∀ q ∈ c, p.1 ≤ q.2 ∧ q.1 ≤ p.2) :
    cutMeet a (cutJoin b c) = cutJoin (cutMeet a b) (cutMeet a c) := by
  rcases a with _ | ⟨x, y⟩
  · rfl
  rcases b with _ | ⟨x1, y1⟩
  · rw [cutJoin_none_left, cutMeet_none_right, cutJoin_none_left]
  rcases c with _ | ⟨x2, y2⟩
  · rw [cutJoin_none_right, cutMeet_none_right, cutJoin_none_right]
  have h1 := ha _ rfl
  have h2 := hb _ rfl
  have h3 := hc _ rfl
  have h4 := hbc _ rfl _ rfl
  simp only at h1 h2 h3 h4
  rw [cutJoin_some, cutMeet_some, cutMeet_some, cutMeet_some]
  by_cases p : max x x1 < min y y1 <;> by_cases q : max x x2 < min y y2
  · rw [if_pos p, if_pos q, cutJoin_some, if_pos, max_min_distrib_left x, min_max_distrib_left y]
    simp only [max_lt_iff, lt_min_iff, min_lt_iff, lt_max_iff] at p q ⊢
    tauto
  · rw [if_pos p, if_neg q, cutJoin_none_right]
    have : max x (min x1 x2) = max x x1 ∧ min y (max y1 y2) = min y y1 := by
      simp only [max_def, min_def] at *; grind
    rw [this.1, this.2, if_pos p]
  · rw [if_neg p, if_pos q, cutJoin_none_left]
    have : max x (min x1 x2) = max x x2 ∧ min y (max y1 y2) = min y y2 := by
      simp only [max_def, min_def] at *; grind
    rw [this.1, this.2, if_pos q]
  · rw [if_neg p, if_neg q, if_neg]
    · rfl
    · simp only [max_lt_iff, lt_min_iff, min_lt_iff, lt_max_iff] at p q ⊢
      grind

end

variable {a b : Interval T}

theorem wf_cuts : WellFormed a ↔ ∀ p ∈ cuts a, p.1 < p.2 := by
  rcases Interval.cases2 a with rfl | ⟨l, lc, u, uc, rfl⟩
  · simp [cuts_none, wf_none]
  · rw [wf_cut, cuts_mk]; simp

theorem intoIntersection_cut (ha : WellFormed a) (hb : WellFormed b) :
    ∃ i, Interval.intoIntersection a b = .ok i ∧ WellFormed i ∧ cuts i = cutMeet (cuts a) (cuts b) := by
  rcases Interval.cases2 a with rfl | ⟨l, lc, u, uc, rfl⟩
  · exact ⟨⟨none⟩, rfl, wf_none, rfl⟩
  · rcases Interval.cases2 b with rfl | ⟨l', lc', u', uc', rfl⟩
    · exact ⟨⟨none⟩, rfl, wf_none, rfl⟩
    · refine ⟨_, Interval.intoIntersection_mk ha hb, ?_, ?_⟩
      · split
        · exact Interval.meet_wf ha hb (by assumption)
        · exact wf_none
      · rw [wf_cut] at ha hb
        rw [cuts_mk, cuts_mk]
        show _ = if _ then _ else _
        split <;> rename_i h <;> rw [intersects_cut] at h
        · rw [cuts_meet, if_pos (by rw [max_lt_iff, lt_min_iff, lt_min_iff]; exact ⟨⟨ha, h.1⟩, h.2, hb⟩)]
        · rw [cuts_none, if_neg (by rw [max_lt_iff, lt_min_iff, lt_min_iff]; intro hn; exact h ⟨hn.1.2, hn.2.1⟩)]

theorem intoSpan_cut (ha : WellFormed a) (hb : WellFormed b) :
    ∃ i, Interval.intoSpan a b = .ok i ∧ WellFormed i ∧ cuts i = cutJoin (cuts a) (cuts b) := by
  rcases Interval.cases2 a with rfl | ⟨l, lc, u, uc, rfl⟩
  · rcases Interval.cases2 b with rfl | ⟨l', lc', u', uc', rfl⟩
    · exact ⟨_, rfl, wf_none, rfl⟩
    · exact ⟨_, rfl, hb, rfl⟩
  · rcases Interval.cases2 b with rfl | ⟨l', lc', u', uc', rfl⟩
    · exact ⟨_, rfl, ha, rfl⟩
    · exact ⟨_, Interval.intoSpan_mk ha hb, hull_wf' ha hb, cuts_hull⟩

theorem intoMerged_cut (ha : WellFormed a) (hb : WellFormed b) : Interval.intoMerged a b =
    if a.canBeMerged b = true then (Interval.intoSpan a b).map .ok else .ok (.error (a, b)) := by
  rcases Interval.cases2 a with rfl | ⟨l, lc, u, uc, rfl⟩
  · rcases Interval.cases2 b with rfl | ⟨l', lc', u', uc', rfl⟩ <;> rfl
  · rcases Interval.cases2 b with rfl | ⟨l', lc', u', uc', rfl⟩
    · rfl
    · rw [Interval.intoMerged_mk ha hb, Interval.intoSpan_mk ha hb]
      split <;> rfl

theorem contains_cuts : a.containsInterval b = true ↔
    ∀ q ∈ cuts b, ∃ p ∈ cuts a, p.1 ≤ q.1 ∧ q.2 ≤ p.2 := by
  rcases Interval.cases2 b with rfl | ⟨l', lc', u', uc', rfl⟩
  · refine ⟨fun _ q hq => (by cases hq), fun _ => ?_⟩
    rcases a with ⟨_ | a⟩ <;> rfl
  · rcases Interval.cases2 a with rfl | ⟨l, lc, u, uc, rfl⟩
    · simp only [cuts_mk, cuts_none]
      constructor
      · intro h; cases h
      · intro h; obtain ⟨p, hp, _⟩ := h _ rfl; cases hp
    · rw [contains_cut, cuts_mk, cuts_mk]; simp

theorem canBeMerged_cuts : a.canBeMerged b = true ↔
    ∀ p ∈ cuts a, ∀ q ∈ cuts b, p.1 ≤ q.2 ∧ q.1 ≤ p.2 := by
  rcases Interval.cases2 a with rfl | ⟨l, lc, u, uc, rfl⟩
  · simp [cuts_none, Interval.canBeMerged, Interval.bounds]
  · rcases Interval.cases2 b with rfl | ⟨l', lc', u', uc', rfl⟩
    · simp [cuts_none, Interval.canBeMerged, Interval.bounds]
    · rw [canBeMerged_cut, cuts_mk, cuts_mk]; simp

theorem intersects_cuts : a.intersects b = true ↔
    ∀ p ∈ cuts a, ∀ q ∈ cuts b, p.1 < q.2 ∧ q.1 < p.2 := by
  rcases Interval.cases2 a with rfl | ⟨l, lc, u, uc, rfl⟩
  · simp only [cuts_none]
    refine ⟨fun _ p hp => (by cases hp), fun _ => rfl⟩
  · rcases Interval.cases2 b with rfl | ⟨l', lc', u', uc', rfl⟩
    · simp only [cuts_none]
      refine ⟨fun _ p _ q hq => (by cases hq), fun _ => rfl⟩
    · rw [intersects_cut, cuts_mk, cuts_mk]; simp

theorem lt_cuts : a.lt b = true ↔ ∃ p ∈ cuts a, ∃ q ∈ cuts b, p.2 ≤ q.1 := by
  rcases Interval.cases2 a with rfl | ⟨l, lc, u, uc, rfl⟩
  · simp [cuts_none, Interval.lt_none_left]
  · rcases Interval.cases2 b with rfl | ⟨l', lc', u', uc', rfl⟩
    · simp [cuts_none, Interval.lt_none_right]
    · rw [lt_cut, cuts_mk, cuts_mk]; simp

theorem gt_cuts : a.gt b = true ↔ ∃ p ∈ cuts a, ∃ q ∈ cuts b, q.2 ≤ p.1 := by
  rcases Interval.cases2 a with rfl | ⟨l, lc, u, uc, rfl⟩
  · simp only [cuts_none]
    exact ⟨fun h => (by cases h), fun ⟨_, h, _⟩ => (by cases h)⟩
  · rcases Interval.cases2 b with rfl | ⟨l', lc', u', uc', rfl⟩
    · simp only [cuts_none]
      exact ⟨fun h => (by cases h), fun ⟨_, _, _, h, _⟩ => (by cases h)⟩
    · rw [Interval.gt_mk, eq_comm (a := l), or_comm (a := lc = false), ← Interval.lt_mk (l := u') (lc := true) (u' := l) (uc' := true),
        lt_cut, cuts_mk, cuts_mk]
      simp

theorem isEmpty_cuts : a.isEmpty = true ↔ cuts a = none := by
  rcases Interval.cases2 a with rfl | ⟨l, lc, u, uc, rfl⟩
  · exact ⟨fun _ => rfl, fun _ => rfl⟩
  · exact ⟨fun h => (by cases h), fun h => (by cases h)⟩

theorem containsVal_cuts (v : T) : a.containsVal v = true ↔
    ∀ p ∈ cuts a, p.1 ≤ toLex (v, false) ∧ toLex (v, true) ≤ p.2 := by
  rcases Interval.cases2 a with rfl | ⟨l, lc, u, uc, rfl⟩
  · simp only [cuts_none]
    exact ⟨fun _ p hp => (by cases hp), fun _ => rfl⟩
  · rw [Interval.containsVal_mk, cuts_mk]
    simp only [Option.mem_def, Option.some.injEq, forall_eq']
    unfold cutL cutU
    rw [Prod.Lex.toLex_le_toLex, Prod.Lex.toLex_le_toLex]
    cases lc <;> cases uc <;> simp [bool_tf] <;> grind

/-! ### images -/

/-- The image of a cut under an order-preserving map. -/
def cutMono (f : T → T) (k : T ×ₗ Bool) : T ×ₗ Bool := toLex (f (ofLex k).1, (ofLex k).2)
/-- The image of a cut under an order-reversing map. -/
def cutAnti (f : T → T) (k : T ×ₗ Bool) : T ×ₗ Bool := toLex (f (ofLex k).1, !(ofLex k).2)

theorem cutMono_strict {f : T → T} (hf : ∀ x y, f x < f y ↔ x < y) : StrictMono (cutMono f) := by
  rintro ⟨x, b⟩ ⟨y, c⟩ h
  have h' := Prod.Lex.toLex_lt_toLex.mp h
  refine Prod.Lex.toLex_lt_toLex.mpr ?_
  rcases h' with h' | ⟨h1, h2⟩
  · exact Or.inl ((hf _ _).mpr h')
  · exact Or.inr ⟨congrArg f h1, h2⟩

theorem cutAnti_strict {f : T → T} (hf : ∀ x y, f x < f y ↔ y < x) : StrictAnti (cutAnti f) := by
  rintro ⟨x, b⟩ ⟨y, c⟩ h
  have h' := Prod.Lex.toLex_lt_toLex.mp h
  refine Prod.Lex.toLex_lt_toLex.mpr ?_
  rcases h' with h' | ⟨h1, h2⟩
  · exact Or.inl ((hf _ _).mpr h')
  · refine Or.inr ⟨congrArg f h1.symm, ?_⟩
    have h3 : b < c := h2
    show (!c) < !b
    revert h3
    clear h h2
    cases b <;> cases c <;> decide

theorem binOp_cut_mono {f : T → T} (hf : ∀ x y, f x < f y ↔ x < y) (ha : WellFormed a) :
    ∃ a', Interval.binOp (fun x => .ok (f x)) a = .ok a' ∧ WellFormed a' ∧
      cuts a' = (cuts a).map fun p => (cutMono f p.1, cutMono f p.2) := by
  rcases Interval.cases2 a with rfl | ⟨l, lc, u, uc, rfl⟩
  · exact ⟨_, rfl, wf_none, rfl⟩
  · refine ⟨_, binOp_mono hf ha, ?_, rfl⟩
    rw [wf_cut] at ha ⊢
    exact cutMono_strict hf ha

theorem binOp_cut_anti {f : T → T} (hf : ∀ x y, f x < f y ↔ y < x) (ha : WellFormed a) :
    ∃ a', Interval.binOp (fun x => .ok (f x)) a = .ok a' ∧ WellFormed a' ∧
      cuts a' = (cuts a).map fun p => (cutAnti f p.2, cutAnti f p.1) := by
  rcases Interval.cases2 a with rfl | ⟨l, lc, u, uc, rfl⟩
  · exact ⟨_, rfl, wf_none, rfl⟩
  · have e : cuts (iv (f u) uc (f l) lc) = some (cutAnti f (cutU u uc), cutAnti f (cutL l lc)) := by
      rw [cuts_mk]
      unfold cutAnti cutL cutU
      simp
    refine ⟨_, binOp_anti hf ha, ?_, e⟩
    rw [wf_cuts, e]
    rw [wf_cut] at ha
    rintro p ⟨⟩
    exact cutAnti_strict hf ha

section
variable {K : Type} [LinearOrder K] {g : K → K} {a b : Option (K × K)}

theorem cutMeet_mono (hg : StrictMono g) : cutMeet (a.map fun p => (g p.1, g p.2)) (b.map fun p => (g p.1, g p.2))
    = (cutMeet a b).map fun p => (g p.1, g p.2) := by
  rcases a with _ | ⟨x, y⟩
  · rfl
  rcases b with _ | ⟨x1, y1⟩
  · rfl
  simp only [Option.map_some, cutMeet_some, ← hg.monotone.map_max, ← hg.monotone.map_min, hg.lt_iff_lt]
  split <;> rfl

theorem cutJoin_mono (hg : StrictMono g) : cutJoin (a.map fun p => (g p.1, g p.2)) (b.map fun p => (g p.1, g p.2))
    = (cutJoin a b).map fun p => (g p.1, g p.2) := by
  rcases a with _ | ⟨x, y⟩
  · rcases b with _ | ⟨x1, y1⟩ <;> rfl
  rcases b with _ | ⟨x1, y1⟩
  · rfl
  simp only [Option.map_some, cutJoin_some, ← hg.monotone.map_max, ← hg.monotone.map_min]

theorem cutMeet_anti (hg : StrictAnti g) : cutMeet (a.map fun p => (g p.2, g p.1)) (b.map fun p => (g p.2, g p.1))
    = (cutMeet a b).map fun p => (g p.2, g p.1) := by
  rcases a with _ | ⟨x, y⟩
  · rfl
  rcases b with _ | ⟨x1, y1⟩
  · rfl
  simp only [Option.map_some, cutMeet_some, ← hg.antitone.map_max, ← hg.antitone.map_min, hg.lt_iff_gt]
  split <;> rfl

theorem cutJoin_anti (hg : StrictAnti g) : cutJoin (a.map fun p => (g p.2, g p.1)) (b.map fun p => (g p.2, g p.1))
    = (cutJoin a b).map fun p => (g p.2, g p.1) := by
  rcases a with _ | ⟨x, y⟩
  · rcases b with _ | ⟨x1, y1⟩ <;> rfl
  rcases b with _ | ⟨x1, y1⟩
  · rfl
  simp only [Option.map_some, cutJoin_some, ← hg.antitone.map_max, ← hg.antitone.map_min]

end

end

end Itv
