import Verif.Itv.Props
import Verif.Itv.Cut
import Mathlib.Logic.Relation
import Mathlib.Data.List.Pairwise
import Mathlib.Data.List.Nodup
/-!
# Vocabulary and lemmas for C92: merging a collection of intervals
-/

open Rust
namespace Itv

/-! ## vocabulary -/
section
variable {T : Type} [LinearOrder T]

/-- A client takes two intervals out of a collection, wherever they are, merges them, and puts the result back,
wherever it likes. -/
inductive MergeStep (l m : List (Interval T)) : Prop
  | mk {a b i : Interval T} {rest : List (Interval T)} :
    l.Perm (a :: b :: rest) → Interval.intoMerged a b = .ok (.ok i) → m.Perm (i :: rest) → MergeStep l m

/-- any number of such steps -/
abbrev MergeSteps : List (Interval T) → List (Interval T) → Prop := Relation.ReflTransGen MergeStep

/-- no two intervals of the collection can be merged -/
def Merged (l : List (Interval T)) : Prop := ∀ m, ¬ MergeStep l m

/-- a value is in the collection: in one of its intervals -/
def Covered (l : List (Interval T)) (v : T) : Prop := ∃ i ∈ l, Mem i v

/-- One pass over a list: each interval is merged with the one collected last; if that is refused, the one collected
last is final. -/
def sweepFrom (cur : Interval T) : List (Interval T) → Except Fault (List (Interval T))
  | [] => .ok [cur]
  | x :: rest => do
    match ← Interval.intoMerged cur x with
    | .ok i => sweepFrom i rest
    | .error (a, b) => return a :: (← sweepFrom b rest)

/-- the pass over a whole list -/
def sweep : List (Interval T) → Except Fault (List (Interval T))
  | [] => .ok []
  | x :: rest => sweepFrom x rest

/-- sorted by lower bounds, as `sort_by(|a, b| a.bounds().unwrap().0.cmp(b.bounds().unwrap().0))` does -/
def SortedByLower (l : List (Interval T)) : Prop :=
  (∀ i ∈ l, i.isEmpty = false) ∧ l.Pairwise fun a b => ∀ lo up lo' up',
    a.bounds = some (lo, up) → b.bounds = some (lo', up') → lo.cmp lo' ≠ .gt

/-! ## helper lemmas -/

/-- the cuts between and at the bounds -/
def Seg (i : Interval T) (k : T ×ₗ Bool) : Prop := ∃ p ∈ cuts i, p.1 ≤ k ∧ k ≤ p.2
/-- the cuts of a collection -/
def Cov (l : List (Interval T)) (k : T ×ₗ Bool) : Prop := ∃ i ∈ l, Seg i k
/-- linked through intervals of the collection that touch -/
def Lk (l : List (Interval T)) : T ×ₗ Bool → T ×ₗ Bool → Prop :=
  Relation.ReflTransGen fun k k' => ∃ i ∈ l, Seg i k ∧ Seg i k'

variable {a b i j : Interval T} {l m n : List (Interval T)} {v : T} {k k' : T ×ₗ Bool}

theorem merged_ok (ha : Obtainable a) (hb : Obtainable b) (h : Interval.intoMerged a b = .ok (.ok i)) :
    (∀ p ∈ cuts a, ∀ q ∈ cuts b, p.1 ≤ q.2 ∧ q.1 ≤ p.2) ∧ cuts i = cutJoin (cuts a) (cuts b) ∧ Obtainable i := by
  have ho := Obtainable.intoMerged ha hb h
  rw [intoMerged_cut ha.wf hb.wf] at h
  split at h
  · rename_i hm
    obtain ⟨s, e, _, hc⟩ := intoSpan_cut ha.wf hb.wf
    rw [e] at h
    cases h
    exact ⟨canBeMerged_cuts.mp hm, hc, ho⟩
  · cases h

theorem merged_iff (ha : Obtainable a) (hb : Obtainable b) :
    (∃ i, Interval.intoMerged a b = .ok (.ok i)) ↔ a.canBeMerged b = true := by
  constructor
  · rintro ⟨i, h⟩; exact canBeMerged_cuts.mpr (merged_ok ha hb h).1
  · intro h; obtain ⟨i, hi, _⟩ := (c28_merge ha hb).1 h; exact ⟨i, hi⟩

/-- the two parts of a merged interval share a cut, and make up the whole -/
theorem merged_seg (ha : Obtainable a) (hb : Obtainable b) (h : Interval.intoMerged a b = .ok (.ok i)) :
    (∀ k, Seg i k ↔ Seg a k ∨ Seg b k) ∧
    ((∃ k, Seg a k ∧ Seg b k) ∨ cuts a = none ∨ cuts b = none) := by
  obtain ⟨h1, h2, _⟩ := merged_ok ha hb h
  have wa := wf_cuts.mp ha.wf
  have wb := wf_cuts.mp hb.wf
  unfold Seg
  rw [h2]
  rcases hA : cuts a with _ | ⟨x, y⟩
  · exact ⟨fun k => by simp [cutJoin_none_left], Or.inr (Or.inl rfl)⟩
  rcases hB : cuts b with _ | ⟨x', y'⟩
  · exact ⟨fun k => by simp [cutJoin_none_right], Or.inr (Or.inr rfl)⟩
  rw [hA] at wa h1
  rw [hB] at wb h1
  have h3 := h1 _ rfl _ rfl
  have h4 := wa _ rfl
  have h5 := wb _ rfl
  simp only at h3 h4 h5
  constructor
  · intro k
    simp only [cutJoin_some, Option.mem_def, Option.some.injEq, exists_eq_left', min_le_iff, le_max_iff]
    constructor
    · rintro ⟨p | p, q | q⟩
      · exact Or.inl ⟨p, q⟩
      · rcases le_total k y with r | r
        · exact Or.inl ⟨p, r⟩
        · exact Or.inr ⟨h3.2.trans r, q⟩
      · rcases le_total k y' with r | r
        · exact Or.inr ⟨p, r⟩
        · exact Or.inl ⟨h3.1.trans r, q⟩
      · exact Or.inr ⟨p, q⟩
    · rintro (⟨p, q⟩ | ⟨p, q⟩)
      · exact ⟨Or.inl p, Or.inl q⟩
      · exact ⟨Or.inr p, Or.inr q⟩
  · refine Or.inl ⟨max x x', ?_⟩
    simp only [Option.mem_def, Option.some.injEq, exists_eq_left', le_max_left, le_max_right, max_le_iff, true_and]
    exact ⟨⟨h4.le, h3.2⟩, h3.1, h5.le⟩

/-- all intervals of a collection come from the interface -/
abbrev AllObt (l : List (Interval T)) : Prop := ∀ i ∈ l, Obtainable i

theorem MergeStep.obt (h : MergeStep l m) (hl : AllObt l) : AllObt m := by
  obtain ⟨h1, h2, h3⟩ := h
  intro j hj
  have ha := hl _ (h1.mem_iff.mpr List.mem_cons_self)
  have hb := hl _ (h1.mem_iff.mpr (List.mem_cons_of_mem _ List.mem_cons_self))
  rcases List.mem_cons.mp (h3.mem_iff.mp hj) with rfl | hj
  · exact .intoMerged ha hb h2
  · exact hl _ (h1.mem_iff.mpr (List.mem_cons_of_mem _ (List.mem_cons_of_mem _ hj)))

theorem MergeStep.length (h : MergeStep l m) : m.length + 1 = l.length := by
  obtain ⟨h1, h2, h3⟩ := h
  rw [h1.length_eq, h3.length_eq]; rfl

theorem MergeStep.cov (h : MergeStep l m) (hl : AllObt l) : Cov m k ↔ Cov l k := by
  obtain ⟨h1, h2, h3⟩ := h
  have ha := hl _ (h1.mem_iff.mpr List.mem_cons_self)
  have hb := hl _ (h1.mem_iff.mpr (List.mem_cons_of_mem _ List.mem_cons_self))
  unfold Cov
  simp only [h1.mem_iff, h3.mem_iff, List.exists_mem_cons_iff, (merged_seg ha hb h2).1, or_assoc]

theorem Lk.mono (h : ∀ k k', (∃ i ∈ l, Seg i k ∧ Seg i k') → Lk m k k') (hk : Lk l k k') : Lk m k k' := by
  induction hk with
  | refl => exact .refl
  | tail _ h2 ih => exact ih.trans (h _ _ h2)

theorem MergeStep.lk (h : MergeStep l m) (hl : AllObt l) : Lk m k k' ↔ Lk l k k' := by
  obtain ⟨h1, h2, h3⟩ := h
  have ha := hl _ (h1.mem_iff.mpr List.mem_cons_self)
  have hb := hl _ (h1.mem_iff.mpr (List.mem_cons_of_mem _ List.mem_cons_self))
  obtain ⟨s1, s2⟩ := merged_seg ha hb h2
  have one : ∀ {j} {k k' : T ×ₗ Bool}, j ∈ l → Seg j k → Seg j k' → Lk l k k' := fun hj p q => .single ⟨_, hj, p, q⟩
  have am : _ ∈ l := h1.mem_iff.mpr List.mem_cons_self
  have bm : _ ∈ l := h1.mem_iff.mpr (List.mem_cons_of_mem _ List.mem_cons_self)
  constructor
  · refine Lk.mono ?_
    rintro k k' ⟨j, hj, p, q⟩
    rcases List.mem_cons.mp (h3.mem_iff.mp hj) with rfl | hj
    · rcases (s1 k).mp p with p | p <;> rcases (s1 k').mp q with q | q
      · exact one am p q
      · rcases s2 with ⟨c, ca, cb⟩ | e | e
        · exact (one am p ca).trans (one bm cb q)
        · obtain ⟨r, hr, _⟩ := p; rw [e] at hr; cases hr
        · obtain ⟨r, hr, _⟩ := q; rw [e] at hr; cases hr
      · rcases s2 with ⟨c, ca, cb⟩ | e | e
        · exact (one bm p cb).trans (one am ca q)
        · obtain ⟨r, hr, _⟩ := q; rw [e] at hr; cases hr
        · obtain ⟨r, hr, _⟩ := p; rw [e] at hr; cases hr
      · exact one bm p q
    · exact one (h1.mem_iff.mpr (List.mem_cons_of_mem _ (List.mem_cons_of_mem _ hj))) p q
  · refine Lk.mono ?_
    rintro k k' ⟨j, hj, p, q⟩
    rcases List.mem_cons.mp (h1.mem_iff.mp hj) with rfl | hj
    · exact .single ⟨_, h3.mem_iff.mpr List.mem_cons_self, (s1 k).mpr (Or.inl p), (s1 k').mpr (Or.inl q)⟩
    · rcases List.mem_cons.mp hj with rfl | hj
      · exact .single ⟨_, h3.mem_iff.mpr List.mem_cons_self, (s1 k).mpr (Or.inr p), (s1 k').mpr (Or.inr q)⟩
      · exact .single ⟨_, h3.mem_iff.mpr (List.mem_cons_of_mem _ hj), p, q⟩

theorem MergeSteps.inv (h : MergeSteps l m) (hl : AllObt l) :
    AllObt m ∧ (∀ k, Cov m k ↔ Cov l k) ∧ (∀ k k', Lk m k k' ↔ Lk l k k') ∧ (m = [] ↔ l = []) ∧
      m.length ≤ l.length := by
  induction h with
  | refl => exact ⟨hl, fun _ => Iff.rfl, fun _ _ => Iff.rfl, Iff.rfl, le_rfl⟩
  | tail _ h2 ih =>
    obtain ⟨i1, i2, i3, i4, i5⟩ := ih
    have hlen := h2.length
    refine ⟨h2.obt i1, fun k => (h2.cov i1).trans (i2 k), fun k k' => (h2.lk i1).trans (i3 k k'), ?_, by omega⟩
    rw [← i4]
    obtain ⟨h3, _, h4⟩ := h2
    constructor <;> rintro rfl
    · have := h4.length_eq; cases this
    · have := h3.length_eq; cases this

/-- no two intervals at different places can be merged -/
theorem merged_pairwise (hl : AllObt l) : Merged l ↔ l.Pairwise fun a b => a.canBeMerged b = false := by
  constructor
  · intro h
    by_contra hn
    -- two places with intervals that can be merged
    have : ∃ a b rest, l.Perm (a :: b :: rest) ∧ a.canBeMerged b = true := by
      clear h hl
      induction l with
      | nil => exact absurd List.Pairwise.nil hn
      | cons x l ih =>
        by_cases hp : l.Pairwise fun a b => a.canBeMerged b = false
        · have : ∃ y ∈ l, x.canBeMerged y = true := by
            by_contra hc
            refine hn (List.pairwise_cons.mpr ⟨fun y hy => ?_, hp⟩)
            by_contra hb
            exact hc ⟨y, hy, by simpa using hb⟩
          obtain ⟨y, hy, hxy⟩ := this
          obtain ⟨s, t, rfl⟩ := List.append_of_mem hy
          exact ⟨x, y, s ++ t, List.Perm.cons _ List.perm_middle, hxy⟩
        · obtain ⟨a, b, rest, hperm, hab⟩ := ih hp
          exact ⟨a, b, x :: rest, (List.Perm.cons x hperm).trans
            ((List.Perm.swap a x _).trans (List.Perm.cons a (List.Perm.swap b x _))), hab⟩
    obtain ⟨a, b, rest, hperm, hab⟩ := this
    have ha := hl _ (hperm.mem_iff.mpr List.mem_cons_self)
    have hb := hl _ (hperm.mem_iff.mpr (List.mem_cons_of_mem _ List.mem_cons_self))
    obtain ⟨i, hi⟩ := (merged_iff ha hb).mpr hab
    exact h (i :: rest) ⟨hperm, hi, List.Perm.refl _⟩
  · rintro h m ⟨h1, h2, _⟩
    have ha := hl _ (h1.mem_iff.mpr List.mem_cons_self)
    have hb := hl _ (h1.mem_iff.mpr (List.mem_cons_of_mem _ List.mem_cons_self))
    have hs : Std.Symm fun a b : Interval T => a.canBeMerged b = false := ⟨fun a b hab => by
      rw [← Bool.not_eq_true, canBeMerged_cuts] at hab ⊢
      exact fun hc => hab fun p hp q hq => ⟨(hc q hq p hp).2, (hc q hq p hp).1⟩⟩
    have h' := (h1.pairwise_iff (fun {a b} hab => hs.symm a b hab)).mp h
    have := (List.pairwise_cons.mp h').1 _ List.mem_cons_self
    rw [(merged_iff ha hb).mp ⟨_, h2⟩] at this
    cases this

theorem canBeMerged_symm (h : a.canBeMerged b = false) : b.canBeMerged a = false := by
  rw [← Bool.not_eq_true, canBeMerged_cuts] at h ⊢
  exact fun hc => h fun p hp q hq => ⟨(hc q hq p hp).2, (hc q hq p hp).1⟩

theorem Merged.ne (h : Merged l) (hl : AllObt l) (hi : i ∈ l) (hj : j ∈ l) (hn : i ≠ j) :
    i.canBeMerged j = false := by
  have : Std.Symm fun a b : Interval T => a.canBeMerged b = false := ⟨fun _ _ => canBeMerged_symm⟩
  exact ((merged_pairwise hl).mp h).forall hi hj hn

theorem Merged.same (h : Merged l) (hl : AllObt l) (hi : i ∈ l) (hj : j ∈ l) (si : Seg i k) (sj : Seg j k) : i = j := by
  by_contra hn
  have := h.ne hl hi hj hn
  rw [← Bool.not_eq_true, canBeMerged_cuts] at this
  refine this fun p hp q hq => ?_
  obtain ⟨p', hp', p1, p2⟩ := si
  obtain ⟨q', hq', q1, q2⟩ := sj
  cases Option.mem_unique hp hp'
  cases Option.mem_unique hq hq'
  exact ⟨p1.trans q2, q1.trans p2⟩

theorem Merged.lk (h : Merged l) (hl : AllObt l) (hi : i ∈ l) (si : Seg i k) (hk : Lk l k k') : Seg i k' := by
  induction hk with
  | refl => exact si
  | tail _ h2 ih =>
    obtain ⟨j, hj, s1, s2⟩ := h2
    rwa [h.same hl hi hj ih s1]

theorem Merged.nodup (h : Merged l) (hl : AllObt l) : l.Nodup := by
  refine List.Pairwise.imp_of_mem ?_ ((merged_pairwise hl).mp h)
  rintro a b ha _ hab rfl
  rw [← Bool.not_eq_true, canBeMerged_cuts] at hab
  refine hab fun p hp q hq => ?_
  cases Option.mem_unique hp hq
  have := (wf_cuts.mp (hl a ha).wf) p hp
  exact ⟨this.le, this.le⟩

theorem seg_lower {p : (T ×ₗ Bool) × (T ×ₗ Bool)} (ha : Obtainable a) (hp : p ∈ cuts a) : Seg a p.1 :=
  ⟨p, hp, le_rfl, ((wf_cuts.mp ha.wf) p hp).le⟩
theorem seg_upper {p : (T ×ₗ Bool) × (T ×ₗ Bool)} (ha : Obtainable a) (hp : p ∈ cuts a) : Seg a p.2 :=
  ⟨p, hp, ((wf_cuts.mp ha.wf) p hp).le, le_rfl⟩

theorem eq_of_seg (ha : Obtainable a) (hb : Obtainable b) (hn : cuts a ≠ none) (h : ∀ k, Seg a k ↔ Seg b k) : a = b := by
  obtain ⟨p, hp⟩ := Option.ne_none_iff_exists'.mp hn
  obtain ⟨q, hq, q1, q2⟩ := (h p.1).mp (seg_lower ha hp)
  obtain ⟨q', hq', q3, q4⟩ := (h p.2).mp (seg_upper ha hp)
  cases Option.mem_unique hq hq'
  obtain ⟨r, hr, r1, r2⟩ := (h q.1).mpr (seg_lower hb hq)
  obtain ⟨r', hr', r3, r4⟩ := (h q.2).mpr (seg_upper hb hq)
  cases Option.mem_unique hp hr
  cases Option.mem_unique hp hr'
  refine cuts_inj ?_
  rw [hp, hq]
  exact congrArg some (Prod.ext (le_antisymm r1 q1) (le_antisymm q4 r4))

/-- a non-empty interval of one end result is in every other -/
theorem merged_mem (hl : AllObt l) (hm : MergeSteps l m) (hn : MergeSteps l n) (dm : Merged m) (dn : Merged n)
    (hi : i ∈ m) (hc : cuts i ≠ none) : i ∈ n := by
  obtain ⟨om, cm, km, _⟩ := hm.inv hl
  obtain ⟨on, cn, kn, _⟩ := hn.inv hl
  obtain ⟨p, hp⟩ := Option.ne_none_iff_exists'.mp hc
  obtain ⟨j, hj, sj⟩ := (cn p.1).mpr ((cm p.1).mp ⟨i, hi, seg_lower (om i hi) hp⟩)
  have : i = j := by
    refine eq_of_seg (om i hi) (on j hj) hc fun k => ⟨fun s => ?_, fun s => ?_⟩
    · exact dn.lk on hj sj ((kn _ _).mpr ((km _ _).mp (.single ⟨i, hi, seg_lower (om i hi) hp, s⟩)))
    · exact dm.lk om hi (seg_lower (om i hi) hp) ((km _ _).mpr ((kn _ _).mp (.single ⟨j, hj, sj, s⟩)))
  exact this ▸ hj

/-- an end result with an empty interval has nothing else -/
theorem Merged.empty (h : Merged l) (hl : AllObt l) (hi : i ∈ l) (hc : cuts i = none) (hj : j ∈ l) : j = i := by
  by_contra hn
  have := h.ne hl hj hi hn
  rw [← Bool.not_eq_true, canBeMerged_cuts] at this
  exact this fun p _ q hq => by rw [hc] at hq; cases hq

theorem merged_unique (hl : AllObt l) (hm : MergeSteps l m) (hn : MergeSteps l n) (dm : Merged m) (dn : Merged n) :
    ∀ i, i ∈ m → i ∈ n := by
  intro i hi
  obtain ⟨om, cm, km, em, _⟩ := hm.inv hl
  obtain ⟨on, cn, kn, en, _⟩ := hn.inv hl
  by_cases hc : cuts i = none
  · -- everything is empty
    have hne : n ≠ [] := fun e => by
      rw [(em.mpr (en.mp e))] at hi; cases hi
    obtain ⟨j, hj⟩ := List.exists_mem_of_ne_nil n hne
    by_cases hcj : cuts j = none
    · rwa [cuts_inj (hc.trans hcj.symm)]
    · have := merged_mem hl hn hm dn dm hj hcj
      rw [dm.empty om hi hc this] at hcj
      exact absurd hc hcj
  · exact merged_mem hl hm hn dm dn hi hc

/-! ### points -/

theorem mem_cuts : Mem a v ↔ ∃ p ∈ cuts a, p.1 ≤ toLex (v, false) ∧ toLex (v, true) ≤ p.2 := by
  rcases Interval.cases2 a with rfl | ⟨l, lc, u, uc, rfl⟩
  · simp [cuts_none, mem_none]
  · rw [mem_mk, cuts_mk]
    simp only [Option.mem_def, Option.some.injEq, exists_eq_left']
    unfold cutL cutU
    rw [Prod.Lex.toLex_le_toLex, Prod.Lex.toLex_le_toLex]
    cases lc <;> cases uc <;> simp [bool_tf]

theorem MergeStep.covered (h : MergeStep l m) (hl : AllObt l) : Covered m v ↔ Covered l v := by
  obtain ⟨h1, h2, h3⟩ := h
  have ha := hl _ (h1.mem_iff.mpr List.mem_cons_self)
  have hb := hl _ (h1.mem_iff.mpr (List.mem_cons_of_mem _ List.mem_cons_self))
  obtain ⟨i', e, _, hmem, _⟩ := (c28_merge ha hb).1 ((merged_iff ha hb).mp ⟨_, h2⟩)
  rw [h2] at e; cases e
  unfold Covered
  simp only [h1.mem_iff, h3.mem_iff, List.exists_mem_cons_iff, hmem, or_assoc]

theorem MergeSteps.covered (h : MergeSteps l m) (hl : AllObt l) : Covered m v ↔ Covered l v := by
  induction h with
  | refl => exact Iff.rfl
  | tail h1 h2 ih => exact (h2.covered (MergeSteps.inv h1 hl).1).trans ih

/-- on a dense order there is a value between two cuts -/
theorem cut_between [DenselyOrdered T] {p q : T ×ₗ Bool} (h : p < q) :
    ∃ v, p ≤ toLex (v, false) ∧ toLex (v, true) ≤ q := by
  obtain ⟨x, b⟩ := p
  obtain ⟨y, c⟩ := q
  rcases Prod.Lex.toLex_lt_toLex.mp h with h | ⟨h1, h2⟩
  · obtain ⟨v, h1, h2⟩ := exists_between h
    exact ⟨v, Prod.Lex.toLex_le_toLex.mpr (Or.inl h1), Prod.Lex.toLex_le_toLex.mpr (Or.inl h2)⟩
  · refine ⟨x, Prod.Lex.toLex_le_toLex.mpr (Or.inr ⟨rfl, ?_⟩), Prod.Lex.toLex_le_toLex.mpr (Or.inr ⟨h1, ?_⟩)⟩
    · have h3 : b < c := h2
      show b ≤ false
      revert h3; clear h h1 h2; revert b c; decide
    · have h3 : b < c := h2
      show true ≤ c
      revert h3; clear h h1 h2; revert b c; decide

theorem val_cut (v : T) : (toLex (v, false) : T ×ₗ Bool) < toLex (v, true) :=
  Prod.Lex.toLex_lt_toLex.mpr (Or.inr ⟨rfl, show false < true by decide⟩)
theorem val_cut_lt {v w : T} : (toLex (v, true) : T ×ₗ Bool) ≤ toLex (w, false) ↔ v < w := by
  rw [Prod.Lex.toLex_le_toLex]
  simp [bool_tf]
theorem val_cut_le {v w : T} {b : Bool} (h : v ≤ w) : (toLex (v, b) : T ×ₗ Bool) ≤ toLex (w, b) := by
  rw [Prod.Lex.toLex_le_toLex]
  rcases h.lt_or_eq with h | h
  · exact Or.inl h
  · exact Or.inr ⟨h, le_rfl⟩

theorem exists_least {K : Type} [LinearOrder K] {L : List K} {x : K} (h : x ∈ L) : ∃ y ∈ L, ∀ z ∈ L, y ≤ z := by
  induction L generalizing x with
  | nil => cases h
  | cons w L ih =>
    cases L with
    | nil => exact ⟨w, List.mem_cons_self, fun z hz => by rw [List.mem_singleton.mp hz]⟩
    | cons w' L =>
      obtain ⟨y, hy, hz⟩ := ih (x := w') List.mem_cons_self
      rcases le_total w y with h' | h'
      · exact ⟨w, List.mem_cons_self, fun z hm => (List.mem_cons.mp hm).elim (fun e => e ▸ le_rfl) fun hm => h'.trans (hz z hm)⟩
      · exact ⟨y, List.mem_cons_of_mem _ hy, fun z hm => (List.mem_cons.mp hm).elim (fun e => e ▸ h') fun hm => hz z hm⟩

/-- an interval that does not touch another but reaches beyond its upper end lies behind it -/
theorem behind (hn : i.canBeMerged j = false) {p q : (T ×ₗ Bool) × (T ×ₗ Bool)} (hp : p ∈ cuts i) (hq : q ∈ cuts j)
    (h : p.1 ≤ q.2) : p.2 < q.1 := by
  rw [← Bool.not_eq_true, canBeMerged_cuts] at hn
  by_contra hc
  refine hn fun p' hp' q' hq' => ?_
  cases Option.mem_unique hp hp'
  cases Option.mem_unique hq hq'
  exact ⟨h, not_lt.mp hc⟩

theorem Merged.convex [DenselyOrdered T] (h : Merged l) (hl : AllObt l) (hi : i ∈ l) {x y : T} (hxy : x ≤ y)
    (hx : Mem i x) (hc : ∀ v, x ≤ v → v ≤ y → Covered l v) : Mem i y := by
  by_contra hy
  obtain ⟨p, hp, p1, p2⟩ := mem_cuts.mp hx
  have py : p.1 ≤ toLex (y, false) := p1.trans (val_cut_le hxy)
  have away : ∀ {j v}, j ∈ l → p.1 ≤ toLex (v, false) → ¬ Mem i v → Mem j v → ∃ q ∈ cuts j, p.2 < q.1 ∧ q.1 ≤ toLex (v, false) := by
    intro j v hj pv hv hjv
    obtain ⟨q, hq, q1, q2⟩ := mem_cuts.mp hjv
    have hne : i ≠ j := by rintro rfl; exact hv hjv
    exact ⟨q, hq, behind (h.ne hl hi hj hne) hp hq (pv.trans ((val_cut v).le.trans q2)), q1⟩
  obtain ⟨j, hj, hjy⟩ := hc y hxy le_rfl
  obtain ⟨q, hq, q1, q2⟩ := away hj py hy hjy
  let L := (l.filterMap fun j => (cuts j).map (·.1)).filter (fun k => p.2 < k)
  have inL : ∀ {j q}, j ∈ l → q ∈ cuts j → p.2 < q.1 → q.1 ∈ L := by
    intro j q hj hq hlt
    refine List.mem_filter.mpr ⟨List.mem_filterMap.mpr ⟨j, hj, ?_⟩, decide_eq_true hlt⟩
    rw [hq]; rfl
  obtain ⟨w, hw, hmin⟩ := exists_least (inL hj hq q1)
  have hw2 : p.2 < w := of_decide_eq_true (List.mem_filter.mp hw).2
  obtain ⟨v, v1, v2⟩ := cut_between hw2
  have xv : x < v := val_cut_lt.mp (p2.trans v1)
  have vy : v < y := val_cut_lt.mp (v2.trans ((hmin _ (inL hj hq q1)).trans q2))
  have pv : p.1 ≤ toLex (v, false) := p1.trans (val_cut_le xv.le)
  have hv : ¬ Mem i v := by
    intro hv
    obtain ⟨p', hp', _, p4⟩ := mem_cuts.mp hv
    cases Option.mem_unique hp hp'
    exact absurd (p4.trans v1) (not_le.mpr (val_cut v))
  obtain ⟨k, hk, hkv⟩ := hc v xv.le vy.le
  obtain ⟨r, hr, r1, r2⟩ := away hk pv hv hkv
  have := hmin _ (inL hk hr r1)
  exact absurd (v2.trans (this.trans r2)) (not_le.mpr (val_cut v))

/-! ### one pass over a sorted list -/

theorem lower_le {lo lo' : LowerBound T} (h : lo.cmp lo' ≠ .gt) :
    cutL lo.bound.val lo.bound.isClosed ≤ cutL lo'.bound.val lo'.bound.isClosed := by
  rcases lo with ⟨⟨x, xc⟩⟩
  rcases lo' with ⟨⟨y, yc⟩⟩
  unfold cutL
  rw [Prod.Lex.toLex_le_toLex]
  unfold LowerBound.cmp LowerBound.val LowerBound.isClosed at h
  simp only at h
  split at h
  · exact absurd rfl h
  · rename_i hc; exact Or.inl (compare_lt_iff_lt.mp hc)
  · rename_i hc
    refine Or.inr ⟨compare_eq_iff_eq.mp hc, ?_⟩
    cases xc <;> cases yc <;> simp_all

/-- sorted by lower cuts -/
theorem sorted_cuts (h : SortedByLower l) :
    (∀ i ∈ l, cuts i ≠ none) ∧ l.Pairwise fun a b => ∀ p ∈ cuts a, ∀ q ∈ cuts b, p.1 ≤ q.1 := by
  refine ⟨fun i hi hc => ?_, h.2.imp ?_⟩
  · have := h.1 i hi
    rw [← Bool.not_eq_true, isEmpty_cuts] at this
    exact this hc
  · intro a b hab p hp q hq
    rcases a with ⟨_ | a⟩
    · cases hp
    rcases b with ⟨_ | b⟩
    · cases hq
    cases hp; cases hq
    exact lower_le (hab _ _ _ _ rfl rfl)

theorem sweepFrom_ok (cur : Interval T) (l : List (Interval T)) (ho : AllObt (cur :: l))
    (hn : ∀ i ∈ cur :: l, cuts i ≠ none)
    (hs : (cur :: l).Pairwise fun a b => ∀ p ∈ cuts a, ∀ q ∈ cuts b, p.1 ≤ q.1) :
    ∃ r, sweepFrom cur l = .ok r ∧ MergeSteps (cur :: l) r ∧ r.Pairwise (fun a b => a.canBeMerged b = false) ∧
      ∀ i ∈ r, cuts i ≠ none ∧ ∀ p ∈ cuts cur, ∀ q ∈ cuts i, p.1 ≤ q.1 := by
  induction l generalizing cur with
  | nil =>
    refine ⟨[cur], rfl, .refl, List.pairwise_singleton _ _, fun i hi => ?_⟩
    cases List.mem_singleton.mp hi
    refine ⟨hn _ List.mem_cons_self, fun p hp q hq => ?_⟩
    cases Option.mem_unique hp hq
    exact le_rfl
  | cons x l ih =>
    have oc := ho cur List.mem_cons_self
    have ox := ho x (List.mem_cons_of_mem _ List.mem_cons_self)
    obtain ⟨pc, hpc⟩ := Option.ne_none_iff_exists'.mp (hn cur List.mem_cons_self)
    obtain ⟨px, hpx⟩ := Option.ne_none_iff_exists'.mp (hn x (List.mem_cons_of_mem _ List.mem_cons_self))
    have h1 := List.pairwise_cons.mp hs
    have h2 := List.pairwise_cons.mp h1.2
    have hcx : pc.1 ≤ px.1 := h1.1 x List.mem_cons_self pc hpc px hpx
    cases hm : cur.canBeMerged x with
    | true =>
      obtain ⟨i, hi⟩ := (merged_iff oc ox).mpr hm
      obtain ⟨_, hci, oi⟩ := merged_ok oc ox hi
      rw [hpc, hpx, cutJoin_some, min_eq_left hcx] at hci
      obtain ⟨r, e, st, pw, hr⟩ := ih i
        (fun j hj => (List.mem_cons.mp hj).elim (fun e => e ▸ oi) fun hj => ho j (List.mem_cons_of_mem _ (List.mem_cons_of_mem _ hj)))
        (fun j hj => (List.mem_cons.mp hj).elim (fun e => by rw [e, hci]; exact Option.some_ne_none _)
          fun hj => hn j (List.mem_cons_of_mem _ (List.mem_cons_of_mem _ hj)))
        (List.pairwise_cons.mpr ⟨fun j hj p hp q hq => by
          rw [hci] at hp; cases hp
          exact h1.1 j (List.mem_cons_of_mem _ hj) pc hpc q hq, h2.2⟩)
      refine ⟨r, ?_, .head ⟨List.Perm.refl _, hi, List.Perm.refl _⟩ st, pw, fun j hj => ⟨(hr j hj).1, fun p hp q hq => ?_⟩⟩
      · unfold sweepFrom
        rw [hi]; exact e
      · cases Option.mem_unique hpc hp
        exact (hr j hj).2 (pc.1, _) hci q hq
    | false =>
      have hr := ((c28_merge oc ox).2 hm).1
      have hlt : pc.2 < px.1 := by
        refine behind hm hpc hpx (hcx.trans ?_)
        exact ((wf_cuts.mp ox.wf) px hpx).le
      obtain ⟨r, e, st, pw, hr2⟩ := ih x (fun j hj => ho j (List.mem_cons_of_mem _ hj))
        (fun j hj => hn j (List.mem_cons_of_mem _ hj)) h1.2
      have far : ∀ j ∈ r, ∀ q ∈ cuts j, px.1 ≤ q.1 := fun j hj q hq => (hr2 j hj).2 px hpx q hq
      refine ⟨cur :: r, ?_, ?_, List.pairwise_cons.mpr ⟨fun j hj => ?_, pw⟩, fun j hj => ?_⟩
      · unfold sweepFrom
        rw [hr]
        show (sweepFrom x l >>= fun t => pure (cur :: t)) = _
        rw [e]; rfl
      · -- the steps of the tail, with `cur` beside
        have lift : ∀ {l m : List (Interval T)}, MergeSteps l m → MergeSteps (cur :: l) (cur :: m) := by
          intro l m h
          induction h with
          | refl => exact .refl
          | tail _ h2 ih =>
            obtain ⟨g1, g2, g3⟩ := h2
            refine ih.tail ⟨(List.Perm.cons cur g1).trans
              ((List.Perm.swap _ cur _).trans (List.Perm.cons _ (List.Perm.swap _ cur _))), g2,
              (List.Perm.cons cur g3).trans (List.Perm.swap _ cur _)⟩
        exact lift st
      · rw [← Bool.not_eq_true, canBeMerged_cuts]
        intro hc
        obtain ⟨q, hq⟩ := Option.ne_none_iff_exists'.mp (hr2 j hj).1
        exact absurd (hc pc hpc q hq).2 (not_le.mpr (hlt.trans_le (far j hj q hq)))
      · rcases List.mem_cons.mp hj with rfl | hj
        · exact ⟨hn _ List.mem_cons_self, fun p hp q hq => by cases Option.mem_unique hp hq; exact le_rfl⟩
        · refine ⟨(hr2 j hj).1, fun p hp q hq => ?_⟩
          cases Option.mem_unique hpc hp
          exact hcx.trans (far j hj q hq)

end
end Itv
