import Verif.Itv.SpecSchedule
import Mathlib.Order.WithBot
import Mathlib.Data.List.Perm.Subperm
/-!
# Lemmas on scheduling
-/

open Rust
namespace Itv
section
variable {T : Type} [LinearOrder T] {a b x y : Interval T} {l m : List (Interval T)}

/-- where an interval begins -/
def low (i : Interval T) : WithBot (T ×ₗ Bool) := (cuts i).map (·.1)
/-- where an interval ends -/
def upp (i : Interval T) : WithBot (T ×ₗ Bool) := (cuts i).map (·.2)

/-- the intervals that can be in a schedule -/
def Real (i : Interval T) : Prop := cuts i ≠ none ∧ low i < upp i

theorem real_of (ho : Obtainable a) (hn : a.isEmpty = false) : Real a := by
  have h : cuts a ≠ none := by
    rw [← Bool.not_eq_true, isEmpty_cuts] at hn; exact hn
  refine ⟨h, ?_⟩
  obtain ⟨p, hp⟩ := Option.ne_none_iff_exists'.mp h
  have := wf_cuts.mp ho.wf p hp
  rw [low, upp, hp]
  exact WithBot.coe_lt_coe.mpr this

theorem int_iff (ha : Real a) (hb : Real b) : a.intersects b = true ↔ low a < upp b ∧ low b < upp a := by
  obtain ⟨p, hp⟩ := Option.ne_none_iff_exists'.mp ha.1
  obtain ⟨q, hq⟩ := Option.ne_none_iff_exists'.mp hb.1
  rw [intersects_cuts, low, low, upp, upp, hp, hq]
  constructor
  · intro h
    obtain ⟨h1, h2⟩ := h p rfl q rfl
    exact ⟨WithBot.coe_lt_coe.mpr h1, WithBot.coe_lt_coe.mpr h2⟩
  · rintro ⟨h1, h2⟩ p' hp' q' hq'
    cases hp'; cases hq'
    exact ⟨WithBot.coe_lt_coe.mp h1, WithBot.coe_lt_coe.mp h2⟩

theorem int_comm (a b : Interval T) : a.intersects b = b.intersects a := by
  rw [Bool.eq_iff_iff, intersects_cuts, intersects_cuts]
  exact ⟨fun h p hp q hq => (h q hq p hp).symm, fun h p hp q hq => (h q hq p hp).symm⟩

theorem not_int_iff (ha : Real a) (hb : Real b) : a.intersects b = false ↔ upp b ≤ low a ∨ upp a ≤ low b := by
  rw [← Bool.not_eq_true, int_iff ha hb, not_and_or, not_lt, not_lt]

theorem upper_le {up up' : UpperBound T} (h : up.cmp up' ≠ .gt) :
    cutU up.bound.val up.bound.isClosed ≤ cutU up'.bound.val up'.bound.isClosed := by
  rcases up with ⟨⟨x, xc⟩⟩
  rcases up' with ⟨⟨y, yc⟩⟩
  unfold cutU
  rw [Prod.Lex.toLex_le_toLex]
  unfold UpperBound.cmp UpperBound.val UpperBound.isClosed at h
  simp only at h
  split at h
  · exact absurd rfl h
  · rename_i hc; exact Or.inl (compare_lt_iff_lt.mp hc)
  · rename_i hc
    refine Or.inr ⟨compare_eq_iff_eq.mp hc, ?_⟩
    cases xc <;> cases yc <;> simp_all

theorem upper_sorted (h : SortedByUpper l) : l.Pairwise fun a b => upp a ≤ upp b := by
  refine h.2.imp_of_mem ?_
  intro a b ha hb hab
  have ea := h.1 a ha
  have eb := h.1 b hb
  rcases a with ⟨_ | a⟩
  · cases ea
  rcases b with ⟨_ | b⟩
  · cases eb
  exact WithBot.coe_le_coe.mpr (upper_le (hab _ _ _ _ rfl rfl))

theorem lower_sorted (h : SortedByLower l) : l.Pairwise fun a b => low a ≤ low b := by
  refine h.2.imp_of_mem ?_
  intro a b ha hb hab
  have ea := h.1 a ha
  have eb := h.1 b hb
  rcases a with ⟨_ | a⟩
  · cases ea
  rcases b with ⟨_ | b⟩
  · cases eb
  exact WithBot.coe_le_coe.mpr (lower_le (hab _ _ _ _ rfl rfl))

/-! ## choosing -/

theorem scheduleFrom_sublist (last : Interval T) (l : List (Interval T)) : (scheduleFrom last l).Sublist l := by
  induction l generalizing last with
  | nil => exact List.Sublist.refl _
  | cons x l ih =>
    rw [scheduleFrom]
    split
    · exact (ih last).cons x
    · exact (ih x).cons_cons x

/-- everything chosen after `last` begins after its end -/
theorem scheduleFrom_after {last : Interval T} (hl : Real last) (hr : ∀ i ∈ l, Real i)
    (hs : (last :: l).Pairwise fun a b => upp a ≤ upp b) : ∀ i ∈ scheduleFrom last l, upp last ≤ low i := by
  induction l generalizing last with
  | nil => intro i hi; cases hi
  | cons x l ih =>
    have hx := hr x List.mem_cons_self
    have hr' := fun i hi => hr i (List.mem_cons_of_mem _ hi)
    rw [List.pairwise_cons] at hs
    have hlx := hs.1 x List.mem_cons_self
    intro i hi
    rw [scheduleFrom] at hi
    split at hi
    · refine ih hl hr' ?_ i hi
      exact List.pairwise_cons.mpr ⟨fun b hb => hs.1 b (List.mem_cons_of_mem _ hb), (List.pairwise_cons.mp hs.2).2⟩
    · rename_i hn
      rw [Bool.not_eq_true, not_int_iff hx hl] at hn
      have hlow : upp last ≤ low x := by
        rcases hn with hn | hn
        · exact hn
        · exact absurd (lt_of_le_of_lt (hlx.trans hn) hl.2) (lt_irrefl _)
      rcases List.mem_cons.mp hi with rfl | hi
      · exact hlow
      · exact hlx.trans (ih hx hr' hs.2 i hi)

theorem scheduleFrom_apart {last : Interval T} (hl : Real last) (hr : ∀ i ∈ l, Real i)
    (hs : (last :: l).Pairwise fun a b => upp a ≤ upp b) : Apart (last :: scheduleFrom last l) := by
  induction l generalizing last with
  | nil => exact List.pairwise_singleton _ _
  | cons x l ih =>
    have ha := scheduleFrom_after hl hr hs
    have hx := hr x List.mem_cons_self
    have hr' := fun i hi => hr i (List.mem_cons_of_mem _ hi)
    have first : ∀ i ∈ scheduleFrom last (x :: l), last.intersects i = false := fun i hi =>
      (not_int_iff hl (hr i ((scheduleFrom_sublist _ _).subset hi))).mpr (.inr (ha i hi))
    refine List.pairwise_cons.mpr ⟨first, ?_⟩
    rw [List.pairwise_cons] at hs
    rw [scheduleFrom]
    split
    · refine (List.pairwise_cons.mp (ih hl hr' ?_)).2
      exact List.pairwise_cons.mpr ⟨fun b hb => hs.1 b (List.mem_cons_of_mem _ hb), (List.pairwise_cons.mp hs.2).2⟩
    · exact ih hx hr' hs.2

/-- intervals that do not intersect and are sorted by their ends lie one after the other -/
theorem apart_after (hy : Real y) (hm : ∀ i ∈ m, Real i) (hs : (y :: m).Pairwise fun a b => upp a ≤ upp b)
    (ha : Apart (y :: m)) : ∀ i ∈ m, upp y ≤ low i := by
  intro i hi
  have h1 := (List.pairwise_cons.mp ha).1 i hi
  have h2 := (List.pairwise_cons.mp hs).1 i hi
  rcases (not_int_iff hy (hm i hi)).mp h1 with h | h
  · exact absurd (lt_of_le_of_lt (h2.trans h) hy.2) (lt_irrefl _)
  · exact h

/-- nothing that begins after `last` can be chosen better -/
theorem scheduleFrom_best {last : Interval T} (hl : Real last) (hr : ∀ i ∈ l, Real i)
    (hs : (last :: l).Pairwise fun a b => upp a ≤ upp b) (hm : m.Sublist l) (ha : Apart m)
    (hb : ∀ i ∈ m, upp last ≤ low i) : m.length ≤ (scheduleFrom last l).length := by
  induction l generalizing last m with
  | nil => rw [List.sublist_nil.mp hm]; exact Nat.le_refl _
  | cons x l ih =>
    have hx := hr x List.mem_cons_self
    have hr' := fun i hi => hr i (List.mem_cons_of_mem _ hi)
    have hs' := List.pairwise_cons.mp hs
    have hsl : (last :: l).Pairwise fun a b => upp a ≤ upp b :=
      List.pairwise_cons.mpr ⟨fun b hb => hs'.1 b (List.mem_cons_of_mem _ hb), (List.pairwise_cons.mp hs'.2).2⟩
    rw [scheduleFrom]
    split
    · rename_i hi
      rw [int_iff hx hl] at hi
      cases hm with
      | cons _ hm => exact ih hl hr' hsl hm ha hb
      | cons_cons _ hm => exact absurd (hb x List.mem_cons_self) (not_le.mpr hi.1)
    · rw [List.length_cons]
      have hms : m.Pairwise fun a b => upp a ≤ upp b := hs'.2.sublist hm
      cases m with
      | nil => exact Nat.zero_le _
      | cons y m =>
        have hy : Real y := hr y (hm.subset List.mem_cons_self)
        have hmr : ∀ i ∈ m, Real i := fun i hi => hr i (hm.subset (List.mem_cons_of_mem _ hi))
        have h1 := apart_after hy hmr hms ha
        have h2 : upp x ≤ upp y := by
          rcases List.mem_cons.mp (hm.subset List.mem_cons_self) with rfl | h
          · exact le_rfl
          · exact (List.pairwise_cons.mp hs'.2).1 y h
        have h3 : m.Sublist l := by
          cases hm with
          | cons _ hm => exact (List.sublist_cons_self y m).trans hm
          | cons_cons _ hm => exact hm
        exact Nat.succ_le_succ (ih hx hr' hs'.2 h3 (List.pairwise_cons.mp ha).2 fun i hi => h2.trans (h1 i hi))

theorem schedule_best (hr : ∀ i ∈ l, Real i) (hs : l.Pairwise fun a b => upp a ≤ upp b) (hm : m.Sublist l)
    (ha : Apart m) : m.length ≤ (schedule l).length := by
  cases l with
  | nil => rw [List.sublist_nil.mp hm]; exact Nat.le_refl _
  | cons x l =>
    have hx := hr x List.mem_cons_self
    have hr' := fun i hi => hr i (List.mem_cons_of_mem _ hi)
    cases m with
    | nil => exact Nat.zero_le _
    | cons y m =>
      have hy : Real y := hr y (hm.subset List.mem_cons_self)
      have hmr : ∀ i ∈ m, Real i := fun i hi => hr i (hm.subset (List.mem_cons_of_mem _ hi))
      have h1 := apart_after hy hmr (hs.sublist hm) ha
      have h2 : upp x ≤ upp y := by
        rcases List.mem_cons.mp (hm.subset List.mem_cons_self) with rfl | h
        · exact le_rfl
        · exact (List.pairwise_cons.mp hs).1 y h
      have h3 : m.Sublist l := by
        cases hm with
        | cons _ hm => exact (List.sublist_cons_self y m).trans hm
        | cons_cons _ hm => exact hm
      exact Nat.succ_le_succ (scheduleFrom_best hx hr' hs h3 (List.pairwise_cons.mp ha).2 fun i hi => h2.trans (h1 i hi))

theorem apart_perm (h : l.Perm m) (ha : Apart l) : Apart m :=
  (h.pairwise_iff fun {a b} hab => by rw [int_comm]; exact hab).mp ha

theorem clash_perm (h : l.Perm m) (ha : Clash l) : Clash m :=
  (h.pairwise_iff fun {a b} hab => by rw [int_comm]; exact hab).mp ha

/-- each chosen interval with the ones skipped because of it -/
def skipped (last : Interval T) (group : List (Interval T)) : List (Interval T) → List (List (Interval T))
  | [] => [group]
  | x :: rest => if x.intersects last then skipped last (group ++ [x]) rest else group :: skipped x [x] rest

theorem skipped_flatten (last : Interval T) (group l : List (Interval T)) : (skipped last group l).flatten = group ++ l := by
  induction l generalizing last group with
  | nil => simp [skipped]
  | cons x l ih =>
    rw [skipped]
    split
    · rw [ih]; simp
    · rw [List.flatten_cons, ih]; rfl

theorem skipped_length (last : Interval T) (group l : List (Interval T)) :
    (skipped last group l).length = (scheduleFrom last l).length + 1 := by
  induction l generalizing last group with
  | nil => rfl
  | cons x l ih =>
    rw [skipped, scheduleFrom]
    split
    · exact ih _ _
    · rw [List.length_cons, ih, List.length_cons]

/-- all of a group contain the end of the chosen one -/
theorem skipped_clash {last : Interval T} {group : List (Interval T)} (hl : Real last) (hr : ∀ i ∈ l, Real i)
    (hs : (last :: l).Pairwise fun a b => upp a ≤ upp b) (hn : group ≠ [])
    (hg : ∀ i ∈ group, low i < upp last ∧ upp last ≤ upp i) (c : Clash group) (hgr : ∀ i ∈ group, Real i) :
    ∀ g ∈ skipped last group l, g ≠ [] ∧ Clash g := by
  induction l generalizing last group with
  | nil => intro g hg; rw [List.mem_singleton.mp hg]; exact ⟨hn, c⟩
  | cons x l ih =>
    have hx := hr x List.mem_cons_self
    have hr' := fun i hi => hr i (List.mem_cons_of_mem _ hi)
    have hs' := List.pairwise_cons.mp hs
    rw [skipped]
    split
    · rename_i hi
      rw [int_iff hx hl] at hi
      have hxl := hs'.1 x List.mem_cons_self
      refine ih hl hr' (List.pairwise_cons.mpr ⟨fun b hb => hs'.1 b (List.mem_cons_of_mem _ hb),
        (List.pairwise_cons.mp hs'.2).2⟩) (by simp) (fun i hi' => ?_) ?_ (fun i hi' => ?_)
      · rcases List.mem_append.mp hi' with h | h
        · exact hg i h
        · rw [List.mem_singleton.mp h]; exact ⟨hi.1, hxl⟩
      · refine List.pairwise_append.mpr ⟨c, List.pairwise_singleton _ _, fun a ha b hb => ?_⟩
        rw [List.mem_singleton.mp hb, int_iff (hgr a ha) hx]
        exact ⟨(hg a ha).1.trans_le hxl, hi.1.trans_le (hg a ha).2⟩
      · rcases List.mem_append.mp hi' with h | h
        · exact hgr i h
        · rw [List.mem_singleton.mp h]; exact hx
    · intro g hg'
      rcases List.mem_cons.mp hg' with rfl | h
      · exact ⟨hn, c⟩
      · refine ih hx hr' hs'.2 (List.cons_ne_nil _ _) (fun i hi => ?_) (List.pairwise_singleton _ _) (fun i hi => ?_) g h
        · rw [List.mem_singleton.mp hi]; exact ⟨hx.2, le_rfl⟩
        · rw [List.mem_singleton.mp hi]; exact hx

/-! ## rooms -/

theorem place_perm (x : Interval T) (rs : List (List (Interval T))) : (place x rs).flatten.Perm (x :: rs.flatten) := by
  induction rs with
  | nil => exact List.Perm.refl _
  | cons r rs ih =>
    cases r with
    | nil => exact List.Perm.refl _
    | cons last earlier =>
      rw [place]
      split
      · rw [List.flatten_cons, List.flatten_cons]
        exact (List.Perm.append_left _ ih).trans List.perm_middle
      · exact List.Perm.refl _

/-- what is known of the rooms -/
structure Booked (rs : List (List (Interval T))) : Prop where
  apart : ∀ r ∈ rs, r ≠ [] ∧ Apart r
  real : ∀ r ∈ rs, ∀ i ∈ r, Real i
  /-- the last interval of a room ends last -/
  order : ∀ r ∈ rs, r.Pairwise fun a b => upp b ≤ upp a

/-- `x` goes to a room, or all rooms are occupied when it begins -/
theorem place_ok {rs : List (List (Interval T))} (h : Booked rs) (hx : Real x) (hlow : ∀ r ∈ rs, ∀ i ∈ r, low i ≤ low x) :
    Booked (place x rs) ∧ ((place x rs).length = rs.length ∨
      (place x rs).length = rs.length + 1 ∧ ∀ r ∈ rs, ∃ last earlier, r = last :: earlier ∧ low x < upp last) := by
  induction rs with
  | nil =>
    refine ⟨⟨fun r hr => ?_, fun r hr i hi => ?_, fun r hr => ?_⟩, .inr ⟨rfl, fun r hr => by cases hr⟩⟩ <;>
      rw [place, List.mem_singleton] at hr <;> subst hr
    · exact ⟨List.cons_ne_nil _ _, List.pairwise_singleton _ _⟩
    · rw [List.mem_singleton.mp hi]; exact hx
    · exact List.pairwise_singleton _ _
  | cons r rs ih =>
    have hb : Booked rs := ⟨fun r hr => h.apart r (List.mem_cons_of_mem _ hr),
      fun r hr => h.real r (List.mem_cons_of_mem _ hr), fun r hr => h.order r (List.mem_cons_of_mem _ hr)⟩
    cases r with
    | nil => exact absurd rfl (h.apart [] List.mem_cons_self).1
    | cons last earlier =>
      have hlast := h.real _ List.mem_cons_self last List.mem_cons_self
      have hll := hlow _ List.mem_cons_self last List.mem_cons_self
      rw [place]
      split
      · rename_i hi
        obtain ⟨i1, i2⟩ := ih hb fun r hr => hlow r (List.mem_cons_of_mem _ hr)
        refine ⟨⟨fun r hr => ?_, fun r hr => ?_, fun r hr => ?_⟩, ?_⟩
        · rcases List.mem_cons.mp hr with rfl | hr
          · exact h.apart _ List.mem_cons_self
          · exact i1.apart r hr
        · rcases List.mem_cons.mp hr with rfl | hr
          · exact h.real _ List.mem_cons_self
          · exact i1.real r hr
        · rcases List.mem_cons.mp hr with rfl | hr
          · exact h.order _ List.mem_cons_self
          · exact i1.order r hr
        · rcases i2 with i2 | ⟨i2, i3⟩
          · exact .inl (congrArg (· + 1) i2)
          · refine .inr ⟨congrArg (· + 1) i2, fun r hr => ?_⟩
            rcases List.mem_cons.mp hr with rfl | hr
            · exact ⟨last, earlier, rfl, ((int_iff hlast hx).mp hi).2⟩
            · exact i3 r hr
      · rename_i hn
        rw [Bool.not_eq_true, not_int_iff hlast hx] at hn
        have hle : upp last ≤ low x := by
          rcases hn with hn | hn
          · exact absurd (lt_of_lt_of_le hx.2 (hn.trans hll)) (lt_irrefl _)
          · exact hn
        have ho := List.pairwise_cons.mp (h.order _ List.mem_cons_self)
        have hall : ∀ i ∈ last :: earlier, upp i ≤ low x := fun i hi => by
          rcases List.mem_cons.mp hi with rfl | hi
          · exact hle
          · exact (ho.1 i hi).trans hle
        refine ⟨⟨fun r hr => ?_, fun r hr => ?_, fun r hr => ?_⟩, .inl rfl⟩
        · rcases List.mem_cons.mp hr with rfl | hr
          · refine ⟨List.cons_ne_nil _ _, List.pairwise_cons.mpr ⟨fun i hi => ?_, (h.apart _ List.mem_cons_self).2⟩⟩
            exact (not_int_iff hx (h.real _ List.mem_cons_self i hi)).mpr (.inl (hall i hi))
          · exact hb.apart r hr
        · rcases List.mem_cons.mp hr with rfl | hr
          · intro i hi
            rcases List.mem_cons.mp hi with rfl | hi
            · exact hx
            · exact h.real _ List.mem_cons_self i hi
          · exact hb.real r hr
        · rcases List.mem_cons.mp hr with rfl | hr
          · exact List.pairwise_cons.mpr ⟨fun i hi => (hall i hi).trans hx.2.le, h.order _ List.mem_cons_self⟩
          · exact hb.order r hr

/-- the last intervals of the rooms -/
def lasts (rs : List (List (Interval T))) : List (Interval T) := rs.filterMap List.head?

omit [LinearOrder T] in
theorem lasts_length {rs : List (List (Interval T))} (h : ∀ r ∈ rs, r ≠ []) : (lasts rs).length = rs.length := by
  induction rs with
  | nil => rfl
  | cons r rs ih =>
    cases r with
    | nil => exact absurd rfl (h [] List.mem_cons_self)
    | cons a r =>
      rw [lasts, List.filterMap_cons_some (List.head?_cons), List.length_cons, List.length_cons]
      exact congrArg (· + 1) (ih fun r hr => h r (List.mem_cons_of_mem _ hr))

omit [LinearOrder T] in
theorem lasts_sublist (rs : List (List (Interval T))) : (lasts rs).Sublist rs.flatten := by
  induction rs with
  | nil => exact List.Sublist.refl _
  | cons r rs ih =>
    cases r with
    | nil => rw [lasts, List.filterMap_cons_none List.head?_nil]; exact ih
    | cons a r =>
      rw [lasts, List.filterMap_cons_some (List.head?_cons), List.flatten_cons, List.cons_append]
      exact (ih.trans (List.sublist_append_right r rs.flatten)).cons_cons a

/-- the rooms are as many as intervals that all intersect one another -/
theorem fold_ok (hr : ∀ i ∈ l, Real i) (hs : l.Pairwise fun a b => low a ≤ low b) {rs : List (List (Interval T))}
    (h : Booked rs) (hlow : ∀ r ∈ rs, ∀ i ∈ r, ∀ x ∈ l, low i ≤ low x) {c : List (Interval T)} (hc : List.Subperm c rs.flatten)
    (hcl : Clash c) (hlen : c.length = rs.length) :
    Booked (l.foldl (fun rs x => place x rs) rs) ∧
    (l.foldl (fun rs x => place x rs) rs).flatten.Perm (rs.flatten ++ l) ∧
    ∃ c, List.Subperm c (rs.flatten ++ l) ∧ Clash c ∧ c.length = (l.foldl (fun rs x => place x rs) rs).length := by
  induction l generalizing rs c with
  | nil =>
    rw [List.append_nil]
    exact ⟨h, List.Perm.refl _, c, hc, hcl, hlen⟩
  | cons x l ih =>
    have hx := hr x List.mem_cons_self
    have hs' := List.pairwise_cons.mp hs
    obtain ⟨p1, p2⟩ := place_ok h hx fun r hr i hi => hlow r hr i hi x List.mem_cons_self
    have hp := place_perm x rs
    have hlow' : ∀ r ∈ place x rs, ∀ i ∈ r, ∀ y ∈ l, low i ≤ low y := by
      intro r hr i hi y hy
      have hm := hp.mem_iff.mp (List.mem_flatten.mpr ⟨r, hr, hi⟩)
      rcases List.mem_cons.mp hm with rfl | hm
      · exact hs'.1 y hy
      · obtain ⟨r', hr', hi'⟩ := List.mem_flatten.mp hm
        exact hlow r' hr' i hi' y (List.mem_cons_of_mem _ hy)
    have key : ∃ c', List.Subperm c' (place x rs).flatten ∧ Clash c' ∧ c'.length = (place x rs).length := by
      rcases p2 with p2 | ⟨p2, p3⟩
      · refine ⟨c, (hc.trans (List.sublist_cons_self x _).subperm).trans hp.symm.subperm, hcl, by rw [p2, hlen]⟩
      · have occupied : ∀ i ∈ lasts rs, Real i ∧ low i ≤ low x ∧ low x < upp i := by
          intro i hi
          obtain ⟨r, hr, he⟩ := List.mem_filterMap.mp hi
          obtain ⟨last, earlier, rfl, hl⟩ := p3 r hr
          rw [List.head?_cons] at he; cases he
          exact ⟨h.real _ hr _ List.mem_cons_self, hlow _ hr _ List.mem_cons_self x List.mem_cons_self, hl⟩
        refine ⟨x :: lasts rs, ?_, List.pairwise_cons.mpr ⟨fun i hi => ?_, ?_⟩, ?_⟩
        · exact ((lasts_sublist rs).cons_cons x).subperm.trans hp.symm.subperm
        · obtain ⟨o1, o2, o3⟩ := occupied i hi
          exact (int_iff hx o1).mpr ⟨o3, lt_of_le_of_lt o2 hx.2⟩
        · refine List.pairwise_of_forall_mem_list fun a ha b hb => ?_
          obtain ⟨a1, a2, a3⟩ := occupied a ha
          obtain ⟨b1, b2, b3⟩ := occupied b hb
          exact (int_iff a1 b1).mpr ⟨lt_of_le_of_lt a2 b3, lt_of_le_of_lt b2 a3⟩
        · rw [p2, List.length_cons, lasts_length fun r hr => (h.apart r hr).1]
    obtain ⟨c', k1, k2, k3⟩ := key
    obtain ⟨q1, q2, c'', q3, q4, q5⟩ := ih (fun i hi => hr i (List.mem_cons_of_mem _ hi)) hs'.2 p1 hlow' k1 k2 k3
    have hpp : ((place x rs).flatten ++ l).Perm (rs.flatten ++ x :: l) :=
      (hp.append_right l).trans List.perm_middle.symm
    exact ⟨q1, q2.trans hpp, c'', q3.trans hpp.subperm, q4, q5⟩

/-- intervals that all intersect one another are in different rooms -/
theorem pigeon {c : List (Interval T)} {rs : List (List (Interval T))} (hc : c.Sublist rs.flatten) (hcl : Clash c)
    (ha : ∀ r ∈ rs, Apart r) : c.length ≤ rs.length := by
  induction rs generalizing c with
  | nil => rw [List.sublist_nil.mp hc]; exact Nat.le_refl _
  | cons r rs ih =>
    rw [List.flatten_cons] at hc
    obtain ⟨c1, c2, rfl, h1, h2⟩ := List.sublist_append_iff.mp hc
    have hcl' := List.pairwise_append.mp hcl
    have i2 := ih h2 hcl'.2.1 fun r hr => ha r (List.mem_cons_of_mem _ hr)
    have i1 : c1.length ≤ 1 := by
      match c1, h1, hcl'.1 with
      | [], _, _ => exact Nat.zero_le _
      | [_], _, _ => exact Nat.le_refl _
      | a :: b :: rest, h1, h3 =>
        have e1 := (List.pairwise_cons.mp h3).1 b List.mem_cons_self
        have e2 := (List.pairwise_cons.mp ((ha r List.mem_cons_self).sublist h1)).1 b List.mem_cons_self
        rw [e1] at e2; cases e2
    rw [List.length_append, List.length_cons]
    omega

end
end Itv
