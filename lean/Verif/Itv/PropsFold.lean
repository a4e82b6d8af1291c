import Verif.Itv.LemmasFold
/-!
# C104: intersection and span of a collection of intervals
-/

open Rust
namespace Itv

section
variable {T : Type} [LinearOrder T] {a b i : Interval T} {rest rest' : List (Interval T)}

/-- C104: intersecting the intervals of a collection one after the other never panics, by value or in place, and gives the
greatest interval contained in all of them; its members are exactly the values in all of them. -/
theorem c104_intersection (ha : Obtainable a) (hr : ∀ x ∈ rest, Obtainable x) :
    ∃ i, meetAll a rest = .ok i ∧ meetEach rest a = (.ok (), i) ∧ WellFormed i ∧
      (∀ v, Mem i v ↔ ∀ x ∈ a :: rest, Mem x v) ∧
      (∀ x ∈ a :: rest, x.containsInterval i = true) ∧
      ∀ c, Obtainable c → (∀ x ∈ a :: rest, x.containsInterval c = true) → i.containsInterval c = true := by
  obtain ⟨i, h1, h2, h3, h4, h5, h6⟩ := meetAll_ok ha hr
  have hg : ∀ c, Obtainable c → (∀ x ∈ a :: rest, x.containsInterval c = true) → i.containsInterval c = true := by
    intro c hc hx
    rw [contains_cuts]
    intro q hq
    rcases hi : cuts i with _ | p
    · obtain ⟨x, mx, y, my, e⟩ := h5 hi
      obtain ⟨p, hp, p1, p2⟩ := contains_cuts.mp (hx x mx) q hq
      obtain ⟨p', hp', p1', p2'⟩ := contains_cuts.mp (hx y my) q hq
      have hlt := wf_cuts.mp hc.wf q hq
      rw [Option.mem_def.mp hp, Option.mem_def.mp hp', cutMeet_some] at e
      rw [if_pos (lt_of_le_of_lt (max_le p1 p1') (lt_of_lt_of_le hlt (le_min p2 p2')))] at e
      cases e
    · obtain ⟨⟨x, mx, u, ex⟩, y, my, l, ey⟩ := h6 p hi
      obtain ⟨p', hp', p1', _⟩ := contains_cuts.mp (hx x mx) q hq
      obtain ⟨p'', hp'', _, p2''⟩ := contains_cuts.mp (hx y my) q hq
      rw [ex] at hp'; cases hp'
      rw [ey] at hp''; cases hp''
      exact ⟨p, rfl, p1', p2''⟩
  have hs : ∀ (x : Interval T) (v : T), x.containsInterval (Interval.single v) = true ↔ Mem x v := by
    intro x v
    rw [contains_cuts, mem_cuts]
    constructor
    · intro h
      exact h (toLex (v, false), toLex (v, true)) rfl
    · intro h q hq
      cases hq
      exact h
  refine ⟨i, h1, h2, h3.wf, fun v => ⟨fun hv x hx => ?_, fun hv => ?_⟩, h4, hg⟩
  · rw [← hs] at hv ⊢
    exact contains_trans (h4 x hx) hv
  · rw [← hs]
    exact hg _ (.single v) fun x hx => (hs x v).mpr (hv x hx)

/-- C104: the result depends on nothing but which intervals are in the collection, not on their order or on how often each
occurs. -/
theorem c104_intersection_order (ha : Obtainable a) (hr : ∀ x ∈ rest, Obtainable x)
    (hm : ∀ x, x ∈ a :: rest ↔ x ∈ b :: rest') : meetAll a rest = meetAll b rest' := by
  have hall : ∀ x ∈ b :: rest', Obtainable x := by
    intro x hx
    rcases List.mem_cons.mp ((hm x).mpr hx) with rfl | h
    · exact ha
    · exact hr x h
  have hb := hall b List.mem_cons_self
  have hr' := fun x hx => hall x (List.mem_cons_of_mem _ hx)
  obtain ⟨i, h1, _, _, _, h2, h3⟩ := c104_intersection ha hr
  obtain ⟨j, g1, _, _, _, g2, g3⟩ := c104_intersection hb hr'
  obtain ⟨i', e, _, oi, _⟩ := meetAll_ok ha hr
  rw [h1] at e; cases e
  obtain ⟨j', e, _, oj, _⟩ := meetAll_ok hb hr'
  rw [g1] at e; cases e
  rw [h1, g1, contains_antisymm (h3 j oj fun x hx => g2 x ((hm x).mp hx)) (g3 i oi fun x hx => h2 x ((hm x).mpr hx))]

/-- C104 (Helly): a collection has an empty intersection exactly if two of its intervals have one. -/
theorem c104_pairs_decide (ha : Obtainable a) (hr : ∀ x ∈ rest, Obtainable x) (hi : meetAll a rest = .ok i) :
    (i.isEmpty = true ↔
      ∃ x ∈ a :: rest, ∃ y ∈ a :: rest, Interval.intoIntersection x y = .ok Interval.empty) ∧
    ((∀ x ∈ a :: rest, x.isEmpty = false) →
      (i.isEmpty = false ↔ ∀ x ∈ a :: rest, ∀ y ∈ a :: rest, x.intersects y = true)) := by
  have hall : ∀ x ∈ a :: rest, Obtainable x := by
    intro x hx
    rcases List.mem_cons.mp hx with rfl | h
    · exact ha
    · exact hr x h
  have key : i.isEmpty = true ↔
      ∃ x ∈ a :: rest, ∃ y ∈ a :: rest, Interval.intoIntersection x y = .ok Interval.empty := by
    obtain ⟨i', e, _, h3, h4, h5, _⟩ := meetAll_ok ha hr
    rw [hi] at e; cases e
    rw [isEmpty_cuts]
    constructor
    · intro h
      obtain ⟨x, hx, y, hy, e⟩ := h5 h
      refine ⟨x, hx, y, hy, ?_⟩
      obtain ⟨j, j1, _, _, j2⟩ := meet_two (hall x hx) (hall y hy)
      rw [j1, cuts_inj (a := j) (b := Interval.empty) (by rw [j2, e]; rfl)]
    · rintro ⟨x, hx, y, hy, e⟩
      obtain ⟨j, j1, _, _, j2⟩ := c71_intersection_greatest (hall x hx) (hall y hy)
      rw [e] at j1; cases j1
      have := contains_cuts.mp (j2 i h3 (h4 x hx) (h4 y hy))
      rcases hc : cuts i with _ | p
      · rfl
      · obtain ⟨q, hq, _⟩ := this p hc
        cases hq
  refine ⟨key, fun hne => ?_⟩
  rw [← Bool.not_eq_true, key]
  constructor
  · intro h x hx y hy
    rw [(c27_intersects_partial (hall x hx) (hall y hy)).2.2]
    obtain ⟨j, j1, _, _, _⟩ := meet_two (hall x hx) (hall y hy)
    refine .inr (.inr ⟨j, j1, ?_⟩)
    rw [← Bool.not_eq_true]
    intro hj
    rcases j with ⟨_ | j⟩
    · exact h ⟨x, hx, y, hy, j1⟩
    · cases hj
  · rintro h ⟨x, hx, y, hy, e⟩
    have := h x hx y hy
    rw [(c27_intersects_partial (hall x hx) (hall y hy)).2.2] at this
    rcases this with h1 | h1 | ⟨j, j1, j2⟩
    · rw [hne x hx] at h1; cases h1
    · rw [hne y hy] at h1; cases h1
    · rw [e] at j1; cases j1; cases j2

/-- C104 (Helly): on a densely ordered type all intervals of a collection have a common value exactly if any two of them
have one. -/
theorem c104_common_value_dense [DenselyOrdered T] (ha : Obtainable a) (hr : ∀ x ∈ rest, Obtainable x) :
    (∃ v, ∀ x ∈ a :: rest, Mem x v) ↔ ∀ x ∈ a :: rest, ∀ y ∈ a :: rest, ∃ v, Mem x v ∧ Mem y v := by
  refine ⟨fun ⟨v, hv⟩ x hx y hy => ⟨v, hv x hx, hv y hy⟩, fun h => ?_⟩
  have hall : ∀ x ∈ a :: rest, Obtainable x := by
    intro x hx
    rcases List.mem_cons.mp hx with rfl | h
    · exact ha
    · exact hr x h
  obtain ⟨i, h1, _, h2, h3, _⟩ := c104_intersection ha hr
  have hi : ¬ i.isEmpty = true := by
    rw [(c104_pairs_decide ha hr h1).1]
    rintro ⟨x, hx, y, hy, e⟩
    obtain ⟨v, hv⟩ := h x hx y hy
    obtain ⟨j, j1, _, j2, _⟩ := c26_intersection (hall x hx) (hall y hy)
    rw [e] at j1; cases j1
    exact mem_none ((j2 v).mpr hv)
  rcases Interval.cases2 i with rfl | ⟨l, lc, u, uc, rfl⟩
  · exact absurd rfl hi
  · obtain ⟨v, hv⟩ := exists_mem h2
    exact ⟨v, (h3 v).mp hv⟩

/-- C104: the span of a collection never panics, by value or in place, and is the least interval that contains all of
them. -/
theorem c104_span (ha : Obtainable a) (hr : ∀ x ∈ rest, Obtainable x) :
    ∃ i, spanAll a rest = .ok i ∧ spanEach rest a = (.ok (), i) ∧ WellFormed i ∧
      (∀ x ∈ a :: rest, i.containsInterval x = true) ∧
      (∀ c : Interval T, (∀ x ∈ a :: rest, c.containsInterval x = true) → c.containsInterval i = true) ∧
      ∀ v, (∃ x ∈ a :: rest, ∃ y ∈ a :: rest, ∃ u w, Mem x u ∧ Mem y w ∧ u ≤ v ∧ v ≤ w) → Mem i v := by
  have hall : ∀ x ∈ a :: rest, Obtainable x := by
    intro x hx
    rcases List.mem_cons.mp hx with rfl | h
    · exact ha
    · exact hr x h
  obtain ⟨i, h1, h2, h3, h4, h5, _⟩ := spanAll_ok ha hr
  refine ⟨i, h1, h2, h3.wf, h4, h5, ?_⟩
  rintro v ⟨x, hx, y, hy, u, w, hu, hw, h6, h7⟩
  obtain ⟨p, hp, p1, _⟩ := mem_cuts.mp (c25_sound h3 (hall x hx) (h4 x hx) u hu)
  obtain ⟨p', hp', _, p2⟩ := mem_cuts.mp (c25_sound h3 (hall y hy) (h4 y hy) w hw)
  cases Option.mem_unique hp hp'
  exact mem_cuts.mpr ⟨p, hp, p1.trans (val_cut_le h6), (val_cut_le h7).trans p2⟩

/-- C104: on a densely ordered type the members of the span are exactly the values between two values of the collection. -/
theorem c104_span_dense [DenselyOrdered T] (ha : Obtainable a) (hr : ∀ x ∈ rest, Obtainable x)
    (hi : spanAll a rest = .ok i) (v : T) :
    Mem i v ↔ ∃ x ∈ a :: rest, ∃ y ∈ a :: rest, ∃ u w, Mem x u ∧ Mem y w ∧ u ≤ v ∧ v ≤ w := by
  have hall : ∀ x ∈ a :: rest, Obtainable x := by
    intro x hx
    rcases List.mem_cons.mp hx with rfl | h
    · exact ha
    · exact hr x h
  constructor
  · intro hv
    obtain ⟨i', e, _, _, _, _, h6⟩ := spanAll_ok ha hr
    rw [hi] at e; cases e
    obtain ⟨p, hp, p1, p2⟩ := mem_cuts.mp hv
    obtain ⟨⟨x, hx, q, ex⟩, y, hy, q', ey⟩ := h6 p hp
    have some_mem : ∀ z ∈ a :: rest, cuts z ≠ none → ∃ w, Mem z w := by
      intro z hz hne
      have hw := (hall z hz).wf
      rcases Interval.cases2 z with rfl | ⟨l, lc, u, uc, rfl⟩
      · exact absurd rfl hne
      · exact exists_mem hw
    obtain ⟨u, hu⟩ := some_mem x hx (by rw [ex]; simp)
    obtain ⟨w, hw⟩ := some_mem y hy (by rw [ey]; simp)
    have lt_of : ∀ {u w : T} {b : Bool}, (toLex (u, b) : T ×ₗ Bool) < toLex (w, b) → u ≤ w := by
      intro u w b h
      rcases Prod.Lex.toLex_lt_toLex.mp h with h | h
      · exact h.le
      · exact h.1.le
    have left : ∃ u, Mem x u ∧ u ≤ v := by
      by_cases hm : Mem x v
      · exact ⟨v, hm, le_rfl⟩
      · refine ⟨u, hu, ?_⟩
        obtain ⟨r, hr, _, r2⟩ := mem_cuts.mp hu
        rw [ex] at hr; cases hr
        refine lt_of (b := true) (lt_of_le_of_lt r2 (not_le.mp fun h => hm ?_))
        exact mem_cuts.mpr ⟨_, ex, p1, h⟩
    have right : ∃ w, Mem y w ∧ v ≤ w := by
      by_cases hm : Mem y v
      · exact ⟨v, hm, le_rfl⟩
      · refine ⟨w, hw, ?_⟩
        obtain ⟨r, hr, r1, _⟩ := mem_cuts.mp hw
        rw [ey] at hr; cases hr
        refine lt_of (b := false) (lt_of_lt_of_le (not_le.mp fun h => hm ?_) r1)
        exact mem_cuts.mpr ⟨_, ey, h, p2⟩
    obtain ⟨u, u1, u2⟩ := left
    obtain ⟨w, w1, w2⟩ := right
    exact ⟨x, hx, y, hy, u, w, u1, w1, u2, w2⟩
  · intro h
    obtain ⟨i', e, _, _, _, _, h6⟩ := c104_span ha hr
    rw [hi] at e; cases e
    exact h6 v h

/-- C104: nor does the span depend on the order of the collection. -/
theorem c104_span_order (ha : Obtainable a) (hr : ∀ x ∈ rest, Obtainable x)
    (hm : ∀ x, x ∈ a :: rest ↔ x ∈ b :: rest') : spanAll a rest = spanAll b rest' := by
  have hall : ∀ x ∈ b :: rest', Obtainable x := by
    intro x hx
    rcases List.mem_cons.mp ((hm x).mpr hx) with rfl | h
    · exact ha
    · exact hr x h
  obtain ⟨i, h1, _, _, h2, h3, _⟩ := c104_span ha hr
  obtain ⟨j, g1, _, _, g2, g3, _⟩ := c104_span (hall b List.mem_cons_self) fun x hx => hall x (List.mem_cons_of_mem _ hx)
  rw [h1, g1, contains_antisymm (g3 i fun x hx => h2 x ((hm x).mpr hx)) (h3 j fun x hx => g2 x ((hm x).mp hx))]

end

/-- `(1, 4]`, `[2, 6)`, `[3, 3]`: any two of them meet, all of them in `3` -/
def Trial.three : List (Interval Rat) :=
  [⟨some ⟨⟨⟨1, false⟩⟩, ⟨⟨4, true⟩⟩⟩⟩, ⟨some ⟨⟨⟨2, true⟩⟩, ⟨⟨6, false⟩⟩⟩⟩, Interval.single 3]

theorem Trial.three_ok : ∀ x ∈ three, Obtainable x := by
  intro x hx
  refine obtainable_of_wf ?_
  simp only [three, List.mem_cons, List.not_mem_nil, or_false] at hx
  rcases hx with rfl | rfl | rfl
  · exact Or.inl (by decide)
  · exact Or.inl (by decide)
  · exact Or.inr ⟨rfl, rfl, rfl⟩

open Trial in
example : Obtainable demoQ ∧ (∀ x ∈ three, Obtainable x) ∧ meetAll demoQ three = .ok (Interval.single 3) ∧
    (∀ x, x ∈ demoQ :: three ↔ x ∈ Interval.single 3 :: three ++ [demoQ, demoQ]) ∧
    (∀ x ∈ demoQ :: three, x.isEmpty = false) ∧ (∀ x ∈ demoQ :: three, ∀ y ∈ demoQ :: three, x.intersects y = true) :=
  ⟨demoQ_ok, three_ok, by decide, fun x => by simp [three]; tauto, by decide, by decide⟩
open Trial in
example : meetAll (Interval.single 5) three = .ok Interval.empty ∧
    Interval.intoIntersection (Interval.single (5 : Rat)) (Interval.single 3) = .ok Interval.empty :=
  ⟨by decide, by decide⟩
open Trial in
example : spanAll (Interval.single 7) three = .ok ⟨some ⟨⟨⟨1, false⟩⟩, ⟨⟨7, true⟩⟩⟩⟩ := by decide

end Itv
