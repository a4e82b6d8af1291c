import Verif.DS.SpecForest
import Verif.DS.Sim
import Mathlib.Order.Basic
import Mathlib.Order.Nat
import Mathlib.Tactic.Set
/-!
# Lemmas on spanning forests
-/

open Rust
namespace DS

/-! ### independent pairs -/

section
variable {T : Type} [DecidableEq T]

omit [DecidableEq T] in
/-- pairs that follow from pairs that follow -/
theorem conn_bind {ps qs : List (T × T)} (h : ∀ p ∈ ps, Conn qs p.1 p.2) {x y : T} (hc : Conn ps x y) : Conn qs x y := by
  induction hc with
  | refl a => exact .refl a
  | step hp => exact h _ hp
  | symm _ ih => exact .symm ih
  | trans _ _ ih1 ih2 => exact .trans ih1 ih2

/-- no pair follows from those before it and `base` -/
def Indep (base : List (T × T)) : List (T × T) → Prop
  | [] => True
  | e :: es => ¬ Conn base e.1 e.2 ∧ Indep (e :: base) es

theorem Indep.anti {base base' es : List (T × T)} (h : ∀ x y, Conn base' x y → Conn base x y) (hi : Indep base es) :
    Indep base' es := by
  induction es generalizing base base' with
  | nil => trivial
  | cons e es ih =>
    refine ⟨fun hc => hi.1 (h _ _ hc), ih (fun x y hc => conn_bind (fun p hp => ?_) hc) hi.2⟩
    rcases List.mem_cons.mp hp with rfl | hp
    · exact .step List.mem_cons_self
    · exact conn_mono (fun q hq => List.mem_cons_of_mem _ hq) (h _ _ (.step hp))

/-- a pair that makes another one follow follows from it -/
theorem conn_exchange {base : List (T × T)} {s e : T × T} (h : Conn (s :: base) e.1 e.2) (hn : ¬ Conn base e.1 e.2) :
    Conn (e :: base) s.1 s.2 := by
  have up : ∀ {x y}, Conn base x y → Conn (e :: base) x y := conn_mono fun q hq => List.mem_cons_of_mem _ hq
  have he : Conn (e :: base) e.1 e.2 := .step List.mem_cons_self
  rcases (conn_cons (a := s.1) (b := s.2)).mp h with h | ⟨h1, h2⟩ | ⟨h1, h2⟩
  · exact absurd h hn
  · exact .trans (.symm (up h1)) (.trans he (.symm (up h2)))
  · exact .symm (.trans (.symm (up h1)) (.trans he (.symm (up h2))))

/-- one more pair in the base makes at most one pair dependent -/
theorem Indep.drop_one {base es : List (T × T)} (s : T × T) (h : Indep base es) :
    ∃ es', Indep (s :: base) es' ∧ (∀ e ∈ es', e ∈ es) ∧ es.length ≤ es'.length + 1 := by
  induction es generalizing base with
  | nil => exact ⟨[], trivial, fun _ h => h, by simp⟩
  | cons e es ih =>
    by_cases hc : Conn (s :: base) e.1 e.2
    · refine ⟨es, h.2.anti fun x y hxy => conn_bind (fun p hp => ?_) hxy, fun _ h => List.mem_cons_of_mem _ h, Nat.le_refl _⟩
      rcases List.mem_cons.mp hp with rfl | hp
      · exact conn_exchange hc h.1
      · exact .step (List.mem_cons_of_mem _ hp)
    · obtain ⟨es', h1, h2, h3⟩ := ih h.2
      refine ⟨e :: es', ⟨hc, h1.anti fun x y => conn_mono fun q hq => ?_⟩, fun x hx => ?_, by simpa using h3⟩
      · simp only [List.mem_cons] at hq ⊢
        tauto
      · rcases List.mem_cons.mp hx with rfl | hx
        · exact List.mem_cons_self
        · exact List.mem_cons_of_mem _ (h2 x hx)

/-- independent pairs that follow from `ss` are at most as many -/
theorem Indep.length_le {ss base es : List (T × T)} (h : Indep base es) (hs : ∀ e ∈ es, Conn (ss ++ base) e.1 e.2) :
    es.length ≤ ss.length := by
  induction ss generalizing base es with
  | nil =>
    cases es with
    | nil => exact Nat.le_refl _
    | cons e es => exact absurd (hs e List.mem_cons_self) h.1
  | cons s ss ih =>
    obtain ⟨es', h1, h2, h3⟩ := h.drop_one s
    have := ih h1 fun e he => conn_mono (fun q hq => by simp at hq ⊢; tauto) (hs e (h2 e he))
    simp only [List.length_cons]
    omega

/-- each of them is needed -/
theorem Indep.irredundant {base pre post : List (T × T)} {e : T × T} (h : Indep base (pre ++ e :: post)) :
    ¬ Conn (pre ++ post ++ base) e.1 e.2 := by
  intro hc
  have := h.length_le (ss := pre ++ post) fun x hx => by
    simp only [List.mem_append, List.mem_cons] at hx
    rcases hx with hx | rfl | hx
    · exact .step (by simp [hx])
    · exact hc
    · exact .step (by simp [hx])
  simp only [List.length_append, List.length_cons] at this
  omega

theorem Indep.append {base es fs : List (T × T)} (h : Indep base (es ++ fs)) : Indep (es ++ base) fs := by
  induction es generalizing base with
  | nil => exact h
  | cons e es ih => exact (ih h.2).anti fun x y => conn_mono fun q hq => by simp at hq ⊢; tauto

end

/-! ### picked greedily -/

section
variable {T E : Type} [DecidableEq T]

open Classical in
/-- what is picked -/
noncomputable def greedy (ends : E → T × T) : List (T × T) → List E → List E
  | _, [] => []
  | base, e :: es =>
    if Conn base (ends e).1 (ends e).2 then greedy ends base es else e :: greedy ends (ends e :: base) es

variable {ends : E → T × T}

omit [DecidableEq T] in
theorem greedy_pos {base : List (T × T)} {e : E} (es : List E) (h : Conn base (ends e).1 (ends e).2) :
    greedy ends base (e :: es) = greedy ends base es := if_pos h
omit [DecidableEq T] in
theorem greedy_neg {base : List (T × T)} {e : E} (es : List E) (h : ¬ Conn base (ends e).1 (ends e).2) :
    greedy ends base (e :: es) = e :: greedy ends (ends e :: base) es := if_neg h

omit [DecidableEq T] in
theorem greedy_sublist (base : List (T × T)) (es : List E) : (greedy ends base es).Sublist es := by
  induction es generalizing base with
  | nil => exact .slnil
  | cons e es ih =>
    unfold greedy
    split
    · exact .cons e (ih _)
    · exact .cons_cons e (ih _)

omit [DecidableEq T] in
theorem greedy_indep (base : List (T × T)) (es : List E) : Indep base ((greedy ends base es).map ends) := by
  induction es generalizing base with
  | nil => trivial
  | cons e es ih =>
    unfold greedy
    split
    · exact ih _
    · next h => exact ⟨h, ih _⟩

theorem greedy_spans (base : List (T × T)) (es : List E) :
    ∀ e ∈ es, Conn ((greedy ends base es).map ends ++ base) (ends e).1 (ends e).2 := by
  induction es generalizing base with
  | nil => intro e h; cases h
  | cons e es ih =>
    intro x hx
    unfold greedy
    split
    · next h =>
      rcases List.mem_cons.mp hx with rfl | hx
      · exact conn_mono (fun q hq => by simp [hq]) h
      · exact ih _ x hx
    · rcases List.mem_cons.mp hx with rfl | hx
      · exact .step (by simp)
      · refine conn_mono (fun q hq => ?_) (ih (ends e :: base) x hx)
        simp only [List.mem_append, List.mem_cons, List.map_cons] at hq ⊢
        tauto

/-- only what follows from the base matters -/
theorem greedy_congr {base base' : List (T × T)} (h : ∀ x y, Conn base x y ↔ Conn base' x y) (es : List E) :
    greedy ends base es = greedy ends base' es := by
  induction es generalizing base base' with
  | nil => rfl
  | cons e es ih =>
    have hb : ∀ x y, Conn (ends e :: base) x y ↔ Conn (ends e :: base') x y := by
      have one : ∀ {b b' : List (T × T)}, (∀ x y, Conn b x y → Conn b' x y) → ∀ x y,
          Conn (ends e :: b) x y → Conn (ends e :: b') x y := by
        intro b b' h x y
        refine conn_bind fun p hp => ?_
        rcases List.mem_cons.mp hp with rfl | hp
        · exact .step List.mem_cons_self
        · exact conn_mono (fun q hq => List.mem_cons_of_mem _ hq) (h _ _ (.step hp))
      exact fun x y => ⟨one (fun x y => (h x y).mp) x y, one (fun x y => (h x y).mpr) x y⟩
    by_cases hc : Conn base (ends e).1 (ends e).2
    · rw [greedy_pos _ hc, greedy_pos _ ((h _ _).mp hc), ih h]
    · rw [greedy_neg _ hc, greedy_neg _ fun h' => hc ((h _ _).mpr h'), ih hb]

theorem greedy_append (base : List (T × T)) (es fs : List E) :
    greedy ends base (es ++ fs) =
      greedy ends base es ++ greedy ends ((greedy ends base es).map ends ++ base) fs := by
  induction es generalizing base with
  | nil => rfl
  | cons e es ih =>
    by_cases h : Conn base (ends e).1 (ends e).2
    · rw [List.cons_append, greedy_pos _ h, greedy_pos _ h, ih]
    · rw [List.cons_append, greedy_neg _ h, greedy_neg _ h, ih, List.cons_append]
      refine congrArg _ (congrArg _ (greedy_congr (fun x y => ?_) fs))
      constructor <;>
      · refine conn_mono fun q hq => ?_
        simp only [List.mem_append, List.mem_cons, List.map_cons] at hq ⊢
        tauto

/-- a list sorted by weight is its light part and its heavy part -/
theorem sorted_split {W : Type} [LinearOrder W] (weight : E → W) (t : W) {es : List E}
    (h : es.Pairwise fun e f => weight e ≤ weight f) :
    ∃ as bs, es = as ++ bs ∧ (∀ e ∈ as, weight e ≤ t) ∧ ∀ e ∈ bs, t < weight e := by
  induction es with
  | nil => exact ⟨[], [], rfl, by simp, by simp⟩
  | cons e es ih =>
    rw [List.pairwise_cons] at h
    obtain ⟨as, bs, h1, h2, h3⟩ := ih h.2
    by_cases he : weight e ≤ t
    · refine ⟨e :: as, bs, by rw [h1]; rfl, fun x hx => ?_, h3⟩
      rcases List.mem_cons.mp hx with rfl | hx
      · exact he
      · exact h2 x hx
    · refine ⟨[], e :: es, rfl, by simp, fun x hx => ?_⟩
      rcases List.mem_cons.mp hx with rfl | hx
      · exact not_le.mp he
      · exact (not_le.mp he).trans_le (h.1 x hx)

/-- of the edges heavier than `t` none is picked needlessly -/
theorem greedy_threshold {W : Type} [LinearOrder W] {weight : E → W} {base : List (T × T)} {es ss : List E}
    (hsort : es.Pairwise fun e f => weight e ≤ weight f) (hss : ∀ e ∈ ss, e ∈ es)
    (hspan : ∀ e ∈ es, Conn (ss.map ends ++ base) (ends e).1 (ends e).2) (t : W) :
    ((greedy ends base es).filter fun e => decide (t < weight e)).length ≤
      (ss.filter fun e => decide (t < weight e)).length := by
  obtain ⟨as, bs, rfl, ha, hb⟩ := sorted_split weight t hsort
  set A := greedy ends base as with hA
  set B := greedy ends (A.map ends ++ base) bs with hB
  have e1 : greedy ends base (as ++ bs) = A ++ B := greedy_append base as bs
  have e2 : A.filter (fun e => decide (t < weight e)) = [] := by
    rw [List.filter_eq_nil_iff]
    intro e he
    have := ha e ((greedy_sublist base as).subset he)
    simpa using this
  have e3 : B.filter (fun e => decide (t < weight e)) = B := by
    rw [List.filter_eq_self]
    intro e he
    have := hb e ((greedy_sublist _ bs).subset he)
    simpa using this
  rw [e1, List.filter_append, e2, e3, List.nil_append]
  have := (greedy_indep (ends := ends) (A.map ends ++ base) bs).length_le
    (ss := (ss.filter fun e => decide (t < weight e)).map ends) fun p hp => by
      obtain ⟨e, he, rfl⟩ := List.mem_map.mp hp
      refine conn_bind (fun q hq => ?_) (hspan e (List.mem_append_right _ ((greedy_sublist _ bs).subset he)))
      rcases List.mem_append.mp hq with hq | hq
      · obtain ⟨s, hs, rfl⟩ := List.mem_map.mp hq
        rcases List.mem_append.mp (hss s hs) with h | h
        · exact conn_mono (fun q hq => List.mem_append_right _ hq) (greedy_spans base as s h)
        · refine .step (List.mem_append_left _ (List.mem_map.mpr ⟨s, List.mem_filter.mpr ⟨hs, ?_⟩, rfl⟩))
          simpa using hb s h
      · exact .step (List.mem_append_right _ (List.mem_append_right _ hq))
  simpa using this

/-- a list with no more entries above each threshold has no larger sum -/
theorem sum_le_of_threshold {l m : List Nat}
    (h : ∀ t, (l.filter fun x => decide (t < x)).length ≤ (m.filter fun x => decide (t < x)).length) : l.sum ≤ m.sum := by
  have one : ∀ (N : Nat) (l : List Nat), (l.map (min (N + 1))).sum =
      (l.map (min N)).sum + (l.filter fun x => decide (N < x)).length := by
    intro N l
    induction l with
    | nil => rfl
    | cons x l ih =>
      rw [List.map_cons, List.sum_cons, ih, List.map_cons, List.sum_cons, List.filter_cons]
      by_cases h : N < x
      · rw [if_pos (by simpa using h), List.length_cons]; omega
      · rw [if_neg (by simpa using h)]; omega
  have upTo : ∀ N, (l.map (min N)).sum ≤ (m.map (min N)).sum := by
    intro N
    induction N with
    | zero =>
      have : ∀ l : List Nat, (l.map (min 0)).sum = 0 := by
        intro l
        induction l with
        | nil => rfl
        | cons x l ih => rw [List.map_cons, List.sum_cons, ih]; omega
      exact Nat.le_of_eq ((this l).trans (this m).symm)
    | succ N ih =>
      have := h N
      rw [one, one]; omega
  have whole : ∀ (l : List Nat) (N : Nat), l.sum ≤ N → (l.map (min N)).sum = l.sum := by
    intro l
    induction l with
    | nil => intros; rfl
    | cons x l ih =>
      intro N hN
      rw [List.sum_cons] at hN
      rw [List.map_cons, List.sum_cons, List.sum_cons, ih N (by omega)]; omega
  have := upTo (l.sum + m.sum)
  rwa [whole l _ (by omega), whole m _ (by omega)] at this

end

/-! ### the program -/

section
variable {T E : Type} [DecidableEq T] [Cfg] {ends : E → T × T}

omit [Cfg] in
theorem card_le {l m : List T} (h : ∀ x ∈ l, x ∈ m) : l.dedup.length ≤ m.dedup.length :=
  ((List.nodup_dedup l).subperm fun x hx => List.mem_dedup.mpr (h x (List.mem_dedup.mp hx))).length_le

/-- the program picks greedily -/
theorem pick_ok {stack : Nat} (hk : 64 ≤ stack) {all : List T} (hall : all.dedup.length ≤ usizeMax) (es : List E)
    {s : DSet T} {a : Abs T} (r : Rel s a) (ha : ∀ x ∈ a.elems, x ∈ all)
    (he : ∀ e ∈ es, (ends e).1 ∈ all ∧ (ends e).2 ∈ all)
    (hloop : ∀ e ∈ es, (ends e).1 = (ends e).2 → (ends e).1 ∈ a.elems) :
    ∃ s' a', pick stack ends es s = (.ok (greedy ends a.pairs es), s') ∧ Rel s' a' ∧
      a'.pairs = ((greedy ends a.pairs es).map ends).reverse ++ a.pairs ∧
      ∀ x, x ∈ a'.elems ↔ x ∈ a.elems ∨ ∃ e ∈ es, x = (ends e).1 ∨ x = (ends e).2 := by
  induction es generalizing s a with
  | nil => exact ⟨s, a, rfl, r, rfl, fun x => by simp⟩
  | cons e es ih =>
    obtain ⟨m1, m2⟩ := he e List.mem_cons_self
    have hcard : a.card ≤ usizeMax := Nat.le_trans (card_le ha) hall
    have hlen : s.ids.len < 2 ^ stack := by rw [r.card]; exact lt_two_pow hcard hk
    obtain ⟨b, s1, h1, h2, h3⟩ := inUnion_ok r hlen (ends e).1 (ends e).2
    have r1 : Rel s1 a := h2.rel r
    have same : a.Same (ends e).1 (ends e).2 ↔ Conn a.pairs (ends e).1 (ends e).2 := by
      refine ⟨fun h => h.2.2, fun h => ?_⟩
      rcases conn_support r.pairs h with h' | ⟨h', h''⟩
      · have := hloop e List.mem_cons_self h'
        exact ⟨this, h' ▸ this, h⟩
      · exact ⟨h', h'', h⟩
    have run : pick stack ends (e :: es) s = (if b then pick stack ends es else do
        DSet.union stack (ends e).1 (ends e).2 false false
        let picked ← pick stack ends es
        pure (e :: picked)) s1 := by
      change (DSet.inUnion stack _ _ false false >>= _) s = _
      rw [M.bind_ok h1]
    cases b with
    | true =>
      have hc := same.mp (h3.mp rfl)
      obtain ⟨s', a', i1, i2, i3, i4⟩ := ih r1 ha (fun x hx => he x (List.mem_cons_of_mem _ hx))
        (fun x hx => hloop x (List.mem_cons_of_mem _ hx))
      have hs := h3.mp rfl
      refine ⟨s', a', ?_, i2, by rw [greedy_pos _ hc, i3], fun x => ?_⟩
      · rw [run, greedy_pos _ hc, if_pos rfl, i1]
      · rw [i4]
        constructor
        · rintro (h | ⟨f, hf, h⟩)
          · exact .inl h
          · exact .inr ⟨f, List.mem_cons_of_mem _ hf, h⟩
        · rintro (h | ⟨f, hf, h⟩)
          · exact .inl h
          · rcases List.mem_cons.mp hf with rfl | hf
            · rcases h with rfl | rfl
              · exact .inl hs.1
              · exact .inl hs.2.1
            · exact .inr ⟨f, hf, h⟩
    | false =>
      have hc : ¬ Conn a.pairs (ends e).1 (ends e).2 := fun h => by simpa using h3.mpr (same.mpr h)
      set a1 := a.step (.union (ends e).1 (ends e).2 false false) with ha1
      have el : a1.elems = (ends e).2 :: (ends e).1 :: a.elems := by rw [ha1]; simp [Abs.step]
      have pa : a1.pairs = ends e :: a.pairs := by rw [ha1]; simp [Abs.step]
      have sub : ∀ x ∈ a1.elems, x ∈ all := by
        intro x hx
        rw [el] at hx
        simp only [List.mem_cons] at hx
        rcases hx with rfl | rfl | hx
        · exact m2
        · exact m1
        · exact ha x hx
      have hc1 : a1.card ≤ usizeMax := Nat.le_trans (card_le sub) hall
      obtain ⟨out, s2, g1, g2, g3⟩ := step_ok r1 (.union (ends e).1 (ends e).2 false false) hc1 (lt_two_pow hc1 hk)
      have g4 : DSet.union stack (ends e).1 (ends e).2 false false s1 = (.ok (), s2) := by
        have : out = .ok .unit := g3
        rw [this] at g1
        change wrap _ (DSet.union stack _ _ false false) s1 = _ at g1
        unfold wrap at g1
        generalize DSet.union stack (ends e).1 (ends e).2 false false s1 = q at g1 ⊢
        obtain ⟨r, t⟩ := q
        cases r with
        | error f => cases g1
        | ok u => cases g1; rfl
      obtain ⟨s', a', i1, i2, i3, i4⟩ := ih g2 sub (fun x hx => he x (List.mem_cons_of_mem _ hx))
        (fun x hx h => by rw [el]; exact List.mem_cons_of_mem _ (List.mem_cons_of_mem _ (hloop x (List.mem_cons_of_mem _ hx) h)))
      rw [pa] at i1 i3
      refine ⟨s', a', ?_, i2, by rw [greedy_neg _ hc, i3]; simp, fun x => ?_⟩
      · rw [run, greedy_neg _ hc]
        change (DSet.union stack _ _ false false >>= fun _ => pick stack ends es >>= _) s1 = _
        rw [M.bind_ok g4, M.bind_ok i1]
        rfl
      · rw [i4, el]
        simp only [List.mem_cons]
        constructor
        · rintro ((h | h | h) | ⟨f, hf, h⟩)
          · exact .inr ⟨e, .inl rfl, .inr h⟩
          · exact .inr ⟨e, .inl rfl, .inl h⟩
          · exact .inl h
          · exact .inr ⟨f, .inr hf, h⟩
        · rintro (h | ⟨f, rfl | hf, h⟩)
          · exact .inl (.inr (.inr h))
          · tauto
          · exact .inr ⟨f, hf, h⟩

/-- the program on a reached disjoint set -/
theorem Reached.picked {k : Nat} {st : Start T} {ops : List (Op T)} {s : DSet T} {a : Abs T} {edges : List E}
    (h : Reached k st ops s a) (small : (a.elems ++ allEnds ends edges).dedup.length ≤ usizeMax)
    (hloop : ∀ e ∈ edges, (ends e).1 = (ends e).2 → (ends e).1 ∈ a.elems) :
    ∃ s' a', pick k ends edges s = (.ok (greedy ends a.pairs edges), s') ∧ Rel s' a' ∧
      a'.pairs = ((greedy ends a.pairs edges).map ends).reverse ++ a.pairs ∧
      ∀ x, x ∈ a'.elems ↔ x ∈ a.elems ++ allEnds ends edges := by
  have hends : ∀ x, x ∈ allEnds ends edges ↔ ∃ e ∈ edges, x = (ends e).1 ∨ x = (ends e).2 := by
    intro x
    rw [allEnds, List.mem_flatMap]
    simp only [List.mem_cons, List.not_mem_nil, or_false]
  obtain ⟨s', a', h1, h2, h3, h4⟩ := pick_ok h.stack_ge small edges h.rel (fun x hx => List.mem_append_left _ hx)
    (fun e he => ⟨List.mem_append_right _ ((hends _).mpr ⟨e, he, .inl rfl⟩),
      List.mem_append_right _ ((hends _).mpr ⟨e, he, .inr rfl⟩)⟩) hloop
  exact ⟨s', a', h1, h2, h3, fun x => by rw [h4, List.mem_append, hends]⟩

end
end DS
