import Verif.DS.SpecBottleneck
import Verif.DS.PropsForest
/-!
# C121: when two elements become connected
-/

open Rust
namespace DS

section
variable {T E : Type} [DecidableEq T] {ends : E → T × T}

/-! ## helper lemmas -/

section
variable [Cfg]

theorem bottleneck_union {stack : Nat} (hk : 64 ≤ stack) {s : DSet T} {a : Abs T} (r : Rel s a) (p : T × T)
    (hc : (a.step (.union p.1 p.2 false false)).card ≤ usizeMax) :
    ∃ s', DSet.union stack p.1 p.2 false false s = (.ok (), s') ∧ Rel s' (a.step (.union p.1 p.2 false false)) := by
  obtain ⟨out, s2, g1, g2, g3⟩ := step_ok r (.union p.1 p.2 false false) hc (lt_two_pow hc hk)
  refine ⟨s2, ?_, g2⟩
  have : out = .ok .unit := g3
  rw [this] at g1
  change wrap _ (DSet.union stack _ _ false false) s = _ at g1
  unfold wrap at g1
  generalize DSet.union stack p.1 p.2 false false s = q at g1 ⊢
  obtain ⟨r, t⟩ := q
  cases r with
  | error f => cases g1
  | ok u => cases g1; rfl

/-- the edges up to the one that connects -/
theorem connects_ok {stack : Nat} (hk : 64 ≤ stack) {all : List T} (hall : all.dedup.length ≤ usizeMax) {x y : T}
    (es : List E) : ∀ {s : DSet T} {a : Abs T}, Rel s a → (∀ z ∈ a.elems, z ∈ all) →
      (∀ e ∈ es, (ends e).1 ∈ all ∧ (ends e).2 ∈ all) → ¬ Conn a.pairs x y →
      ∃ s', (∃ pre e post, connects stack ends x y es s = (.ok (some e), s') ∧ es = pre ++ e :: post ∧
          ¬ Conn (pre.map ends ++ a.pairs) x y ∧ Conn (pre.map ends ++ ends e :: a.pairs) x y) ∨
        (connects stack ends x y es s = (.ok none, s') ∧ ¬ Conn (es.map ends ++ a.pairs) x y) := by
  induction es with
  | nil => intro s a _ _ _ hn; exact ⟨s, .inr ⟨rfl, hn⟩⟩
  | cons e es ih =>
    intro s a r ha he hn
    obtain ⟨m1, m2⟩ := he e List.mem_cons_self
    set a1 := a.step (.union (ends e).1 (ends e).2 false false) with ha1
    have el : a1.elems = (ends e).2 :: (ends e).1 :: a.elems := by rw [ha1]; simp [Abs.step]
    have pa : a1.pairs = ends e :: a.pairs := by rw [ha1]; simp [Abs.step]
    have sub : ∀ z ∈ a1.elems, z ∈ all := by
      intro z hz
      rw [el] at hz
      simp only [List.mem_cons] at hz
      rcases hz with rfl | rfl | hz
      · exact m2
      · exact m1
      · exact ha z hz
    have hc1 : a1.card ≤ usizeMax := Nat.le_trans (card_le sub) hall
    obtain ⟨s1, h1, r1⟩ := bottleneck_union hk r (ends e) hc1
    have hlen : s1.ids.len < 2 ^ stack := by rw [r1.card]; exact lt_two_pow hc1 hk
    obtain ⟨b, s2, g1, g2, g3⟩ := inUnion_ok r1 hlen x y
    have same : a1.Same x y ↔ Conn (ends e :: a.pairs) x y := by
      rw [← pa]
      refine ⟨fun h => h.2.2, fun h => ?_⟩
      rcases conn_support r1.pairs h with h' | ⟨h', h''⟩
      · exact absurd (h' ▸ .refl x) hn
      · exact ⟨h', h'', h⟩
    have hrun : connects stack ends x y (e :: es) s
        = (if b then pure (some e) else connects stack ends x y es : M (DSet T) (Option E)) s2 := by
      show (DSet.union stack _ _ false false >>= fun _ => DSet.inUnion stack x y false false >>= _) s = _
      rw [M.bind_ok h1, M.bind_ok g1]
    cases b with
    | true => exact ⟨s2, .inl ⟨[], e, es, hrun, rfl, hn, same.mp (g3.mp rfl)⟩⟩
    | false =>
      have hn1 : ¬ Conn a1.pairs x y := fun h => by
        rw [pa] at h
        cases g3.mpr (same.mpr h)
      have perm : ∀ (l : List (T × T)) (u v : T), Conn (l ++ a1.pairs) u v ↔ Conn (ends e :: l ++ a.pairs) u v := by
        intro l u v
        rw [pa]
        constructor <;> refine conn_mono fun q hq => ?_ <;>
        · simp only [List.mem_append, List.mem_cons, List.cons_append] at hq ⊢
          rcases hq with h | h | h <;> simp [h]
      obtain ⟨s', h⟩ := ih (g2.rel r1) sub (fun f hf => he f (List.mem_cons_of_mem _ hf)) hn1
      refine ⟨s', h.imp ?_ ?_⟩
      · rintro ⟨pre, f, post, k1, k2, k3, k4⟩
        refine ⟨e :: pre, f, post, hrun.trans k1, by rw [k2]; rfl, ?_, ?_⟩
        · rw [List.map_cons, ← perm]; exact k3
        · refine conn_mono (fun q hq => ?_) k4
          rw [pa] at hq
          simp only [List.map_cons, List.mem_append, List.mem_cons, List.cons_append] at hq ⊢
          rcases hq with h | h | h | h <;> simp [h]
      · rintro ⟨k1, k2⟩
        refine ⟨hrun.trans k1, ?_⟩
        rw [List.map_cons, ← perm]; exact k2

end

/-! ## the property -/

variable [Cfg] {k : Nat} {st : Start T} {ops : List (Op T)} {s : DSet T} {a : Abs T} {edges : List E} {W : Type}
  [LinearOrder W] {weight : E → W}

/-- **C121 (the bottleneck).** If the edges come in the order of their weights, the edge found has the least weight `t` such
that edges of weight at most `t` connect `x` with `y` (together with what was connected before); and an edge is found if all
edges together connect them. -/
theorem c121_bottleneck (h : Reached k st ops s a) (small : (a.elems ++ allEnds ends edges).dedup.length ≤ usizeMax)
    (hsort : edges.Pairwise fun e f => weight e ≤ weight f) {x y : T} (hn : ¬ Conn a.pairs x y) :
    ∃ r s', connects k ends x y edges s = (.ok r, s') ∧ (r = none ↔ ¬ Conn (edges.map ends ++ a.pairs) x y) ∧
      ∀ e, r = some e → e ∈ edges ∧
        Conn ((edges.filter fun f => decide (weight f ≤ weight e)).map ends ++ a.pairs) x y ∧
        ∀ t, t < weight e → ¬ Conn ((edges.filter fun f => decide (weight f ≤ t)).map ends ++ a.pairs) x y := by
  have hends : ∀ e ∈ edges, (ends e).1 ∈ a.elems ++ allEnds ends edges ∧ (ends e).2 ∈ a.elems ++ allEnds ends edges := by
    intro e he
    constructor <;>
    · refine List.mem_append_right _ (List.mem_flatMap.mpr ⟨e, he, ?_⟩)
      simp
  obtain ⟨s', h1 | h1⟩ := connects_ok h.stack_ge small (x := x) (y := y) edges h.rel
    (fun z hz => List.mem_append_left _ hz) hends hn
  · obtain ⟨pre, e, post, h2, h3, h4, h5⟩ := h1
    have hp := hsort
    rw [h3, List.pairwise_append, List.pairwise_cons] at hp
    obtain ⟨_, ⟨p1, _⟩, p2⟩ := hp
    refine ⟨some e, s', h2, ⟨fun h => (by cases h), fun h => absurd ?_ h⟩, fun f hf => ?_⟩
    · refine conn_mono (fun q hq => ?_) h5
      rw [h3]
      simp only [List.map_append, List.map_cons, List.mem_append, List.mem_cons] at hq ⊢
      rcases hq with h | h | h <;> simp [h]
    · cases hf
      refine ⟨by rw [h3]; simp, conn_mono (fun q hq => ?_) h5, fun t ht hc => h4 (conn_mono (fun q hq => ?_) hc)⟩
      · rcases List.mem_append.mp hq with hq | hq
        · obtain ⟨f, hf, rfl⟩ := List.mem_map.mp hq
          refine List.mem_append_left _ (List.mem_map_of_mem (List.mem_filter.mpr ⟨by rw [h3]; simp [hf], ?_⟩))
          exact decide_eq_true (p2 f hf e List.mem_cons_self)
        · rcases List.mem_cons.mp hq with rfl | hq
          · refine List.mem_append_left _ (List.mem_map_of_mem (List.mem_filter.mpr ⟨by rw [h3]; simp, ?_⟩))
            exact decide_eq_true (le_refl _)
          · exact List.mem_append_right _ hq
      · rcases List.mem_append.mp hq with hq | hq
        · obtain ⟨f, hf, rfl⟩ := List.mem_map.mp hq
          obtain ⟨f1, f2⟩ := List.mem_filter.mp hf
          have f2 : weight f ≤ t := of_decide_eq_true f2
          rw [h3] at f1
          rcases List.mem_append.mp f1 with f1 | f1
          · exact List.mem_append_left _ (List.mem_map_of_mem f1)
          · rcases List.mem_cons.mp f1 with rfl | f1
            · exact absurd f2 (not_le.mpr ht)
            · exact absurd ((p1 f f1).trans f2) (not_le.mpr ht)
        · exact List.mem_append_right _ hq
  · exact ⟨none, s', h1.1, ⟨fun _ => h1.2, fun _ => rfl⟩, fun e he => by cases he⟩

/-- **C121 (forests keep bottlenecks).** The edges picked in the order of their weights (C105) connect, with their edges of
weight at most `t`, what all edges of weight at most `t` connect, for every `t`. So the forest has a best way between any two
elements. -/
theorem c121_forest_keeps (h : Reached k st ops s a) (small : (a.elems ++ allEnds ends edges).dedup.length ≤ usizeMax)
    (hloop : ∀ e ∈ edges, (ends e).1 = (ends e).2 → (ends e).1 ∈ a.elems)
    (hsort : edges.Pairwise fun e f => weight e ≤ weight f) {picked : List E}
    (hp : (pick k ends edges s).1 = .ok picked) (t : W) (x y : T) :
    Conn ((picked.filter fun e => decide (weight e ≤ t)).map ends ++ a.pairs) x y ↔
      Conn ((edges.filter fun e => decide (weight e ≤ t)).map ends ++ a.pairs) x y := by
  obtain ⟨s', a', h1, _⟩ := h.picked small hloop
  rw [h1] at hp; cases hp
  obtain ⟨as, bs, rfl, hl, hh⟩ := sorted_split weight t hsort
  rw [greedy_append, List.filter_append, List.filter_append]
  have light : ∀ {l : List E}, (∀ e ∈ l, weight e ≤ t) → l.filter (fun e => decide (weight e ≤ t)) = l :=
    fun hl => List.filter_eq_self.mpr fun e he => decide_eq_true (hl e he)
  have heavy : ∀ {l : List E}, (∀ e ∈ l, t < weight e) → l.filter (fun e => decide (weight e ≤ t)) = [] :=
    fun hl => List.filter_eq_nil_iff.mpr fun e he => by simpa using hl e he
  rw [light hl, heavy hh, light fun e he => hl e ((greedy_sublist _ _).subset he),
    heavy fun e he => hh e ((greedy_sublist _ _).subset he), List.append_nil, List.append_nil]
  constructor
  · refine conn_mono fun q hq => ?_
    rcases List.mem_append.mp hq with hq | hq
    · exact List.mem_append_left _ (((greedy_sublist _ _).map ends).subset hq)
    · exact List.mem_append_right _ hq
  · refine conn_bind fun q hq => ?_
    rcases List.mem_append.mp hq with hq | hq
    · obtain ⟨e, he, rfl⟩ := List.mem_map.mp hq
      exact greedy_spans _ _ e he
    · exact .step (List.mem_append_right _ hq)

end

open Demo in
example : Reached 64 (.new : Start Nat) [] DSet.new Abs.new ∧
    ((Abs.new : Abs Nat).elems ++ allEnds roadEnds roads).dedup.length ≤ usizeMax ∧
    (roads.Pairwise fun e f => e.2.2 ≤ f.2.2) ∧ ¬ Conn (Abs.new : Abs Nat).pairs 1 4 ∧
    (connects 64 roadEnds 1 4 roads DSet.new).1.toOption = some (some (3, 4, 20)) ∧
    (connects 64 roadEnds 1 3 roads DSet.new).1.toOption = some (some (2, 3, 11)) ∧
    (connects 64 roadEnds 1 5 roads DSet.new).1.toOption = some none :=
  ⟨roads_reached, by decide +kernel, by decide,
    fun h => by rcases conn_support (es := []) (fun p hp => by cases hp) h with h | h <;> simp at h,
    by decide +kernel, by decide +kernel, by decide +kernel⟩
open Demo in
example : (pick 64 roadEnds roads DSet.new).1.toOption = some [(1, 2, 10), (2, 3, 11), (3, 4, 20)] ∧
    (roads.filter fun e => decide (e.2.2 ≤ 15)) = [(1, 2, 10), (2, 3, 11), (1, 3, 15)] ∧
    Conn ((roads.filter fun e => decide (e.2.2 ≤ 15)).map roadEnds ++ []) 1 3 :=
  ⟨by decide +kernel, by decide, .step (by decide)⟩

end DS
