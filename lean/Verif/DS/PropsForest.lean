import Verif.DS.LemmasForest
import Verif.DS.Props
/-!
# C105: spanning forests picked with a disjoint set
-/

open Rust
namespace DS

section
variable {T E : Type} [DecidableEq T] [Cfg] {ends : E → T × T} {k : Nat} {st : Start T} {ops : List (Op T)} {s : DSet T}
  {a : Abs T} {edges : List E}

/-- **C105 (a forest).** Picking never panics. The picked edges connect what all edges connect (together with what was
connected before), and each of them is needed for that: without it its ends are not connected. Afterwards `in_union` tells
what the edges connect. -/
theorem c105_forest (h : Reached k st ops s a)
    (small : (a.elems ++ allEnds ends edges).dedup.length ≤ usizeMax)
    (hloop : ∀ e ∈ edges, (ends e).1 = (ends e).2 → (ends e).1 ∈ a.elems) :
    ∃ picked s', pick k ends edges s = (.ok picked, s') ∧ picked.Sublist edges ∧
      (∀ x y, Conn (picked.map ends ++ a.pairs) x y ↔ Conn (edges.map ends ++ a.pairs) x y) ∧
      (∀ pre e post, picked = pre ++ e :: post →
        ¬ Conn (pre.map ends ++ post.map ends ++ a.pairs) (ends e).1 (ends e).2) ∧
      ∀ x y, ∃ b, (DSet.inUnion k x y false false s').1 = .ok b ∧
        (b = true ↔ x ∈ a.elems ++ allEnds ends edges ∧ y ∈ a.elems ++ allEnds ends edges ∧
          Conn (edges.map ends ++ a.pairs) x y) := by
  obtain ⟨s', a', h1, h2, h3, elems⟩ := h.picked small hloop
  have conn : ∀ x y, Conn ((greedy ends a.pairs edges).map ends ++ a.pairs) x y ↔ Conn (edges.map ends ++ a.pairs) x y := by
    intro x y
    constructor
    · refine conn_mono fun q hq => ?_
      rcases List.mem_append.mp hq with hq | hq
      · exact List.mem_append_left _ (((greedy_sublist _ _).map ends).subset hq)
      · exact List.mem_append_right _ hq
    · refine conn_bind fun q hq => ?_
      rcases List.mem_append.mp hq with hq | hq
      · obtain ⟨e, he, rfl⟩ := List.mem_map.mp hq
        exact greedy_spans _ _ e he
      · exact .step (List.mem_append_right _ hq)
  refine ⟨_, s', h1, greedy_sublist _ _, conn, ?_, ?_⟩
  · intro pre e post hp
    have := greedy_indep (ends := ends) a.pairs edges
    rw [hp, List.map_append, List.map_cons] at this
    exact this.irredundant
  · intro x y
    have hc : s'.ids.len < 2 ^ k := by
      rw [h2.card]
      exact lt_two_pow ((card_le fun x hx => (elems x).mp hx).trans small) h.stack_ge
    obtain ⟨b, s'', g1, _, g2⟩ := inUnion_ok (stack := k) h2 hc x y
    refine ⟨b, by rw [g1], ?_⟩
    rw [g2, Abs.Same, elems, elems, ← conn, h3]
    have hp : Conn (((greedy ends a.pairs edges).map ends).reverse ++ a.pairs) x y ↔
        Conn ((greedy ends a.pairs edges).map ends ++ a.pairs) x y := by
      constructor <;> exact conn_mono fun q hq => by simpa using hq
    rw [hp]

/-- **C105 (the fewest edges).** No selection of edges that connects the same has fewer edges. -/
theorem c105_fewest (h : Reached k st ops s a)
    (small : (a.elems ++ allEnds ends edges).dedup.length ≤ usizeMax)
    (hloop : ∀ e ∈ edges, (ends e).1 = (ends e).2 → (ends e).1 ∈ a.elems) {picked other : List E}
    (hp : (pick k ends edges s).1 = .ok picked)
    (hs : ∀ e ∈ edges, Conn (other.map ends ++ a.pairs) (ends e).1 (ends e).2) :
    picked.length ≤ other.length := by
  obtain ⟨s', a', h1, _⟩ := h.picked small hloop
  rw [h1] at hp; cases hp
  have := (greedy_indep (ends := ends) a.pairs edges).length_le (ss := other.map ends) fun p hp => by
    obtain ⟨e, he, rfl⟩ := List.mem_map.mp hp
    exact hs e ((greedy_sublist _ _).subset he)
  simpa using this

/-- **C105 (Kruskal's algorithm).** If the edges come in the order of their weights, then for every weight `t` no selection
of edges that connects the same has fewer edges heavier than `t`. -/
theorem c105_lightest {W : Type} [LinearOrder W] {weight : E → W} (h : Reached k st ops s a)
    (small : (a.elems ++ allEnds ends edges).dedup.length ≤ usizeMax)
    (hloop : ∀ e ∈ edges, (ends e).1 = (ends e).2 → (ends e).1 ∈ a.elems)
    (hsort : edges.Pairwise fun e f => weight e ≤ weight f) {picked other : List E}
    (hp : (pick k ends edges s).1 = .ok picked) (ho : ∀ e ∈ other, e ∈ edges)
    (hs : ∀ e ∈ edges, Conn (other.map ends ++ a.pairs) (ends e).1 (ends e).2) (t : W) :
    (picked.filter fun e => decide (t < weight e)).length ≤ (other.filter fun e => decide (t < weight e)).length := by
  obtain ⟨s', a', h1, _⟩ := h.picked small hloop
  rw [h1] at hp; cases hp
  exact greedy_threshold hsort ho hs t

/-- **C105 (Kruskal's algorithm).** So the picked edges have the least total weight. -/
theorem c105_least_weight {weight : E → Nat} (h : Reached k st ops s a)
    (small : (a.elems ++ allEnds ends edges).dedup.length ≤ usizeMax)
    (hloop : ∀ e ∈ edges, (ends e).1 = (ends e).2 → (ends e).1 ∈ a.elems)
    (hsort : edges.Pairwise fun e f => weight e ≤ weight f) {picked other : List E}
    (hp : (pick k ends edges s).1 = .ok picked) (ho : ∀ e ∈ other, e ∈ edges)
    (hs : ∀ e ∈ edges, Conn (other.map ends ++ a.pairs) (ends e).1 (ends e).2) :
    (picked.map weight).sum ≤ (other.map weight).sum := by
  refine sum_le_of_threshold fun t => ?_
  have := c105_lightest h small hloop hsort hp ho hs t
  rw [List.filter_map, List.filter_map, List.length_map, List.length_map]
  exact this

/-- **C105 (loops).** An edge from an element to itself is picked, though it connects nothing, if the element was not added
before: `in_union` is false of an unknown element and itself. -/
theorem c105_loop_is_picked (h : Reached k st ops s a) {e : E} {x : T} (he : ends e = (x, x)) (hx : x ∉ a.elems)
    (small : (x :: a.elems).dedup.length ≤ usizeMax) :
    (pick k ends [e] s).1 = .ok [e] := by
  have hk := h.stack_ge
  have hlen : s.ids.len < 2 ^ k := by rw [h.rel.card]; exact lt_two_pow h.small_now hk
  obtain ⟨b, s1, h1, h2, h3⟩ := inUnion_ok h.rel hlen x x
  have hb : b = false := by
    rw [← Bool.not_eq_true, h3]
    exact fun hs => hx hs.1
  subst hb
  have hc : (a.step (.union x x false false)).card ≤ usizeMax := by
    refine (card_le (m := x :: a.elems) fun y hy => ?_).trans small
    have : (a.step (.union x x false false)).elems = x :: x :: a.elems := by simp [Abs.step]
    rw [this] at hy
    simp only [List.mem_cons] at hy ⊢
    tauto
  obtain ⟨out, s2, g1, _, g3⟩ := step_ok (h2.rel h.rel) (.union x x false false) hc (lt_two_pow hc hk)
  have g4 : DSet.union k x x false false s1 = (.ok (), s2) := by
    have : out = .ok .unit := g3
    rw [this] at g1
    change wrap _ (DSet.union k _ _ false false) s1 = _ at g1
    unfold wrap at g1
    generalize DSet.union k x x false false s1 = q at g1 ⊢
    obtain ⟨r, t⟩ := q
    cases r with
    | error f => cases g1
    | ok u => cases g1; rfl
  unfold pick
  rw [he, M.bind_ok h1]
  simp only [Bool.false_eq_true, if_false]
  rw [M.bind_ok g4]
  rfl

end

namespace Demo

/-- edges with weights: a triangle and a bridge, and a second, heavier edge beside the bridge -/
def roads : List (Nat × Nat × Nat) := [(1, 2, 10), (2, 3, 11), (1, 3, 15), (3, 4, 20), (4, 3, 30)]
/-- the ends of an edge -/
def roadEnds (e : Nat × Nat × Nat) : Nat × Nat := (e.1, e.2.1)
/-- another way to connect the same -/
def detour : List (Nat × Nat × Nat) := [(1, 3, 15), (2, 3, 11), (4, 3, 30)]

theorem roads_reached : Reached 64 (.new : Start Nat) [] DSet.new Abs.new :=
  ⟨by decide, fun pre hp => by rw [List.prefix_nil.mp hp]; exact Nat.zero_le _, ⟨_, rfl, rfl⟩, rfl⟩

theorem detour_spans : ∀ e ∈ roads, Conn (detour.map roadEnds ++ []) (roadEnds e).1 (roadEnds e).2 := by
  have h13 : Conn (detour.map roadEnds ++ []) 1 3 := .step (by decide)
  have h23 : Conn (detour.map roadEnds ++ []) 2 3 := .step (by decide)
  have h43 : Conn (detour.map roadEnds ++ []) 4 3 := .step (by decide)
  intro e he
  simp only [roads, List.mem_cons, List.not_mem_nil, or_false] at he
  rcases he with rfl | rfl | rfl | rfl | rfl
  · exact h13.trans h23.symm
  · exact h23
  · exact h13
  · exact h43.symm
  · exact h43

end Demo

open Demo in
example : Reached 64 (.new : Start Nat) [] DSet.new Abs.new ∧
    ((Abs.new : Abs Nat).elems ++ allEnds roadEnds roads).dedup.length ≤ usizeMax ∧
    (∀ e ∈ roads, (roadEnds e).1 = (roadEnds e).2 → (roadEnds e).1 ∈ (Abs.new : Abs Nat).elems) ∧
    (pick 64 roadEnds roads DSet.new).1.toOption = some [(1, 2, 10), (2, 3, 11), (3, 4, 20)] :=
  ⟨roads_reached, by decide +kernel, by decide, by decide +kernel⟩
open Demo in
example : (roads.Pairwise fun e f => e.2.2 ≤ f.2.2) ∧ (∀ e ∈ detour, e ∈ roads) ∧
    (∀ e ∈ roads, Conn (detour.map roadEnds ++ []) (roadEnds e).1 (roadEnds e).2) ∧ (detour.map (·.2.2)).sum = 56 :=
  ⟨by decide, by decide, detour_spans, rfl⟩
open Demo in
example : (1 : Nat) ∉ (Abs.new : Abs Nat).elems ∧ (1 :: (Abs.new : Abs Nat).elems).dedup.length ≤ usizeMax ∧
    (pick 64 roadEnds [(1, 1, 5)] DSet.new).1.toOption = some [(1, 1, 5)] :=
  ⟨by decide, by decide +kernel, by decide +kernel⟩

end DS
