import Verif.DS.Alike
/-!
# C87: a disjoint set is what `in_union` says it is
-/

open Rust
namespace DS

section
variable {T : Type} [DecidableEq T] [Cfg]

/-- C87: two disjoint sets, made in whatever ways, that answer every `contains` and every `in_union` alike answer
every later history of calls alike: `clear`, further unions, panicking keys and all. Only the order in which
iteration lists groups and elements may differ. -/
theorem c87_indistinguishable {k k' : Nat} {st st' : Start T} {ops ops' : List (Op T)} {s s' : DSet T}
    {a a' : Abs T} (h : Reached k st ops s a) (h' : Reached k' st' ops' s' a')
    (hc : ∀ x, (DSet.contains x false s).1 = .ok true ↔ (DSet.contains x false s').1 = .ok true)
    (hu : ∀ x y, (DSet.inUnion k x y false false s).1 = .ok true ↔
      (DSet.inUnion k' x y false false s').1 = .ok true)
    (later : List (Op T)) (hm : ∀ pre, pre <+: later → (a.run pre).card ≤ usizeMax) :
    List.Forall₂ Alike (run k later s).1 (run k' later s').1 := by
  have e := h.eqv h' hc hu
  exact answers_alike e later (run_ok h.stack_ge h.rel later hm).2
    (run_ok h'.stack_ge h'.rel later (fun pre hp => by rw [← (run_alike e pre).card]; exact hm pre hp)).2

/-- C87: `in_union` alone tells all there is to know: an element is present iff it is in union with itself. -/
theorem c87_in_union_tells_all {k k' : Nat} {st st' : Start T} {ops ops' : List (Op T)} {s s' : DSet T}
    {a a' : Abs T} (h : Reached k st ops s a) (h' : Reached k' st' ops' s' a') :
    (∀ x, (DSet.contains x false s).1 = .ok true ↔ (DSet.inUnion k x x false false s).1 = .ok true) ∧
    ((∀ x y, (DSet.inUnion k x y false false s).1 = .ok true ↔
        (DSet.inUnion k' x y false false s').1 = .ok true) ↔
      ∀ later, (∀ pre, pre <+: later → (a.run pre).card ≤ usizeMax) →
        List.Forall₂ Alike (run k later s).1 (run k' later s').1) := by
  have self : ∀ {k : Nat} {st : Start T} {ops : List (Op T)} {s : DSet T} {a : Abs T}, Reached k st ops s a →
      ∀ x, Has s x ↔ Together k s x x := by
    intro k st ops s a h x
    rw [h.has, h.together]
    exact ⟨fun hx => ⟨hx, hx, .refl _⟩, fun hx => hx.1⟩
  refine ⟨self h, fun hu later hm => ?_, fun hl x y => ?_⟩
  · refine c87_indistinguishable h h' (fun x => ?_) hu later hm
    exact (self h x).trans ((hu x x).trans (self h' x).symm)
  · have := hl [.inUnion x y false false] (fun pre hp => by
      rcases List.prefix_cons_iff.mp hp with rfl | ⟨t, rfl, ht⟩
      · exact h.small_now
      · rw [List.prefix_nil.mp ht]; exact h.small_now)
    obtain ⟨b, hb, _⟩ := c56_in_union h x y
    obtain ⟨b', hb', _⟩ := c56_in_union h' x y
    have e : Alike (T := T) (.ok (.bool b)) (.ok (.bool b')) := by
      have h1 : (step k (.inUnion x y false false) s).1 = .ok (Out.bool b) := by
        simp only [step, wrap]
        generalize DSet.inUnion k x y false false s = r at hb
        obtain ⟨r1, r2⟩ := r
        subst hb; rfl
      have h2 : (step k' (.inUnion x y false false) s').1 = .ok (Out.bool b') := by
        simp only [step, wrap]
        generalize DSet.inUnion k' x y false false s' = r at hb'
        obtain ⟨r1, r2⟩ := r
        subst hb'; rfl
      simp only [run, List.forall₂_cons] at this
      rw [h1, h2] at this
      exact this.1
    have : b = b' := by cases e; rfl
    rw [hb, hb', this]

end

namespace Demo
/-- the same partition as `demoEnd`, made another way -/
def otherOps : List (Op Nat) :=
  [.makeSet 9 false, .clear, .union 4 3 false false, .extend 0 false [7, 6, 5] false, .union 3 2 false false,
   .union 1 3 false false]
/-- what that history leaves -/
def otherEnd : DSet Nat := ⟨⟨[(1, 6), (2, 5), (5, 4), (6, 3), (7, 2), (3, 1), (4, 0)]⟩,
  [⟨0, 1⟩, ⟨0, 0⟩, ⟨2, 0⟩, ⟨3, 0⟩, ⟨4, 0⟩, ⟨0, 0⟩, ⟨0, 0⟩]⟩
theorem otherEnd_made : run 64 otherOps DSet.new =
    ([.ok .unit, .ok .unit, .ok .unit, .ok .unit, .ok .unit, .ok .unit], otherEnd) := by decide
theorem other_reached : Reached 64 .new otherOps otherEnd (Start.abs .new |>.run otherOps) :=
  ⟨Nat.le_refl _, small_of_size _ _ (by decide), ⟨_, rfl, by rw [otherEnd_made]⟩, rfl⟩

theorem demo_lt {s : DSet Nat} (h : ∀ e ∈ s.ids.entries, e.1 < 8) {x : Nat} (hx : Has s x) : x < 8 := by
  have key : ∀ es : List (Nat × Nat), (∀ e ∈ es, e.1 < 8) → (HMap.lookup x es).isSome = true → x < 8 := by
    intro es
    induction es with
    | nil => intro _ h; cases h
    | cons e es ih =>
      intro he hl
      rw [HMap.lookup] at hl
      by_cases hx : e.1 = x
      · exact hx ▸ he e List.mem_cons_self
      · rw [if_neg hx] at hl
        exact ih (fun e h => he e (List.mem_cons_of_mem _ h)) hl
  refine key s.ids.entries h ?_
  have : (Except.ok (s.ids.containsKey x) : Except Fault Bool) = .ok true := hx
  exact Except.ok.inj this

/-- they answer alike -/
theorem demo_other (x y : Nat) : (DSet.inUnion 64 x y false false demoEnd).1 = .ok true ↔
    (DSet.inUnion 64 x y false false otherEnd).1 = .ok true := by
  have h1 : ∀ x < 8, ∀ y < 8, (DSet.inUnion 64 x y false false demoEnd).1 =
    (DSet.inUnion 64 x y false false otherEnd).1 := by decide
  have out : ∀ {st : Start Nat} {ops : List (Op Nat)} {s : DSet Nat} {a : Abs Nat}, Reached 64 st ops s a →
      (∀ e ∈ s.ids.entries, e.1 < 8) → Together 64 s x y → x < 8 ∧ y < 8 := by
    intro st ops s a h hs ht
    obtain ⟨hx, hy, _⟩ := (h.together x y).mp ht
    exact ⟨demo_lt hs ((h.has x).mpr hx), demo_lt hs ((h.has y).mpr hy)⟩
  constructor
  · intro h
    obtain ⟨hx, hy⟩ := out demo_reached (by decide) h
    rw [← h1 x hx y hy]; exact h
  · intro h
    obtain ⟨hx, hy⟩ := out other_reached (by decide) h
    rw [h1 x hx y hy]; exact h
end Demo

open Demo in
/-- the two differ inside and in the order of iteration -/
example : Reached 64 (.fromIter [7, 3]) demoOps demoEnd (Start.abs (.fromIter [7, 3]) |>.run demoOps) ∧
    Reached 64 .new otherOps otherEnd (Start.abs .new |>.run otherOps) ∧
    (∀ x y, (DSet.inUnion 64 x y false false demoEnd).1 = .ok true ↔
      (DSet.inUnion 64 x y false false otherEnd).1 = .ok true) ∧
    demoEnd.dataById ≠ otherEnd.dataById ∧
    (DSet.iterate 64 same.f same.f demoEnd).1 = .ok [[7], [4, 2, 1, 3], [5], [6]] ∧
    (DSet.iterate 64 same.f same.f otherEnd).1 = .ok [[7], [6], [5], [1, 2, 3, 4]] ∧
    (∀ pre, pre <+: [.union 5 6 false false, .iterate rev same, .clear, .len] →
      ((Start.abs (.fromIter [7, 3]) |>.run demoOps).run pre).card ≤ usizeMax) := by
  refine ⟨demo_reached, other_reached, demo_other, by decide, by decide, by decide, small_of_size _ _ ?_⟩
  have := run_size (Start.abs (.fromIter [7, 3])) demoOps
  have h2 : (Start.abs (.fromIter [7, 3]) : Abs Nat).elems.length + (demoOps.map Op.size).sum ≤ 100 := by decide
  simp only [List.map_cons, List.map_nil, List.sum_cons, List.sum_nil, Op.size]
  omega

end DS
