import Verif.DS.LemmasMemIter
/-!
# The memory of an iteration over the groups (C113)
-/

open Rust Mem
namespace DS.Mem

section
variable {T : Type} [DecidableEq T] {std : IterStds}

omit [DecidableEq T] in
/-- C113: if no request is refused, the memory has no influence on an iteration: it yields the same groups and leaves the
same set, whatever the set is. -/
theorem c113_same (hm : std.map.Generous) (hv : ∀ root, (std.vec root).Generous) (stack : Nat)
    (order : List (T × Nat) → List (T × Nat)) (order' : List (Nat × List T) → List (Nat × List T)) (s : DSet T) :
    iterate std stack order order' s = DSet.iterate stack order order' s := by
  rw [iterate, DSet.iterate, M.bind_run, M.bind_run, buildSets, DSet.buildSets]
  rcases loop_cases (std := std) stack (order s.ids.entries) {} s with ⟨l, s', h1, h2⟩ | ⟨e, s', h1, h2⟩ | ⟨hr, _⟩
  · rw [h1, h2]
  · rw [h1, h2]
  · rcases hr with ⟨_, _, _, h⟩ | ⟨_, _, _, _, h⟩
    · exact absurd h (hm _ _ _)
    · exact absurd h (hv _ _ _ _)

end

namespace Demo
open DS.Demo

/-- a history that leaves a path of length two: 4, 3, 1 -/
def chainOps : List (Op Nat) :=
  [.union 1 2 false false, .union 3 4 false false, .union 1 3 false false, .makeSet 5 false]

/-- what it leaves -/
def chain : DSet Nat :=
  ⟨⟨[(5, 4), (4, 3), (3, 2), (2, 1), (1, 0)]⟩, [⟨0, 2⟩, ⟨0, 0⟩, ⟨0, 1⟩, ⟨2, 0⟩, ⟨4, 0⟩]⟩

theorem chain_reached : Reached 64 .new chainOps chain ((Start.abs .new).run chainOps) :=
  ⟨Nat.le_refl _, small_of_size _ _ (by decide), ⟨_, rfl, by decide⟩, rfl⟩

/-- what an iteration leaves -/
def flat : DSet Nat :=
  ⟨⟨[(5, 4), (4, 3), (3, 2), (2, 1), (1, 0)]⟩, [⟨0, 2⟩, ⟨0, 0⟩, ⟨0, 1⟩, ⟨0, 0⟩, ⟨4, 0⟩]⟩

end Demo

-- the allocator grants what is asked for: all groups
open DS.Demo Demo in
example : exact.Generous ∧ (iterate ⟨exact, fun _ => exact⟩ 64 id id chain).1.toOption = some [[4, 3, 2, 1], [5]] ∧
    (iterate ⟨exact, fun _ => exact⟩ 64 id id chain).2 = flat :=
  ⟨exact_generous, by decide, by decide⟩

section
variable {T : Type} [DecidableEq T] {std : IterStds}
variable [Cfg] {k : Nat} {st : DS.Start T} {ops : List (Op T)} {s : DSet T} {a : Abs T}

/-- C113: an iteration that is refused memory panics, and the set is then as if, instead of the iteration,
`in_union(x, x)` had been asked for the first elements `x` in the order of the map. Iterating again then gives the groups
and leaves the set exactly as an iteration that was not refused would have done in the first place. -/
theorem c113_refused (h : Reached k st ops s a) (std : IterStds) (o : Shuffle (T × Nat)) (o' : Shuffle (Nat × List T)) :
    iterate std k o.f o'.f s = DSet.iterate k o.f o'.f s ∨
    ∃ n s', n < a.card ∧ iterate std k o.f o'.f s = (.error .capacityOverflow, s') ∧
      Reached k st (ops ++ ((o.f s.ids.entries).take (n + 1)).map fun e => .inUnion e.1 e.1 false false) s' a ∧
      DSet.iterate k o.f o'.f s' = DSet.iterate k o.f o'.f s := by
  have hs : s.ids.len < 2 ^ k := by rw [h.rel.card]; exact lt_two_pow h.small_now h.stack_ge
  have hk : 2 ≤ k := Nat.le_trans (by decide) h.stack_ge
  rw [iterate, M.bind_run, buildSets]
  rcases loop_cases (std := std) k (o.f s.ids.entries) {} s with ⟨l, s', h1, h2⟩ | ⟨e, s', h1, h2⟩ | ⟨_, n, s', h1, h2, h3⟩
  · rw [h1, DSet.iterate, M.bind_run, DSet.buildSets, h2]
    exact .inl rfl
  · rw [h1, DSet.iterate, M.bind_run, DSet.buildSets, h2]
    exact .inl rfl
  · refine .inr ⟨n, s', ?_, by rw [h2], ?_, ?_⟩
    · rw [← h.rel.card]
      exact Nat.lt_of_lt_of_eq h1 (o.perm _).length_eq
    · have hq := loop_queries hk ((o.f s.ids.entries).take (n + 1)) HMap.empty h.rel hs fun e he =>
        (HMap.get_eq_some h.rel.valid).mpr ((o.perm _).mem_iff.mp (List.mem_of_mem_take he))
      have he : s' = (run k (((o.f s.ids.entries).take (n + 1)).map
          fun e => .inUnion e.1 e.1 false false) s).2 := h3.trans hq
      have ha : ∀ es : List (T × Nat), a.run (es.map fun e => .inUnion e.1 e.1 false false) = a := by
        intro es
        induction es with
        | nil => rfl
        | cons e es ih => exact ih
      have hr := h.after (((o.f s.ids.entries).take (n + 1)).map fun e => .inUnion e.1 e.1 false false) (by
        rintro pre ⟨suf, hp⟩
        obtain ⟨xs, ys, h4, h5, h6⟩ := List.append_eq_map_iff.mp hp
        rw [← h5, ha]
        exact h.small_now)
      rw [ha, ← he] at hr
      exact hr
    · have ht := fun e (he : e ∈ (o.f s.ids.entries).take (n + 1)) => entries_lt h.rel o e (List.mem_of_mem_take he)
      obtain ⟨s1, h4, t⟩ := buildLoop_ok (stack := k) (fun e => rootFn s.dataById e.2)
        ((o.f s.ids.entries).take (n + 1)) HMap.empty h.rel hs
        fun e he => ⟨ht e he, rootFn_spec h.rel.good.forest e.2⟩
      have : s' = s1 := by rw [h3]; exact congrArg (·.2) h4
      rw [this]
      exact iterate_twin h.rel hs t o o'

end

-- no vector may hold more than two elements: refused at the element 2, the fourth; the path from 4 is compressed
open DS.Demo Demo in
example : Reached 64 .new chainOps chain ((Start.abs .new).run chainOps) ∧
    (iterate ⟨exact, fun _ => doubling 2⟩ 64 id id chain).1.toOption = none ∧
    (iterate ⟨exact, fun _ => doubling 2⟩ 64 id id chain).2 = flat ∧ flat ≠ chain ∧
    (run 64 [.inUnion 5 5 false false, .inUnion 4 4 false false, .inUnion 3 3 false false, .inUnion 2 2 false false]
      chain).2 = flat :=
  ⟨chain_reached, by decide, by decide, by decide, by decide⟩

-- the map gets no memory at all: refused at the first element, where there is no path to compress
open DS.Demo Demo in
example : (iterate ⟨doubling 1, fun _ => exact⟩ 64 id id chain).1.toOption = none ∧
    (iterate ⟨doubling 1, fun _ => exact⟩ 64 id id chain).2 = chain ∧
    (iterate ⟨doubling 2, fun _ => exact⟩ 64 List.reverse id chain).1.toOption = some [[5], [1, 2, 3, 4]] := by
  decide

section
variable {T : Type} [DecidableEq T] {std : IterStds}
variable [Cfg] {k : Nat} {st : DS.Start T} {ops : List (Op T)} {s : DSet T} {a : Abs T}

omit [DecidableEq T] [Cfg] in
/-- C113: whatever elements an iteration has met, the local map and its vectors hold no more than they have room for. -/
theorem c113_room {stack : Nat} {order : List (T × Nat) → List (T × Nat)} {s s' : DSet T} {l : Local T}
    (hl : buildSets std stack order s = (.ok l, s')) :
    l.map.Fit l.sets.len ∧ ∀ r g, l.sets.get r = some g → (l.vecs r).Fit g.length :=
  have h := (loop_keeps (P := fun l : Local T => Tidy l ∧ Holds l)
    (fun root key l l' hp ha => ⟨tidy_added hp.1 ha, holds_added hp.1 hp.2 ha⟩)
    (l := {}) ⟨⟨HMap.valid_empty, fun _ _ => rfl⟩, ⟨⟨Nat.le_refl _, Nat.le_refl _⟩, fun _ _ h => by cases h⟩⟩ hl).2
  ⟨h.map, h.vec⟩

/-- C113: the memory of an iteration that has met `n` elements. The local map has room for a constant times the number of
groups of the whole set, its vectors for a constant times the number of elements they hold and of groups, and a root that
was not met has no memory. -/
theorem c113_memory (h : Reached k st ops s a) {x y : Nat} (hm : std.map.Modest x y)
    (hv : ∀ root, (std.vec root).Modest x y) (o : Shuffle (T × Nat)) (o' : Shuffle (Nat × List T)) {n : Nat}
    {l : Local T} {s' s'' : DSet T} (hl : buildSets std k (fun es => (o.f es).take n) s = (.ok l, s'))
    {groups : List (List T)} (hg : DSet.iterate k o.f o'.f s = (.ok groups, s'')) :
    l.map.slots ≤ x * groups.length + y ∧
    (l.sets.entries.map fun e => (l.vecs e.1).slots).sum ≤ x * min n a.card + y * groups.length ∧
    ∀ r, l.sets.get r = none → l.vecs r = {} := by
  have hs : s.ids.len < 2 ^ k := by rw [h.rel.card]; exact lt_two_pow h.small_now h.stack_ge
  obtain ⟨t, b⟩ := loop_keeps (P := fun l => Tidy l ∧ Bounded x y l)
    (fun root key l l' hp ha => ⟨tidy_added hp.1 ha, bounded_added hm hv hp.1 hp.2 ha⟩)
    (l := {}) ⟨⟨HMap.valid_empty, fun _ _ => rfl⟩, ⟨Nat.zero_le _, fun _ _ _ => Nat.zero_le _⟩⟩ hl
  have hl' : buildLoop std k ((o.f s.ids.entries).take n) {} s = (.ok l, s') := hl
  have hp : DSet.buildLoop k ((o.f s.ids.entries).take n) HMap.empty s = (.ok l.sets, s') := by
    rcases loop_cases (std := std) k ((o.f s.ids.entries).take n) {} s with
      ⟨l', s1, h1, h2⟩ | ⟨e, s1, h1, h2⟩ | ⟨_, m, s1, _, h1, _⟩
    · rw [hl'] at h1; cases h1; exact h2
    · rw [hl'] at h1; cases h1
    · rw [hl'] at h1; cases h1
  have htot := total_loop HMap.valid_empty hp
  have hlen : (o.f s.ids.entries).length = a.card := by
    rw [(o.perm _).length_eq, ← h.rel.card]; rfl
  rw [List.length_take, hlen] at htot
  have htot : total l.sets.entries = min n a.card := htot.trans (Nat.zero_add _)
  -- the groups met are among the groups
  have hcount : l.sets.len ≤ groups.length := by
    let rt : T × Nat → Nat := fun e => rootFn s.dataById e.2
    have hrt : ∀ e ∈ o.f s.ids.entries, e.2 < s.dataById.length ∧ Root s.dataById e.2 (rt e) := fun e he =>
      ⟨entries_lt h.rel o e he, rootFn_spec h.rel.good.forest e.2⟩
    obtain ⟨s1, h1, _⟩ := buildLoop_ok (stack := k) rt ((o.f s.ids.entries).take n) HMap.empty h.rel hs
      fun e he => hrt e (List.mem_of_mem_take he)
    rw [hp] at h1
    have hsets : l.sets = ((o.f s.ids.entries).take n).foldl (putIn rt) HMap.empty := by injection h1 with h1; injection h1
    obtain ⟨s2, h2, _⟩ := iterate_ok (stack := k) h.rel hs o o'
    rw [hg] at h2
    have hgs : groups = groupsOf s o o' := by injection h2 with h2; injection h2
    rw [hgs, groupsOf, List.length_map, (o'.perm _).length_eq]
    obtain ⟨v1, _, k1⟩ := fold_putIn rt ((o.f s.ids.entries).take n) (m := HMap.empty) HMap.valid_empty
    obtain ⟨v2, _, k2⟩ := fold_putIn rt (o.f s.ids.entries) (m := HMap.empty) HMap.valid_empty
    rw [hsets]
    have hsub : ((((o.f s.ids.entries).take n).foldl (putIn rt) HMap.empty).entries.map (·.1)) ⊆
        (((o.f s.ids.entries).foldl (putIn rt) HMap.empty).entries.map (·.1)) := by
      intro r hr
      rw [HMap.mem_keys, k1] at hr
      rw [HMap.mem_keys, k2]
      rcases hr with hr | hr
      · exact .inl hr
      · refine .inr fun he => hr ?_
        rw [grp, List.map_eq_nil_iff, List.filter_eq_nil_iff] at he ⊢
        exact fun e hm => he e (List.mem_of_mem_take hm)
    have := (v1.subperm hsub).length_le
    rw [List.length_map, List.length_map] at this
    exact this
  refine ⟨Nat.le_trans b.map (Nat.add_le_add_right (Nat.mul_le_mul_left _ hcount) _), ?_, t.none⟩
  have h1 := sum_vecs (fun e => (l.vecs e.1).slots) x y l.sets.entries
    fun e he => b.vec e.1 e.2 ((HMap.get_eq_some t.valid).mpr he)
  rw [htot] at h1
  exact Nat.le_trans h1 (Nat.add_le_add_left (Nat.mul_le_mul_left _ hcount) _)

/-- C113: an iteration needs memory in proportion to the elements, and if collections double when they grow, the elements
and groups moved on the way are as many at most. -/
theorem c113_linear (h : Reached k st ops s a) {x y : Nat} (hm : std.map.Modest x y)
    (hv : ∀ root, (std.vec root).Modest x y) (o : Shuffle (T × Nat)) {n : Nat} {l : Local T} {s' : DSet T}
    (hl : buildSets std k (fun es => (o.f es).take n) s = (.ok l, s')) :
    l.slots ≤ (2 * x + y) * a.card + y ∧
    (std.map.Doubles → (∀ root, (std.vec root).Doubles) → l.moved ≤ (2 * x + y) * a.card + y) := by
  have hs : s.ids.len < 2 ^ k := by rw [h.rel.card]; exact lt_two_pow h.small_now h.stack_ge
  let o' : Shuffle (Nat × List T) := ⟨id, fun _ => List.Perm.refl _⟩
  obtain ⟨s2, h2, _⟩ := iterate_ok (stack := k) h.rel hs o o'
  obtain ⟨m1, m2, _⟩ := c113_memory h hm hv o o' hl h2
  have hc := (groups_partition h.rel o o').2
  have hslots : l.slots ≤ (2 * x + y) * a.card + y := by
    rw [Local.slots]
    have g1 : x * (groupsOf s o o').length ≤ x * a.card := Nat.mul_le_mul_left _ (by omega)
    have g2 : y * (groupsOf s o o').length ≤ y * a.card := Nat.mul_le_mul_left _ (by omega)
    have g3 : x * min n a.card ≤ x * a.card := Nat.mul_le_mul_left _ (Nat.min_le_right _ _)
    have g4 : (2 * x + y) * a.card = x * a.card + x * a.card + y * a.card := by
      rw [Nat.add_mul, Nat.two_mul, Nat.add_mul]
    omega
  refine ⟨hslots, fun dm dv => Nat.le_trans ?_ hslots⟩
  obtain ⟨t, p⟩ := loop_keeps (P := fun l : Local T => Tidy l ∧ PaidL l)
    (fun root key l l' hp ha => ⟨tidy_added hp.1 ha, paidL_added dm dv hp.1 hp.2 ha⟩)
    (l := {}) ⟨⟨HMap.valid_empty, fun _ _ => rfl⟩, ⟨Room.paid_empty, fun _ _ h => by cases h⟩⟩ hl
  rw [Local.moved, Local.slots]
  refine Nat.add_le_add (Nat.le_trans p.map.moved p.map.fit.2) (sum_mono fun e he => ?_)
  have := p.vec e.1 e.2 ((HMap.get_eq_some t.valid).mpr he)
  exact Nat.le_trans this.moved this.fit.2

end

open DS.Demo Demo in
example : Reached 64 .new chainOps chain ((Start.abs .new).run chainOps) ∧
    steady.Modest 4 0 ∧ steady.Doubles ∧
    (((buildSets ⟨steady, fun _ => steady⟩ 64 id chain).1.toOption.map fun l =>
      (l.map.slots, (l.vecs 0).slots, (l.vecs 4).slots, l.vecs 7)) = some (2, 4, 1, {})) ∧
    (((buildSets ⟨steady, fun _ => steady⟩ 64 id chain).1.toOption.map fun l =>
      (l.slots, l.moved)) = some (7, 4)) ∧
    (((buildSets ⟨steady, fun _ => steady⟩ 64 (List.take 2) chain).1.toOption.map fun l =>
      (l.sets.entries, l.slots, l.moved)) = some ([(0, [4]), (4, [5])], 4, 1)) := by
  refine ⟨chain_reached, fun {m s n r} h => ?_, steady_doubles, by decide, by decide, by decide⟩
  simp only [steady] at h
  split at h <;> cases h <;> omega

end DS.Mem
