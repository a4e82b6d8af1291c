import Verif.DS.LemmasMem
/-!
# The capacity and the memory of disjoint sets (C100)

`with_capacity` documents that a disjoint set can hold that many elements without reallocating and that nothing is
allocated for capacity 0; `mod.rs` documents memory O(n). The first two hold. The memory is bounded by the elements and
what iterators and `reserve` announce, not by the elements alone. A refused request for memory is a panic that leaves the
set usable, except in one place: `make_or_get_set` inserts the key in the map before it pushes on the vector, and if the
vector is refused memory then, the set is broken until it is cleared.
-/

open Rust Mem
namespace DS.Mem

section
variable {T : Type} [DecidableEq T] [Cfg]

/-- C100: if no request is refused, memory and size hints have no influence on what a disjoint set answers and holds. -/
theorem c100_contents (std : Stds) (hm : std.map.Generous) (hv : std.vec.Generous) (stack : Nat) (st : Start T)
    (calls : List (Call T)) :
    ∃ s, st.make std = .ok s ∧ st.plain.make = .ok s.set ∧
      (runAll std stack calls s).1 = (DS.run stack (calls.map Call.plain) s.set).1 ∧
      (runAll std stack calls s).2.set = (DS.run stack (calls.map Call.plain) s.set).2 := by
  have hr : ¬std.Refuses := by
    rintro (⟨_, _, _, h⟩ | ⟨_, _, _, h⟩)
    · exact hm _ _ _ h
    · exact hv _ _ _ h
  have hc : Calm std := fun m s => hv m s _
  have wc : ∀ n, ∃ s, withCapacity (T := T) std n = .ok s := by
    intro n
    rw [withCapacity]
    rcases got_or std.map 0 n {} with ⟨ri, _, g2⟩ | ⟨_, g, _⟩
    · rw [g2]
      simp only
      rcases got_or std.vec 0 n {} with ⟨rd, _, k2⟩ | ⟨_, g, _⟩
      · rw [k2]; exact ⟨_, rfl⟩
      · exact absurd g (hv _ _ _)
    · exact absurd g (hm _ _ _)
  have made : ∃ s, st.make std = .ok s := by
    cases st with
    | withCapacity n => exact wc n
    | fromIter hint items =>
      obtain ⟨s0, h0⟩ := wc hint
      show ∃ s, fromIter std hint items false = .ok s
      rw [fromIter, h0]
      show ∃ s, (match makeAll std items false s0 with | (.ok _, s) => .ok s | (.error e, _) => .error e) = Except.ok s
      obtain ⟨s1, k1, _⟩ := start_ok (.fromIter items : DS.Start T)
      rcases (makeAll_does hc items false s0 (withCapacity_fits hint s0 h0)).2 with ⟨ri, rd, h⟩ | ⟨h, _⟩
      · rw [h, (withCapacity_made hint s0 h0).1]
        change DSet.fromIter items false = .ok s1 at k1
        rw [DSet.fromIter, fromIterLoop_eq] at k1
        generalize DSet.extendLoop items false DSet.new = q at k1 ⊢
        obtain ⟨r, d⟩ := q
        cases r with
        | error e => cases k1
        | ok u => exact ⟨_, rfl⟩
      · exact absurd h hr
  obtain ⟨s, hs⟩ := made
  obtain ⟨h1, h2⟩ := start_made st s hs
  obtain ⟨ops, i1, i2, i3⟩ := history_as_if hc stack calls s h2
  have i3 := i3 hr
  subst i3
  refine ⟨s, hs, h1, ?_, i2⟩
  have key : ∀ (calls : List (Call T)) (ops : List (Op T)) (rs rs' : List (Except Fault (Out T))),
      AsIf std calls ops rs rs' → rs = rs' := by
    intro calls
    induction calls with
    | nil =>
      intro ops rs rs' h
      cases ops <;> cases rs <;> cases rs' <;> first | rfl | exact h.elim
    | cons f fs ih =>
      intro ops rs rs' h
      cases ops with
      | nil => cases rs <;> cases rs' <;> exact h.elim
      | cons op ops =>
        cases rs with
        | nil => cases rs' <;> exact h.elim
        | cons r rs =>
          cases rs' with
          | nil => exact h.elim
          | cons r' rs' =>
            obtain ⟨a1, a2⟩ := h
            rcases a1 with ⟨_, a1⟩ | ⟨a1, _⟩
            · rw [a1, ih _ _ _ a2]
            · exact absurd a1 hr
  exact key _ _ _ _ i1

/-- C100, the part of "a panic leaves a disjoint set usable" that holds for refused requests: if a vector that is full is
always granted one more element, then after any calls, however many of them were refused memory, the set is what it would
be if the keys for which there was no room had panicked, and every call, before and after, answered accordingly. Missing
is the vector that is refused one more element: see `c100_refused_push_breaks`. -/
theorem c100_refused_partial (std : Stds) (hc : Calm std) {stack : Nat} (hk : 64 ≤ stack) (st : Start T) (s : State T)
    (hs : st.make std = .ok s) (calls : List (Call T)) :
    st.plain.make = .ok s.set ∧
    ∃ ops rs, AsIf std calls ops (runAll std stack calls s).1 rs ∧
      ((∀ pre, pre <+: ops → (st.plain.abs.run pre).card ≤ usizeMax) →
        Reached stack st.plain ops (runAll std stack calls s).2.set (st.plain.abs.run ops) ∧
        Answers st.plain.abs ops rs) := by
  obtain ⟨h1, h2⟩ := start_made st s hs
  obtain ⟨ops, i1, i2, _⟩ := history_as_if hc stack calls s h2
  refine ⟨h1, ops, _, i1, fun small => ⟨⟨hk, small, ⟨s.set, h1, i2⟩, rfl⟩, ?_⟩⟩
  obtain ⟨s0, k1, k2⟩ := c56_all_answers hk small
  rw [h1] at k1
  cases k1
  exact k2

end

namespace Trial
open DS.Demo

/-- a map that never gets more than 6 places, and a vector that always grows -/
def tight : Stds := ⟨doubling 6, exact⟩
theorem tight_calm : Calm tight := fun _ _ h => by cases h
/-- a map that always grows, and a vector that never gets more than 4 places -/
def stiff : Stds := ⟨exact, doubling 4⟩

/-- calls of which the second, the fourth and the fifth are refused memory -/
def calls : List (Call Nat) :=
  [.union 1 2 false false, .extend 9 [7] false, .makeSet 3 false, .extend 2 [4, 5, 6, 7, 8] false, .union 1 8 false false,
   .inUnion 2 4 false false]
end Trial

open Trial DS.Demo in
example : Start.make tight (.withCapacity 1 : Start Nat) = .ok ⟨DSet.new, ⟨2, 2, 1, 1, 0⟩, ⟨1, 1, 1, 1, 0⟩⟩ ∧
    (runAll tight 64 calls ⟨DSet.new, ⟨2, 2, 1, 1, 0⟩, ⟨1, 1, 1, 1, 0⟩⟩).1 =
      [.ok .unit, .error .capacityOverflow, .ok .unit, .error .capacityOverflow, .error .capacityOverflow,
       .ok (.bool false)] ∧
    (runAll tight 64 calls ⟨DSet.new, ⟨2, 2, 1, 1, 0⟩, ⟨1, 1, 1, 1, 0⟩⟩).2.set.ids.len = 6 := by
  decide +kernel
open Trial DS.Demo in
example : ∃ s : State Nat, Start.make ⟨exact, exact⟩ (.fromIter 9 [7, 7, 3] : Start Nat) = .ok s ∧
    (runAll ⟨exact, exact⟩ 64 calls s).1 =
      [.ok .unit, .ok .unit, .ok .unit, .ok .unit, .ok .unit, .ok (.bool false)] ∧ s.ids.slots = 9 := by
  refine ⟨_, rfl, by decide +kernel, rfl⟩

section
variable {T : Type} [DecidableEq T] [Cfg]

/-- C100: what happens if the vector is refused memory when a new element is added. `make_set` panics, but the element is
in the map. From then on, whatever is called (and refused), as long as the set is not cleared: the element counts as
added, everything that looks at its group panics, and so does every iteration; an element added later fares no better.
`clear` makes the set usable again. -/
theorem c100_refused_push_breaks (std : Stds) {stack : Nat} {st : DS.Start T} {ops : List (Op T)} {a : Abs T} (s : State T)
    (h : Reached stack st ops s.set a) (x : T) (hx : x ∉ a.elems)
    (hm : s.set.len < s.ids.cap ∨ std.map.grow s.ids.moment s.ids.slots (s.set.len + 1) ≠ none)
    (hv : s.data.cap ≤ s.set.len) (hr : std.vec.grow s.data.moment s.data.slots (s.set.len + 1) = none) :
    ∃ s', makeSet std x false s = (.error .capacityOverflow, s') ∧
      ∀ calls : List (Call T), (∀ f ∈ calls, f ≠ .clear) →
        (DSet.contains x false (runAll std stack calls s').2.set).1 = .ok true ∧
        (∀ o o' : Shuffle _, ∃ e, (DSet.iterate stack o.f o'.f (runAll std stack calls s').2.set).1 = .error e) ∧
        (∀ y z, y ∉ a.elems → (DSet.contains y false (runAll std stack calls s').2.set).1 = .ok true →
          (DSet.contains z false (runAll std stack calls s').2.set).1 = .ok true →
          (∃ e, (DSet.inUnion stack y z false false (runAll std stack calls s').2.set).1 = .error e) ∧
          (∃ e, (DSet.union stack y y false false (runAll std stack calls s').2.set).1 = .error e)) ∧
        (Call.run std stack .clear (runAll std stack calls s').2).2.set = DSet.new := by
  have hrel := h.rel
  have hg : s.set.ids.get x = none := by
    cases hg : s.set.ids.get x with
    | none => rfl
    | some i => exact absurd ((hrel.elems x).mp (by rw [hg]; rfl)) hx
  have hlen := hrel.len
  have hmade := makeOrGetSet_made (std := std) x false s
  have hq : ∃ s', makeOrGetSet std x false s = (.error .capacityOverflow, s') ∧
      s'.set = { s.set with ids := s.set.ids.insert x s.set.ids.len } := by
    generalize makeOrGetSet std x false s = q at hmade
    cases hmade with
    | there hk => exact absurd ⟨rfl, hg⟩ hk
    | made _ _ _ gd =>
      rcases gd with ⟨g, _⟩ | ⟨_, n, g, _⟩
      · change s.data.cap ≤ s.set.ids.len at hv
        omega
      · rw [hlen] at g
        change std.vec.grow s.data.moment s.data.slots (s.set.ids.len + 1) = none at hr
        rw [hr] at g
        cases g
    | map _ _ g1 g2 =>
      rcases hm with hm | hm
      · change s.set.ids.len < s.ids.cap at hm
        omega
      · exact absurd g2 hm
    | vec _ _ _ _ _ => exact ⟨_, rfl, rfl⟩
  obtain ⟨s', h1, h2⟩ := hq
  have hp : Poisoned s.set.dataById.length (· ∈ a.elems) x s'.set := by
    rw [h2]
    refine ⟨?_, fun y i hy ho => ?_, Nat.le_refl _, ⟨fun i d hd hi => ?_, fun i d hd hi => ?_⟩, ?_⟩
    · rw [HMap.get_insert, if_pos rfl]; rfl
    · rw [HMap.get_insert] at hy
      split at hy
      · cases hy; exact Nat.le_of_eq hlen
      · exact absurd ((hrel.elems y).mp (by rw [hy]; rfl)) ho
    · have := hrel.good.forest.range i hi
      rw [par, hd] at this
      exact this
    · exact absurd (List.getElem?_eq_some_iff.mp hd).1 (Nat.not_lt.mpr hi)
    · simp only [HMap.len_insert, hg, Option.isSome_none, Bool.false_eq_true, if_false]
      omega
  refine ⟨s', by rw [makeSet, M.bind_error h1], fun calls hc => ?_⟩
  have hp := history_poisoned (std := std) stack calls hc s' hp
  generalize (runAll std stack calls s').2 = t at hp ⊢
  obtain ⟨i, hi⟩ := Option.isSome_iff_exists.mp hp.has
  have has : ∀ y, (DSet.contains y false t.set).1 = .ok true → (t.set.ids.get y).isSome := by
    intro y hy
    simp only [DSet.contains, Bool.false_eq_true, if_false, Except.ok.injEq] at hy
    exact hy
  refine ⟨?_, fun o o' => ?_, fun y z hy hc hz => ?_, rfl⟩
  · simp only [DSet.contains, Bool.false_eq_true, if_false, Except.ok.injEq]
    exact hp.has
  · exact (poisoned_fails (z := x) stack hp hi hx).2.2.2 o.f o'.f o.perm
  · obtain ⟨j, hj⟩ := Option.isSome_iff_exists.mp (has y hc)
    obtain ⟨_, k2, k3, _⟩ := poisoned_fails (z := z) stack hp hj hy
    exact ⟨k2 (has z hz), k3⟩

end

open Trial DS.Demo in
/-- such a state: `with_capacity(1)`, `union(1, 2)`, `make_set(3)` -/
example :
    let s0 : State Nat := ⟨DSet.new, ⟨1, 1, 1, 1, 0⟩, ⟨2, 2, 1, 1, 0⟩⟩
    let s : State Nat := ⟨⟨⟨[(2, 1), (1, 0)]⟩, [⟨0, 1⟩, ⟨0, 0⟩]⟩, ⟨2, 2, 2, 2, 1⟩, ⟨2, 2, 1, 1, 0⟩⟩
    Start.make stiff (.withCapacity 1) = .ok s0 ∧
    runAll stiff 64 [.union 1 2 false false] s0 = ([.ok .unit], s) ∧
    Reached 64 .new [.union 1 2 false false] s.set ((Start.abs .new).run [.union 1 2 false false]) ∧
    stiff.map.grow s.ids.moment s.ids.slots (s.set.len + 1) ≠ none ∧ s.data.cap ≤ s.set.len ∧
    stiff.vec.grow s.data.moment s.data.slots (s.set.len + 1) = none ∧
    (runAll stiff 64 [.makeSet 3 false, .contains 3 false, .inUnion 3 3 false false, .inUnion 1 2 false false,
      .union 3 4 false false, .iterate same same, .makeSet 3 false, .clear, .makeSet 3 false, .inUnion 3 3 false false] s).1 =
      [.error .capacityOverflow, .ok (.bool true), .error .indexOutOfBounds, .ok (.bool true), .error .capacityOverflow,
       .error .indexOutOfBounds, .ok .unit, .ok .unit, .ok .unit, .ok (.bool true)] := by
  refine ⟨rfl, by decide +kernel, ⟨Nat.le_refl _, small_of_size _ _ (by decide), ⟨_, rfl, by decide +kernel⟩, rfl⟩,
    by decide +kernel, by decide +kernel, by decide +kernel, by decide +kernel⟩

section
variable {T : Type} [DecidableEq T] [Cfg]

/-- C100: the documented promise of `with_capacity`. A disjoint set made for `n` elements takes memory once for the map and
once for the vector, and none for `n = 0`. No call then asks for memory again, and in particular is refused any, as long
as there are no more than `n` elements in the set and `reserve` and iterators do not announce more than there is room
for. Clearing the set does not change that. -/
theorem c100_with_capacity (std : Stds) (n : Nat) (s : State T) (hs : withCapacity std n = .ok s) :
    s.set = DSet.new ∧ n ≤ s.ids.cap ∧ n ≤ s.data.cap ∧ s.ids.allocs = (if n = 0 then 0 else 1) ∧
    s.data.allocs = (if n = 0 then 0 else 1) ∧ (n = 0 → s.ids.slots = 0 ∧ s.data.slots = 0) ∧
    ∀ (stack : Nat) (calls : List (Call T)), Within stack n calls DSet.new →
      runAll std stack calls s = ((DS.run stack (calls.map Call.plain) DSet.new).1,
        ⟨(DS.run stack (calls.map Call.plain) DSet.new).2, s.ids, s.data⟩) := by
  obtain ⟨h1, h2, h3⟩ := withCapacity_made n s hs
  have c2 := h2.cap
  have c3 := h3.cap
  rw [Nat.zero_add] at c2 c3
  have once : ∀ {std : Std} {r : Room}, Got std 0 n {} r →
      r.allocs = (if n = 0 then 0 else 1) ∧ (n = 0 → r.slots = 0) := by
    intro std r g
    rcases g with ⟨g, rfl⟩ | ⟨g, m, g', rfl⟩
    · have hn : n = 0 := by simpa using g
      subst hn
      exact ⟨rfl, fun _ => rfl⟩
    · have hm : n ≤ m := by simpa using std.enough g'
      have hn : n ≠ 0 := by rintro rfl; exact g (Nat.le_refl _)
      refine ⟨?_, fun h => absurd h hn⟩
      rw [if_neg hn]
      show (if m = 0 then 0 else 0 + 1) = 1
      rw [if_neg (by omega)]
  refine ⟨h1, c2, c3, (once h2).1, (once h3).1, fun hn => ⟨(once h2).2 hn, (once h3).2 hn⟩, fun stack calls hw => ?_⟩
  have := history_quiet (std := std) stack n calls s (by rw [h1]; exact Nat.le_refl _) c2 c3 (by rw [h1]; exact hw)
  rw [h1] at this
  exact this

/-- C100: when a call leaves the memory alone: exactly if both capacities suffice for the announced elements (equal or
not) and for the elements there are in the end. -/
theorem c100_no_growth (std : Stds) {stack : Nat} {st : DS.Start T} {ops : List (Op T)} {a : Abs T} (s : State T)
    (h : Reached stack st ops s.set a) (hf : Fits s) (call : Call T) :
    call.run std stack s = ((step stack call.plain s.set).1, { s with set := (step stack call.plain s.set).2 }) ↔
      (s.set.len + call.hint ≤ s.ids.cap ∧ s.set.len + call.hint ≤ s.data.cap) ∧
      (step stack call.plain s.set).2.len ≤ s.ids.cap ∧ (step stack call.plain s.set).2.len ≤ s.data.cap := by
  have hlen := h.rel.len
  constructor
  · intro he
    have hl := call_later (std := std) (n := max (s.set.ids.len + call.hint) (call.run std stack s).2.set.ids.len) stack call s
      (Nat.le_max_left _ _) (Nat.le_max_right _ _)
    have hfit := hl.fits hf
    rw [he] at hfit
    have hl' := call_level stack call s.set hlen
    exact ⟨call_loud (std := std) stack call s hlen hf (by rw [he]) (by rw [he]), hfit.ids.1, Nat.le_trans (Nat.le_of_eq hl'.symm) hfit.data.1⟩
  · intro ⟨⟨h1, h2⟩, h3, h4⟩
    exact (call_quiet stack call s (Nat.le_of_eq hlen) h1 h2 h3 h4).1

end

open Trial DS.Demo in
/-- the states after `with_capacity(1)`, `union(1, 2)`; a known element needs nothing, announcing it does -/
example :
    let s : State Nat := ⟨⟨⟨[(2, 1), (1, 0)]⟩, [⟨0, 1⟩, ⟨0, 0⟩]⟩, ⟨2, 2, 2, 2, 1⟩, ⟨2, 2, 1, 1, 0⟩⟩
    Reached 64 .new [.union 1 2 false false] s.set ((Start.abs .new).run [.union 1 2 false false]) ∧ Fits s ∧
    (Call.makeSet 1 false).run stiff 64 s = (.ok .unit, s) ∧
    ((Call.extend 1 [1] false).run stiff 64 s).2 ≠ s ∧ ((Call.extend 1 [1] false).run stiff 64 s).2.set = s.set := by
  refine ⟨⟨Nat.le_refl _, small_of_size _ _ (by decide), ⟨_, rfl, by decide +kernel⟩, rfl⟩, ?_, by decide +kernel,
    by decide +kernel, by decide +kernel⟩
  exact ⟨⟨by decide +kernel, by decide +kernel⟩, ⟨by decide +kernel, by decide +kernel⟩, rfl, by decide +kernel⟩

section
variable {T : Type} [DecidableEq T] [Cfg]

/-- C100: after `reserve` that many more elements fit, both in the map and in the vector, without another request for
memory. A refused `reserve` leaves the contents alone. -/
theorem c100_reserve (std : Stds) {stack : Nat} {st : DS.Start T} {ops : List (Op T)} {a : Abs T} (s : State T)
    (h : Reached stack st ops s.set a) (n : Nat) :
    (∃ s', reserve std n s = (.ok (), s') ∧ s'.set = s.set ∧ s.set.len + n ≤ s'.ids.cap ∧ s.set.len + n ≤ s'.data.cap ∧
      ∀ calls : List (Call T), Within stack (s.set.len + n) calls s.set →
        runAll std stack calls s' = ((DS.run stack (calls.map Call.plain) s.set).1,
          ⟨(DS.run stack (calls.map Call.plain) s.set).2, s'.ids, s'.data⟩)) ∨
    (∃ s', reserve std n s = (.error .capacityOverflow, s') ∧ s'.set = s.set ∧ std.Refuses) := by
  have hlen := h.rel.len
  rw [reserve, M.bind_run, reserveData]
  rcases got_or std.vec s.set.dataById.length n s.data with ⟨rd, g1, g2⟩ | ⟨_, g4, g3⟩
  · simp only [g2, reserveIds]
    rcases got_or std.map s.set.ids.len n s.ids with ⟨ri, k1, k2⟩ | ⟨_, k4, k3⟩
    · simp only [k2]
      have c1 := g1.cap
      have c2 := k1.cap
      rw [hlen] at c1
      exact .inl ⟨_, rfl, rfl, c2, c1, fun calls hw => history_quiet stack _ calls ⟨s.set, ri, rd⟩ (Nat.le_of_eq hlen) c2 c1 hw⟩
    · simp only [k3]
      exact .inr ⟨_, rfl, rfl, .inl ⟨_, _, _, k4⟩⟩
  · simp only [g3]
    exact .inr ⟨_, rfl, rfl, .inr ⟨_, _, _, g4⟩⟩

/-- C100: the memory of a disjoint set fits its contents after any calls, and is never given back, not even by `clear`. -/
theorem c100_never_given_back (std : Stds) (stack : Nat) (calls : List (Call T)) (s : State T) (hf : Fits s) :
    Fits (runAll std stack calls s).2 ∧ s.ids.slots ≤ (runAll std stack calls s).2.ids.slots ∧
      s.data.slots ≤ (runAll std stack calls s).2.data.slots ∧ s.ids.allocs ≤ (runAll std stack calls s).2.ids.allocs ∧
      s.data.allocs ≤ (runAll std stack calls s).2.data.allocs := by
  induction calls generalizing s with
  | nil => exact ⟨hf, Nat.le_refl _, Nat.le_refl _, Nat.le_refl _, Nat.le_refl _⟩
  | cons f fs ih =>
    have h := call_later (std := std) (n := max (s.set.ids.len + f.hint) (f.run std stack s).2.set.ids.len) stack f s
      (Nat.le_max_left _ _) (Nat.le_max_right _ _)
    obtain ⟨h1, h2, h3, h4, h5⟩ := ih (f.run std stack s).2 (h.fits hf)
    exact ⟨h1, Nat.le_trans h.ids.1 h2, Nat.le_trans h.data.1 h3, Nat.le_trans h.ids.2.1 h4, Nat.le_trans h.data.2.1 h5⟩

/-- C100, the part of "memory O(n)" that holds: whatever is called, if growing takes at most `a` times what is needed and
`b`, the memory of the map and of the vector is at most `a * (k + h) + b` (or what it was), where `k` is the largest number
of elements there were before or after a call and `h` the largest announcement. Missing is a bound by the elements alone:
see `c100_memory_not_linear`. -/
theorem c100_memory_partial (std : Stds) {a b : Nat} (hm : std.map.Modest a b) (hv : std.vec.Modest a b) (stack : Nat)
    (calls : List (Call T)) (s : State T) (hf : Fits s) (k h : Nat)
    (hk : ∀ i, (runAll std stack (calls.take i) s).2.set.len ≤ k) (hh : ∀ f ∈ calls, f.hint ≤ h) :
    (runAll std stack calls s).2.ids.slots ≤ max s.ids.slots (a * (k + h) + b) ∧
    (runAll std stack calls s).2.data.slots ≤ max s.data.slots (a * (k + h) + b) := by
  induction calls generalizing s with
  | nil => exact ⟨Nat.le_max_left _ _, Nat.le_max_left _ _⟩
  | cons f fs ih =>
    have k0 : s.set.ids.len ≤ k := hk 0
    have k1 : (f.run std stack s).2.set.ids.len ≤ k := hk 1
    have hf1 := hh f List.mem_cons_self
    have hl := call_later (std := std) (n := k + h) stack f s (by omega) (by omega)
    obtain ⟨h2, h3⟩ := ih (f.run std stack s).2 (hl.fits hf) (fun i => hk (i + 1)) (fun g hg => hh g (List.mem_cons_of_mem _ hg))
    have e1 := hl.idsMost hm
    have e2 := hl.dataMost hf hv
    show (runAll std stack fs (f.run std stack s).2).2.ids.slots ≤ _ ∧ (runAll std stack fs (f.run std stack s).2).2.data.slots ≤ _
    omega

/-- C100: what `from_iter` takes: room for the announced items and for the different ones, and not much more. -/
theorem c100_from_iter (std : Stds) (hint : Nat) (items : List T) (s : State T)
    (hs : fromIter std hint items false = .ok s) :
    DSet.fromIter items false = .ok s.set ∧ s.set.len = items.dedup.length ∧
      max hint items.dedup.length ≤ s.ids.slots ∧ max hint items.dedup.length ≤ s.data.slots ∧
      ∀ {a b : Nat}, std.map.Modest a b → std.vec.Modest a b →
        s.ids.slots ≤ a * max hint items.dedup.length + b ∧ s.data.slots ≤ a * max hint items.dedup.length + b := by
  obtain ⟨h1, h2, s0, h3, h4⟩ := fromIter_made hint items s hs
  obtain ⟨s1, k1, k2⟩ := start_ok (.fromIter items : DS.Start T)
  have : s1 = s.set := by
    change DSet.fromIter items false = .ok s1 at k1
    rw [h1] at k1
    cases k1
    rfl
  subst this
  have hlen : s.set.ids.len = items.dedup.length := k2.card
  have hdl : s.set.dataById.length = items.dedup.length := k2.len.trans hlen
  obtain ⟨w1, w2, w3⟩ := withCapacity_made hint s0 h3
  have hfit := withCapacity_fits hint s0 h3
  have hl := (makeAll_later (std := std) items false s0).2 (max hint items.dedup.length)
  rw [h4] at hl
  simp only at hl
  have hl := hl (by rw [hlen]; exact Nat.le_max_right _ _)
  have c1 := w2.cap
  have c2 := w3.cap
  have f1 := hfit.ids.2
  have f2 := hfit.data.2
  have m1 := hl.ids.1
  have m2 := hl.data.1
  have g1 := h2.ids
  have g2 := h2.data
  unfold Room.Fit at g1 g2
  refine ⟨h1, hlen, by omega, by omega, fun {a b} hm hv => ?_⟩
  have u1 := w2.most hm (n := hint) (by omega)
  have u2 := w3.most hv (n := hint) (by omega)
  have e1 := hl.idsMost hm
  have e2 := hl.dataMost hfit hv
  have p : a * hint ≤ a * max hint items.dedup.length := Nat.mul_le_mul_left _ (Nat.le_max_left _ _)
  simp only at u1 u2
  omega

/-- C100: the documented memory O(n) is not what the code needs, `n` being the number of elements: for every factor `f`
there are items, all equal, such that a disjoint set made of them (with the exact announcement of, say, a slice) has room
for more than `f` times as many elements as it holds, both in the map and in the vector. -/
theorem c100_memory_not_linear (std : Stds) (hm : std.map.Generous) (hv : std.vec.Generous) (x : T) (f : Nat) :
    ∃ (items : List T) (s : State T), items.dedup = [x] ∧ fromIter std items.length items false = .ok s ∧
      s.set.len = 1 ∧ f * s.set.len < s.ids.slots ∧ f * s.set.len < s.data.slots := by
  have hd : (List.replicate (f + 1) x).dedup = [x] := List.replicate_dedup (Nat.succ_ne_zero f)
  obtain ⟨s, hs, _⟩ := c100_contents std hm hv 64
    (.fromIter (List.replicate (f + 1) x).length (List.replicate (f + 1) x)) []
  obtain ⟨_, h2, h3, h4, _⟩ := c100_from_iter std _ _ s hs
  rw [hd] at h2 h3 h4
  refine ⟨_, s, hd, hs, h2, ?_, ?_⟩ <;>
  · rw [h2]
    simp only [List.length_replicate, List.length_singleton] at h3 h4 ⊢
    omega

end

open Trial DS.Demo in
example : withCapacity (T := Nat) tight 3 = .ok ⟨DSet.new, ⟨6, 6, 1, 1, 0⟩, ⟨3, 3, 1, 1, 0⟩⟩ ∧
    withCapacity (T := Nat) tight 0 = .ok ⟨DSet.new, {}, {}⟩ ∧
    Within 64 3 [.union 1 2 false false, .extend 1 [2, 3, 3] true, .reserve 0, .clear, .reserve 3, .union 4 5 false false]
      (DSet.new : DSet Nat) ∧
    runAll tight 64 [.union 1 2 false false, .extend 1 [2, 3, 3] true, .clear, .reserve 3, .union 4 5 false false]
      (⟨DSet.new, ⟨6, 6, 1, 1, 0⟩, ⟨3, 3, 1, 1, 0⟩⟩ : State Nat) =
      ([.ok .unit, .error .user, .ok .unit, .ok .unit, .ok .unit],
        ⟨⟨⟨[(5, 1), (4, 0)]⟩, [⟨0, 1⟩, ⟨0, 0⟩]⟩, ⟨6, 6, 1, 1, 0⟩, ⟨3, 3, 1, 1, 0⟩⟩) := by
  refine ⟨rfl, rfl, ?_, by decide +kernel⟩
  refine ⟨by decide +kernel, by decide +kernel, by decide +kernel, by decide +kernel, by decide +kernel,
    by decide +kernel, by decide +kernel, by decide +kernel, by decide +kernel, by decide +kernel,
    by decide +kernel, by decide +kernel, trivial⟩
open Trial DS.Demo in
example : reserve tight 1 (⟨demoEnd, ⟨8, 8, 1, 1, 0⟩, ⟨7, 7, 1, 1, 0⟩⟩ : State Nat) =
      (.ok (), ⟨demoEnd, ⟨8, 8, 1, 1, 0⟩, ⟨8, 8, 2, 2, 7⟩⟩) ∧
    reserve tight 2 (⟨demoEnd, ⟨8, 8, 1, 1, 0⟩, ⟨7, 7, 1, 1, 0⟩⟩ : State Nat) =
      (.error .capacityOverflow, ⟨demoEnd, ⟨8, 8, 1, 2, 0⟩, ⟨9, 9, 2, 2, 7⟩⟩) := by
  decide +kernel
open Trial DS.Demo in
example : fromIter (T := Nat) ⟨doubling 100, doubling 100⟩ 4 [7, 7, 7, 7] false =
      .ok ⟨⟨⟨[(7, 0)]⟩, [⟨0, 0⟩]⟩, ⟨8, 8, 1, 1, 0⟩, ⟨8, 8, 1, 1, 0⟩⟩ ∧
    (doubling 100).Modest 2 0 ∧
    Fits (⟨⟨⟨[(7, 0)]⟩, [⟨0, 0⟩]⟩, ⟨8, 8, 1, 1, 0⟩, ⟨8, 8, 1, 1, 0⟩⟩ : State Nat) ∧
    (∀ i, (runAll ⟨doubling 100, doubling 100⟩ 64 (([.extend 12 [1, 2] false, .clear] : List (Call Nat)).take i)
      ⟨⟨⟨[(7, 0)]⟩, [⟨0, 0⟩]⟩, ⟨8, 8, 1, 1, 0⟩, ⟨8, 8, 1, 1, 0⟩⟩).2.set.len ≤ 3) ∧
    (runAll ⟨doubling 100, doubling 100⟩ 64 ([.extend 12 [1, 2] false, .clear] : List (Call Nat))
      ⟨⟨⟨[(7, 0)]⟩, [⟨0, 0⟩]⟩, ⟨8, 8, 1, 1, 0⟩, ⟨8, 8, 1, 1, 0⟩⟩).2 = ⟨DSet.new, ⟨26, 26, 2, 2, 1⟩, ⟨26, 26, 2, 2, 1⟩⟩ := by
  refine ⟨rfl, doubling_modest 100, ⟨?_, ?_, rfl, by decide⟩, fun i => ?_, by decide +kernel⟩
  · unfold Room.Fit; decide
  · unfold Room.Fit; decide
  · match i with
    | 0 => decide +kernel
    | 1 => decide +kernel
    | i + 2 => rw [List.take_of_length_le (by simp)]; decide +kernel

end DS.Mem
