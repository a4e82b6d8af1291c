import Verif.DS.Sim
import Mathlib.Data.Fintype.Card
/-!
# The disjoint set properties C56 to C66

A history (`Reached`) is any list of public calls on a set made by `new`, `from_iter` or `from_iter(&…)`; keys
may panic when hashed, iterators may panic, capacity requests may be too large; such panics are caught and the
set is used further. Every iteration order is allowed (`Shuffle`).
-/

open Rust
namespace DS

section
variable {T : Type} [DecidableEq T]

/-! ### sizes, for the examples -/

/-- how many elements a call may add -/
def Op.size : Op T → Nat
  | .makeSet .. => 1
  | .union .. => 2
  | .extend _ _ items _ => items.length
  | .extendRef _ _ items _ => items.length
  | _ => 0

omit [DecidableEq T] in
theorem step_size (a : Abs T) (op : Op T) : (a.step op).elems.length ≤ a.elems.length + op.size := by
  cases op with
  | makeSet x kp => cases kp <;> simp [Abs.step, Op.size]
  | union x y xp yp => cases xp <;> cases yp <;> simp [Abs.step, Op.size]
  | clear => simp [Abs.step, Abs.new]
  | extend h c items p => cases c <;> simp [Abs.step, Op.size]; omega
  | extendRef h c items p => cases c <;> simp [Abs.step, Op.size]; omega
  | inUnion | contains | len | isEmpty | reserve | iterate => exact Nat.le_add_right _ _

omit [DecidableEq T] in
theorem run_size (a : Abs T) (ops : List (Op T)) :
    (a.run ops).elems.length ≤ a.elems.length + (ops.map Op.size).sum := by
  induction ops generalizing a with
  | nil => exact Nat.le_refl _
  | cons op ops ih =>
    have h1 := ih (a.step op)
    have h2 := step_size a op
    simp only [Abs.run, List.foldl_cons, List.map_cons, List.sum_cons] at h1 ⊢
    omega

theorem small_of_size [Cfg] (a : Abs T) (ops : List (Op T))
    (h : a.elems.length + (ops.map Op.size).sum ≤ 65535) :
    ∀ pre, pre <+: ops → (a.run pre).card ≤ usizeMax := by
  rintro pre ⟨suf, rfl⟩
  have h1 : (a.run pre).card ≤ (a.run pre).elems.length := (List.dedup_sublist _).length_le
  have h2 := run_size a pre
  have h3 : 2 ^ 16 ≤ 2 ^ Cfg.bits := Nat.pow_le_pow_right (by decide) Cfg.bits_ge
  rw [List.map_append, List.sum_append] at h
  unfold usizeMax
  omega

/-! ### what the state of a history is -/

theorem Reached.step_small [Cfg] {k : Nat} {st : Start T} {ops : List (Op T)} {s : DSet T} {a : Abs T}
    (h : Reached k st ops s a) (op : Op T) (hq : op.isQuery = true) : (a.step op).card ≤ usizeMax := by
  rw [query_step hq]; exact h.small_now

theorem Reached.query [Cfg] {k : Nat} {st : Start T} {ops : List (Op T)} {s : DSet T} {a : Abs T}
    (h : Reached k st ops s a) (op : Op T) (hq : op.isQuery = true) :
    ∃ out s', step k op s = (out, s') ∧ a.Answer op out := by
  obtain ⟨out, s', h1, _, h2⟩ := step_ok (stack := k) h.rel op (h.step_small op hq)
    (lt_two_pow (h.step_small op hq) h.stack_ge)
  exact ⟨out, s', h1, h2⟩

end

namespace Demo
/-- a 64-bit release build for the examples -/
scoped instance demoCfg : Cfg :=
  { bits := 64, overflowChecks := false, debugAssertions := false, bits_ge := by decide, bits_le := by decide }

/-- the identity order -/
def same {α : Type} : Shuffle α := ⟨id, fun _ => List.Perm.refl _⟩
/-- the reverse order -/
def rev {α : Type} : Shuffle α := ⟨List.reverse, fun l => List.reverse_perm l⟩

/-- a history with panics, a repeated union and path compression -/
def demoOps : List (Op Nat) :=
  [.union 1 2 false false, .union 3 4 false false, .union 5 9 false true, .union 2 4 false false,
   .inUnion 4 1 false false, .extend 3 false [6, 1] true, .union 1 4 false false]

/-- the set the history starts from: `from_iter([7, 3])` -/
def demoStart : DSet Nat := ⟨⟨[(3, 1), (7, 0)]⟩, [⟨0, 0⟩, ⟨1, 0⟩]⟩
theorem demoStart_made : Start.make (.fromIter [7, 3]) = .ok demoStart := by decide
/-- what the history leaves -/
def demoEnd : DSet Nat := ⟨⟨[(6, 6), (5, 5), (4, 4), (2, 3), (1, 2), (3, 1), (7, 0)]⟩,
  [⟨0, 0⟩, ⟨2, 1⟩, ⟨2, 2⟩, ⟨2, 0⟩, ⟨2, 0⟩, ⟨5, 0⟩, ⟨6, 0⟩]⟩
theorem demoEnd_made : run 64 demoOps demoStart =
    ([.ok .unit, .ok .unit, .error .user, .ok .unit, .ok (.bool true), .error .user, .ok .unit], demoEnd) := by
  decide

theorem demo_reached :
    Reached 64 (.fromIter [7, 3]) demoOps demoEnd (Start.abs (.fromIter [7, 3]) |>.run demoOps) :=
  ⟨Nat.le_refl _, small_of_size _ _ (by decide), ⟨_, demoStart_made, by rw [demoEnd_made]⟩, rfl⟩
end Demo

/-! ## C56 -/
section
variable {T : Type} [DecidableEq T] [Cfg]

/-- C56: after any history `in_union(x, y)` is true iff both elements were added since the last `clear` and are
connected by the pairs united since then. -/
theorem c56_in_union {k : Nat} {st : Start T} {ops : List (Op T)} {s : DSet T} {a : Abs T}
    (h : Reached k st ops s a) (x y : T) :
    ∃ b, (DSet.inUnion k x y false false s).1 = .ok b ∧
      (b = true ↔ x ∈ a.elems ∧ y ∈ a.elems ∧ Conn a.pairs x y) := by
  obtain ⟨b, s', h1, _, h2⟩ := inUnion_ok (stack := k) h.rel
    (by rw [h.rel.card]; exact lt_two_pow h.small_now h.stack_ge) x y
  exact ⟨b, by rw [h1], h2⟩

/-- C56: every answer in a history is the expected one. -/
theorem c56_all_answers {k : Nat} (hk : 64 ≤ k) {st : Start T} {ops : List (Op T)}
    (small : ∀ pre, pre <+: ops → (st.abs.run pre).card ≤ usizeMax) :
    ∃ s0, st.make = .ok s0 ∧ Answers st.abs ops (run k ops s0).1 := by
  obtain ⟨s0, h1, h2⟩ := start_ok st
  exact ⟨s0, h1, (run_ok hk h2 ops small).2⟩

end

open Demo in
example : Reached 64 (.fromIter [7, 3]) demoOps demoEnd (Start.abs (.fromIter [7, 3]) |>.run demoOps) ∧
    (run 64 [.inUnion 1 3 false false, .inUnion 1 5 false false, .inUnion 1 8 false false] demoEnd).1 =
      [.ok (.bool true), .ok (.bool false), .ok (.bool false)] :=
  ⟨demo_reached, by decide⟩

section
variable {T : Type} [DecidableEq T] [Cfg]

/-! ## C57 -/

/-- C57: `contains`, `len` and `is_empty` reflect the elements added since the last `clear`. -/
theorem c57_contents {k : Nat} {st : Start T} {ops : List (Op T)} {s : DSet T} {a : Abs T}
    (h : Reached k st ops s a) :
    (∀ x, ∃ b, DSet.contains x false s = (.ok b, s) ∧ (b = true ↔ x ∈ a.elems)) ∧
    s.len = a.elems.dedup.length ∧ (s.isEmpty = true ↔ ∀ x, x ∉ a.elems) := by
  refine ⟨fun x => ⟨_, rfl, h.rel.elems x⟩, h.rel.card, ?_⟩
  obtain ⟨out, s', h1, b, h2, h3⟩ := h.query .isEmpty rfl
  have : (Except.ok (Out.bool s.isEmpty) : Except Fault (Out T)) = .ok (.bool b) := by
    rw [← h2, show out = (step k .isEmpty s).1 by rw [h1]]; rfl
  cases this
  rw [h3, List.eq_nil_iff_forall_not_mem]

omit [DecidableEq T] [Cfg] in
/-- C57: what counts as added: an element of the start, or one passed to `make_set`, `union` or `extend` after
the last `clear` in a call (or the part of a call) that ran. -/
theorem c57_added {st : Start T} {pre ops : List (Op T)} (hc : ∀ op ∈ ops, op ≠ .clear) (x : T) :
    (x ∈ (st.abs.run (pre ++ .clear :: ops)).elems ↔ x ∈ ((Abs.new).run ops).elems) ∧
    (x ∈ (st.abs.run ops).elems ↔ x ∈ st.abs.elems ∨ ∃ op ∈ ops,
      op = .makeSet x false ∨ (∃ y yp, op = .union x y false yp) ∨ (∃ y, op = .union y x false false) ∨
      ∃ n items p, (op = .extend n false items p ∨ op = .extendRef n false items p) ∧ x ∈ items) := by
  constructor
  · rw [Abs.run, List.foldl_append, List.foldl_cons]; rfl
  · generalize st.abs = a
    induction ops generalizing a with
    | nil => simp [Abs.run]
    | cons op ops ih =>
      have := ih (fun o ho => hc o (List.mem_cons_of_mem _ ho)) (a.step op)
      rw [show a.run (op :: ops) = (a.step op).run ops from rfl, this]
      simp only [List.mem_cons, exists_eq_or_imp]
      rw [← or_assoc]
      refine or_congr_left ?_
      cases op with
      | makeSet z kp => cases kp <;> simp [Abs.step, or_comm, eq_comm]
      | union z y zp yp =>
        cases zp <;> cases yp <;> simp [Abs.step, eq_comm]
        · tauto
        · tauto
      | clear => exact absurd rfl (hc .clear List.mem_cons_self)
      | extend n c items p => cases c <;> simp [Abs.step, or_comm]
      | extendRef n c items p => cases c <;> simp [Abs.step, or_comm]
      | inUnion | contains | len | isEmpty | reserve | iterate => simp [Abs.step]

end

open Demo in
example : Reached 64 (.fromIter [7, 3]) demoOps demoEnd (Start.abs (.fromIter [7, 3]) |>.run demoOps) ∧
    (run 64 [.len, .isEmpty, .contains 5 false, .contains 9 false, .contains 6 false] demoEnd).1 =
      [.ok (.nat 7), .ok (.bool false), .ok (.bool true), .ok (.bool false), .ok (.bool true)] :=
  ⟨demo_reached, by decide⟩

section
variable {T : Type} [DecidableEq T] [Cfg]

/-! ## C58 -/

/-- C58: iteration yields the partition: non-empty groups listing every element exactly once, two elements
being in the same group iff `in_union` says so; whatever the two hash orders are. -/
theorem c58_partition {k : Nat} {st : Start T} {ops : List (Op T)} {s : DSet T} {a : Abs T}
    (h : Reached k st ops s a) (o : Shuffle (T × Nat)) (o' : Shuffle (Nat × List T)) :
    ∃ gs, (DSet.iterate k o.f o'.f s).1 = .ok gs ∧ (∀ g ∈ gs, g ≠ []) ∧ gs.flatten.Nodup ∧
      (∀ x, x ∈ gs.flatten ↔ (DSet.contains x false s).1 = .ok true) ∧
      (∀ x y, (∃ g ∈ gs, x ∈ g ∧ y ∈ g) ↔ (DSet.inUnion k x y false false s).1 = .ok true) ∧
      gs.flatten.length = s.len := by
  have hc : s.ids.len < 2 ^ k := by rw [h.rel.card]; exact lt_two_pow h.small_now h.stack_ge
  obtain ⟨s', h1, _⟩ := iterate_ok (stack := k) h.rel hc o o'
  obtain ⟨⟨p1, p2, p3, p4⟩, _⟩ := groups_partition h.rel o o'
  refine ⟨_, by rw [h1], p1, p2, fun x => ?_, fun x y => ?_, ?_⟩
  · rw [p3, ← h.rel.elems x]
    show _ ↔ Except.ok (s.ids.containsKey x) = Except.ok true
    rw [Except.ok.injEq]; rfl
  · obtain ⟨b, hb, hb'⟩ := c56_in_union h x y
    rw [p4, hb, Except.ok.injEq, hb']; rfl
  · rw [show s.len = a.elems.dedup.length from h.rel.card]
    apply List.Perm.length_eq
    rw [List.perm_ext_iff_of_nodup p2 (List.nodup_dedup _)]
    intro x; rw [p3, List.mem_dedup]

end

open Demo in
example : Reached 64 (.fromIter [7, 3]) demoOps demoEnd (Start.abs (.fromIter [7, 3]) |>.run demoOps) ∧
    (DSet.iterate 64 same.f same.f demoEnd).1 = .ok [[7], [4, 2, 1, 3], [5], [6]] ∧
    (DSet.iterate 64 rev.f same.f demoEnd).1 = .ok [[6], [5], [3, 1, 2, 4], [7]] :=
  ⟨demo_reached, by decide, by decide⟩

section
variable {T : Type} [DecidableEq T] [Cfg]

/-! ## C59 -/

omit [DecidableEq T] [Cfg] in
theorem log_lt {n k : Nat} (h : Nat.log2 n + 1 ≤ k) : n < 2 ^ k := by
  have h1 : n < 2 ^ (Nat.log2 n + 1) := Nat.lt_log2_self
  exact Nat.lt_of_lt_of_le h1 (Nat.pow_le_pow_right (by decide) h)

theorem run_frames {k k' : Nat} {s t : DSet T} {a : Abs T} (r : Rel s a) (h : Twin s t)
    (ops : List (Op T)) (hm : Small a ops) (hk : ∀ pre, pre <+: ops → (a.run pre).card < 2 ^ k)
    (hk' : ∀ pre, pre <+: ops → (a.run pre).card < 2 ^ k') :
    (run k ops s).1 = (run k' ops t).1 ∧ Rel (run k ops s).2 (a.run ops) ∧ Answers a ops (run k ops s).1 := by
  induction ops generalizing s t a with
  | nil => exact ⟨rfl, r, trivial⟩
  | cons op ops ih =>
    have e1 := hk [op] ⟨ops, rfl⟩
    have e2 := hk' [op] ⟨ops, rfl⟩
    obtain ⟨out, s', t', h1, h2, tw⟩ := step_twin r h op hm.head e1 e2
    obtain ⟨out', s'', h1', r1, h5⟩ := step_ok (stack := k) r op hm.head e1
    rw [h1] at h1'; cases h1'
    obtain ⟨h3, h4, h6⟩ := ih r1 tw hm.tail
      (fun pre hp => hk (op :: pre) (List.prefix_cons_inj op |>.mpr hp))
      (fun pre hp => hk' (op :: pre) (List.prefix_cons_inj op |>.mpr hp))
    rw [run, run]
    simp only [h1, h2, h3]
    refine ⟨trivial, h4, h5, ?_⟩
    rw [← h3]; exact h6

/-- C59: with `log2 n + 1` stack frames, `n` being the largest number of elements at any time, every search in
every history terminates: the history runs exactly as with any larger stack and all its answers are right. -/
theorem c59_log_depth {n k : Nat} (hk : Nat.log2 n + 1 ≤ k) {st : Start T} {ops : List (Op T)}
    (hn : ∀ pre, pre <+: ops → (st.abs.run pre).card ≤ n) (hu : n ≤ usizeMax) :
    ∃ s0, st.make = .ok s0 ∧ Answers st.abs ops (run k ops s0).1 ∧
      ∀ k', k ≤ k' → (run k' ops s0).1 = (run k ops s0).1 := by
  obtain ⟨s0, h1, h2⟩ := start_ok st
  have hm : Small st.abs ops := fun pre hp => Nat.le_trans (hn pre hp) hu
  have hl : ∀ k', k ≤ k' → ∀ pre, pre <+: ops → (st.abs.run pre).card < 2 ^ k' := fun k' hk' pre hp =>
    Nat.lt_of_le_of_lt (hn pre hp) (log_lt (Nat.le_trans hk hk'))
  refine ⟨s0, h1, (run_frames h2 (Twin.refl h2) ops hm (hl k (Nat.le_refl _)) (hl k (Nat.le_refl _))).2.2,
    fun k' hk' => ?_⟩
  exact (run_frames h2 (Twin.refl h2) ops hm (hl k' hk') (hl k (Nat.le_refl _))).1

omit [DecidableEq T] in
theorem log_le_64 {n : Nat} (hu : n ≤ usizeMax) : Nat.log2 n + 1 ≤ 64 := by
  have h : n < 2 ^ 64 := lt_two_pow hu (Nat.le_refl _)
  by_cases h0 : n = 0
  · subst h0; decide
  · have := (Nat.log2_lt h0).mpr h
    omega

/-- C59: 64 frames always suffice: as long as the elements can be numbered, every history runs with them as with any
larger stack and all its answers are right. -/
theorem c59_frames_64 {st : Start T} {ops : List (Op T)}
    (hn : ∀ pre, pre <+: ops → (st.abs.run pre).card ≤ usizeMax) :
    ∃ s0, st.make = .ok s0 ∧ Answers st.abs ops (run 64 ops s0).1 ∧
      ∀ k, 64 ≤ k → (run k ops s0).1 = (run 64 ops s0).1 :=
  c59_log_depth (log_le_64 (Nat.le_refl _)) hn (Nat.le_refl _)

end

/-- a history of four elements whose last call needs `log2 4 + 1 = 3` frames: with two the stack overflows -/
def deepOps : List (Op Nat) :=
  [.union 1 2 false false, .union 3 4 false false, .union 1 3 false false, .inUnion 4 1 false false]

open Demo in
example : ∃ s0, Start.make (T := Nat) .new = .ok s0 ∧ Nat.log2 4 + 1 = 3 ∧
    (run 3 deepOps s0).1 = [.ok .unit, .ok .unit, .ok .unit, .ok (.bool true)] ∧
    (run 2 deepOps s0).1 = [.ok .unit, .ok .unit, .ok .unit, .error .stackOverflow] :=
  ⟨_, rfl, by decide, by decide, by decide⟩

/-- a call none of whose keys, iterators or capacity requests panics -/
def Op.clean {T : Type} : Op T → Bool
  | .makeSet _ kp => !kp
  | .union _ _ ap bp => !ap && !bp
  | .inUnion _ _ ap bp => !ap && !bp
  | .contains _ kp => !kp
  | .reserve _ cp => !cp
  | .extend _ cp _ p => !cp && !p
  | .extendRef _ cp _ p => !cp && !p
  | .len | .isEmpty | .clear | .iterate .. => true

section
variable {T : Type} [DecidableEq T] [Cfg]

/-! ## C60 -/

/-- C60: a call panics only if the user's code panics in it or it requests too large a capacity; no index is out
of range, no `u32` overflows, no stack overflows. -/
theorem c60_no_panic {k : Nat} {st : Start T} {ops : List (Op T)} {s : DSet T} {a : Abs T}
    (h : Reached k st ops s a) (op : Op T) (hm : (a.step op).card ≤ usizeMax) :
    (op.clean = true → ∃ out, (step k op s).1 = .ok out) ∧
    ∀ e, (step k op s).1 = .error e → e = .user ∨ e = .capacityOverflow := by
  obtain ⟨out, s', h1, _, h2⟩ := step_ok (stack := k) h.rel op hm (lt_two_pow hm h.stack_ge)
  rw [h1]
  cases op with
  | makeSet x kp => cases kp <;> simp_all [Abs.Answer, Op.clean]
  | union x y xp yp => cases xp <;> cases yp <;> simp_all [Abs.Answer, Op.clean]
  | inUnion x y xp yp =>
    cases xp <;> cases yp <;> simp only [Abs.Answer, Bool.false_eq_true, if_false, if_true] at h2
    · obtain ⟨b, h2, _⟩ := h2
      simp [h2]
    · by_cases hx : x ∈ a.elems
      · simp [h2.1 hx, Op.clean]
      · simp [h2.2 hx, Op.clean]
    · simp [h2, Op.clean]
    · simp [h2, Op.clean]
  | contains x kp =>
    cases kp <;> simp only [Abs.Answer, Bool.false_eq_true, if_false, if_true] at h2
    · obtain ⟨b, h2, _⟩ := h2
      simp [h2]
    · simp [h2, Op.clean]
  | len => simp_all [Abs.Answer]
  | isEmpty => obtain ⟨b, h2, _⟩ := h2; simp [h2]
  | clear => simp_all [Abs.Answer]
  | reserve n cp => cases cp <;> simp_all [Abs.Answer, Op.clean]
  | extend n cp items p => cases cp <;> cases p <;> simp_all [Abs.Answer, Op.clean]
  | extendRef n cp items p => cases cp <;> cases p <;> simp_all [Abs.Answer, Op.clean]
  | iterate o o' => obtain ⟨gs, h2, _⟩ := h2; simp [h2]

/-- C60: every parent is an index in range and every rank is at most `log2(len)`. -/
theorem c60_ranks {k : Nat} {st : Start T} {ops : List (Op T)} {s : DSet T} {a : Abs T}
    (h : Reached k st ops s a) : ∀ x ∈ s.dataById, x.parent < s.dataById.length ∧ x.rank ≤ Nat.log2 s.len := by
  intro x hx
  obtain ⟨i, hi, rfl⟩ := List.getElem_of_mem hx
  have hg := h.rel.good
  have e1 : s.dataById[i].parent = par s.dataById i := by rw [par, List.getElem?_eq_getElem hi]
  have e2 : s.dataById[i].rank = rk s.dataById i := by rw [rk, List.getElem?_eq_getElem hi]
  obtain ⟨r, hr⟩ := Root.total hg.forest i
  have h1 := hr.rank_le hg.forest
  have h2 := rank_log hg.pot_le (hr.lt hg.forest hi) hr.is_root
  refine ⟨by rw [e1]; exact hg.forest.1 i hi, ?_⟩
  rw [e2]
  have h3 : s.len = s.dataById.length := h.rel.len.symm
  rw [h3]
  have h4 : 2 ^ rk s.dataById i ≤ s.dataById.length :=
    Nat.le_trans (Nat.pow_le_pow_right (by decide) h1) h2
  exact (Nat.le_log2 (by omega)).mpr h4

end

open Demo in
example : ∃ s0, Start.make (T := Nat) .new = .ok s0 ∧ (run 64 deepOps s0).2.len = 4 ∧
    (run 64 deepOps s0).2.dataById.map (·.rank) = [2, 0, 1, 0] :=
  ⟨_, rfl, by decide, by decide⟩

section
variable {T : Type} [DecidableEq T] [Cfg]

/-! ## C61 -/

/-- C61: iteration yields `len()` minus the number of unions that joined two groups. -/
theorem c61_group_count {k : Nat} {st : Start T} {ops : List (Op T)} {s : DSet T} {a : Abs T}
    (h : Reached k st ops s a) (o : Shuffle (T × Nat)) (o' : Shuffle (Nat × List T)) :
    ∃ gs, (DSet.iterate k o.f o'.f s).1 = .ok gs ∧ gs.length + a.joins = s.len := by
  have hc : s.ids.len < 2 ^ k := by rw [h.rel.card]; exact lt_two_pow h.small_now h.stack_ge
  obtain ⟨s', h1, _⟩ := iterate_ok (stack := k) h.rel hc o o'
  obtain ⟨_, p5⟩ := groups_partition h.rel o o'
  exact ⟨_, by rw [h1], by rw [p5]; exact h.rel.card.symm⟩

/-- C61: `joins` counts the unions of two elements that `in_union` did not report as united (an element not yet
added counts as a group of its own). -/
theorem c61_joins {k : Nat} {st : Start T} {ops : List (Op T)} {s : DSet T} {a : Abs T}
    (h : Reached k st ops s a) (x y : T) :
    (a.step (.union x y false false)).joins =
      if x = y ∨ (DSet.inUnion k x y false false s).1 = .ok true then a.joins else a.joins + 1 := by
  obtain ⟨b, hb, hb'⟩ := c56_in_union h x y
  have : Conn a.pairs x y ↔ (x = y ∨ (DSet.inUnion k x y false false s).1 = .ok true) := by
    rw [hb, Except.ok.injEq, hb']
    constructor
    · intro hc
      rcases conn_support h.rel.pairs hc with e | e
      · exact .inl e
      · exact .inr ⟨e.1, e.2, hc⟩
    · rintro (rfl | e)
      · exact .refl _
      · exact e.2.2
  simp only [Abs.step, Bool.false_eq_true, if_false, this]

end

open Demo in
example : Reached 64 (.fromIter [7, 3]) demoOps demoEnd (Start.abs (.fromIter [7, 3]) |>.run demoOps) ∧
    demoEnd.len = 7 ∧ (DSet.iterate 64 same.f same.f demoEnd).1 = .ok [[7], [4, 2, 1, 3], [5], [6]] :=
  ⟨demo_reached, by decide, by decide⟩

section
variable {T : Type} [DecidableEq T] [Cfg]

/-! ## C62 -/

/-- C62: calls of `in_union`, iteration, `contains`, `len`, `is_empty` and `reserve` inserted anywhere in a
history change no later result. -/
theorem c62_queries_invisible {k : Nat} (hk : 64 ≤ k) {st : Start T} {pre qs post : List (Op T)}
    (hq : ∀ q ∈ qs, q.isQuery = true)
    (small : ∀ p, p <+: pre ++ post → (st.abs.run p).card ≤ usizeMax) :
    ∃ s0, st.make = .ok s0 ∧
      (run k (pre ++ qs ++ post) s0).1 =
        (run k pre s0).1 ++ (run k qs (run k pre s0).2).1 ++ (run k post (run k pre s0).2).1 ∧
      (run k (pre ++ post) s0).1 = (run k pre s0).1 ++ (run k post (run k pre s0).2).1 := by
  obtain ⟨s0, h1, h2⟩ := start_ok st
  refine ⟨s0, h1, ?_, by rw [run_append]⟩
  have hm : Small st.abs (pre ++ post) := small
  obtain ⟨m1, m2⟩ := Small.append.mp hm
  obtain ⟨r1, _⟩ := run_ok hk h2 pre m1
  have hcard := m1 pre (List.prefix_refl _)
  have key : ∀ (qs : List (Op T)) (t : DSet T), (∀ q ∈ qs, q.isQuery = true) → Rel t (st.abs.run pre) →
      Twin t (run k qs t).2 := by
    intro qs
    induction qs with
    | nil => intro t _ r; exact Twin.refl r
    | cons q qs ih =>
      intro t hq r
      obtain ⟨out, t', h3, tw⟩ := query_twin (stack := k) r (hq q List.mem_cons_self) (lt_two_pow hcard hk)
      have := ih t' (fun q hm => hq q (List.mem_cons_of_mem _ hm)) (tw.rel r)
      rw [run]
      simp only [h3]
      exact tw.trans this
  have tw := key qs _ hq r1
  have e := (run_twin hk r1 tw post m2).1
  rw [run_append, run_append]
  simp only
  rw [e]

end

open Demo in
/-- path compression does happen: the query changes the stored forest -/
example : ∃ s0, Start.make (T := Nat) .new = .ok s0 ∧
    (run 64 deepOps.dropLast s0).2.dataById.map (·.parent) = [0, 0, 0, 2] ∧
    (run 64 deepOps s0).2.dataById.map (·.parent) = [0, 0, 0, 0] ∧
    (run 64 (deepOps ++ [.union 4 5 false false, .inUnion 5 2 false false]) s0).1.drop 5 = [.ok (.bool true)] :=
  ⟨_, rfl, by decide, by decide, by decide⟩

/-- the same call, up to swapping the arguments of `union` -/
def Op.like {T : Type} (p q : Op T) : Prop :=
  p = q ∨ ∃ x y, p = .union x y false false ∧ q = .union y x false false

/-- `make_set`, `union`, `extend` or a query, without panics -/
def Op.builder {T : Type} (p : Op T) : Prop := p.clean = true ∧ p ≠ .clear

section
variable {T : Type} [DecidableEq T]

/-! ## C63 -/

omit [DecidableEq T] in
theorem builder_elems {ops : List (Op T)} (hb : ∀ p ∈ ops, p.builder) (a : Abs T) (x : T) :
    x ∈ (a.run ops).elems ↔ x ∈ a.elems ∨ ∃ p ∈ ops, x ∈ (Abs.new.step p).elems := by
  induction ops generalizing a with
  | nil => simp [Abs.run]
  | cons op ops ih =>
    rw [show a.run (op :: ops) = (a.step op).run ops from rfl,
      ih (fun p hp => hb p (List.mem_cons_of_mem _ hp))]
    simp only [List.mem_cons, exists_eq_or_imp]
    rw [← or_assoc]
    refine or_congr_left ?_
    have := hb op List.mem_cons_self
    cases op with
    | makeSet z kp => cases kp <;> simp_all [Abs.step, Op.builder, Op.clean, Abs.new]; tauto
    | union z y zp yp => cases zp <;> cases yp <;> simp_all [Abs.step, Op.builder, Op.clean, Abs.new]; tauto
    | clear => exact absurd rfl this.2
    | extend n c items p => cases c <;> simp_all [Abs.step, Op.builder, Op.clean, Abs.new]; tauto
    | extendRef n c items p => cases c <;> simp_all [Abs.step, Op.builder, Op.clean, Abs.new]; tauto
    | inUnion | contains | len | isEmpty | reserve | iterate => simp [Abs.step, Abs.new]

omit [DecidableEq T] in
theorem builder_pairs {ops : List (Op T)} (hb : ∀ p ∈ ops, p.builder) (a : Abs T) (e : T × T) :
    e ∈ (a.run ops).pairs ↔ e ∈ a.pairs ∨ .union e.1 e.2 false false ∈ ops := by
  induction ops generalizing a with
  | nil => simp [Abs.run]
  | cons op ops ih =>
    rw [show a.run (op :: ops) = (a.step op).run ops from rfl,
      ih (fun p hp => hb p (List.mem_cons_of_mem _ hp))]
    simp only [List.mem_cons]
    rw [← or_assoc]
    refine or_congr_left ?_
    have := hb op List.mem_cons_self
    cases op with
    | makeSet z kp => cases kp <;> simp_all [Abs.step, Op.builder, Op.clean]
    | union z y zp yp =>
      cases zp <;> cases yp <;> simp_all [Abs.step, Op.builder, Op.clean]
      rw [or_comm, Prod.ext_iff]
    | clear => exact absurd rfl this.2
    | extend n c items p => cases c <;> simp_all [Abs.step, Op.builder, Op.clean]
    | extendRef n c items p => cases c <;> simp_all [Abs.step, Op.builder, Op.clean]
    | inUnion | contains | len | isEmpty | reserve | iterate => simp [Abs.step]

omit [DecidableEq T] in
theorem conn_like {ps qs : List (T × T)} (h : ∀ x y, (x, y) ∈ ps → (x, y) ∈ qs ∨ (y, x) ∈ qs) {x y : T}
    (hc : Conn ps x y) : Conn qs x y := by
  induction hc with
  | refl a => exact .refl a
  | step hm => rcases h _ _ hm with h | h
               · exact .step h
               · exact .symm (.step h)
  | symm _ ih => exact .symm ih
  | trans _ _ ih1 ih2 => exact .trans ih1 ih2

omit [DecidableEq T] in
theorem like_new {p q : Op T} (h : p.like q) (x : T) :
    x ∈ (Abs.new.step p).elems ↔ x ∈ (Abs.new.step q).elems := by
  rcases h with rfl | ⟨u, v, rfl, rfl⟩
  · rfl
  · simp [Abs.step, Abs.new, or_comm]

omit [DecidableEq T] in
theorem like_same {st st' : Start T} (h0 : ∀ x, x ∈ st.abs.elems ↔ x ∈ st'.abs.elems) {ops ops' : List (Op T)}
    (hb : ∀ p ∈ ops, p.builder) (hb' : ∀ p ∈ ops', p.builder)
    (h1 : ∀ p ∈ ops, ∃ q ∈ ops', p.like q) (h2 : ∀ q ∈ ops', ∃ p ∈ ops, q.like p) :
    (∀ x, x ∈ (st.abs.run ops).elems ↔ x ∈ (st'.abs.run ops').elems) ∧
    ∀ x y, Conn (st.abs.run ops).pairs x y ↔ Conn (st'.abs.run ops').pairs x y := by
  have hn : ∀ s : Start T, s.abs.pairs = [] := by intro s; cases s <;> rfl
  constructor
  · intro x
    rw [builder_elems hb, builder_elems hb', h0]
    refine or_congr_right ⟨?_, ?_⟩
    · rintro ⟨p, hp, hx⟩
      obtain ⟨q, hq, hl⟩ := h1 p hp
      exact ⟨q, hq, (like_new hl x).mp hx⟩
    · rintro ⟨p, hp, hx⟩
      obtain ⟨q, hq, hl⟩ := h2 p hp
      exact ⟨q, hq, (like_new hl x).mp hx⟩
  · have key : ∀ {ops ops' : List (Op T)} {st st' : Start T} (_ : ∀ p ∈ ops, p.builder)
        (_ : ∀ p ∈ ops', p.builder) (_ : ∀ p ∈ ops, ∃ q ∈ ops', p.like q) (x y : T),
        Conn (st.abs.run ops).pairs x y → Conn (st'.abs.run ops').pairs x y := by
      intro ops ops' st st' hb hb' h1 x y hc
      refine conn_like ?_ hc
      intro x y hm
      rw [builder_pairs hb, hn] at hm
      rcases hm with hm | hm
      · cases hm
      · obtain ⟨q, hq, rfl | ⟨u, v, e1, rfl⟩⟩ := h1 _ hm
        · exact .inl ((builder_pairs hb' _ _).mpr (.inr hq))
        · cases e1
          exact .inr ((builder_pairs hb' _ _).mpr (.inr hq))
    exact fun x y => ⟨key hb hb' h1 x y, key hb' hb h2 x y⟩

omit [DecidableEq T] in
/-- a partition has as many groups as any other of the same relation -/
theorem partition_le {a b : Abs T} {gs hs : List (List T)} (hg : a.IsPartition gs) (hh : b.IsPartition hs)
    (he : ∀ x, x ∈ a.elems ↔ x ∈ b.elems) (hc : ∀ x y, Conn a.pairs x y ↔ Conn b.pairs x y) :
    gs.length ≤ hs.length := by
  have hs' : ∀ x y, a.Same x y ↔ b.Same x y := fun x y => by rw [Abs.Same, Abs.Same, he, he, hc]
  have h1 : ∀ i : Fin gs.length, ∃ x, x ∈ gs[i] := fun i =>
    List.exists_mem_of_ne_nil _ (hg.1 _ (List.getElem_mem i.2))
  choose rep hrep using h1
  have h2 : ∀ i : Fin gs.length, ∃ j : Fin hs.length, rep i ∈ hs[j] := by
    intro i
    have : rep i ∈ hs.flatten := (hh.2.2.1 _).mpr ((he _).mp ((hg.2.2.1 _).mp
      (List.mem_flatten.mpr ⟨_, List.getElem_mem i.2, hrep i⟩)))
    obtain ⟨g, h3, h4⟩ := List.mem_flatten.mp this
    obtain ⟨j, hj, rfl⟩ := List.getElem_of_mem h3
    exact ⟨⟨j, hj⟩, h4⟩
  choose f hf using h2
  have inj : Function.Injective f := by
    intro i j hij
    have hsame : b.Same (rep i) (rep j) :=
      (hh.2.2.2 _ _).mp ⟨hs[f i], List.getElem_mem (f i).2, hf i, hij ▸ hf j⟩
    obtain ⟨g, h3, h4, h5⟩ := (hg.2.2.2 _ _).mpr ((hs' _ _).mpr hsame)
    have hd := (List.nodup_flatten.mp hg.2.1).2
    obtain ⟨m, hm, rfl⟩ := List.getElem_of_mem h3
    have dis : ∀ (i : Fin gs.length), rep i ∈ gs[m] → i.1 = m := by
      intro i hi
      by_contra hne
      rw [List.pairwise_iff_getElem] at hd
      rcases Nat.lt_or_gt_of_ne hne with h | h
      · exact hd i.1 m i.2 hm h (hrep i) hi
      · exact hd m i.1 hm i.2 h hi (hrep i)
    exact Fin.ext ((dis i h4).trans (dis j h5).symm)
  have := Fintype.card_le_of_injective f inj
  simpa using this

variable [Cfg]

/-- C63: two histories without `clear` and without panics, each call of either occurring in the other (in any
order, any number of times, up to swapping the arguments of `union`), leave sets that answer `contains`, `len`,
`is_empty` and `in_union` alike, and iteration finds the same groups. -/
theorem c63_order_irrelevant {k k' : Nat} {st st' : Start T} {ops ops' : List (Op T)} {s s' : DSet T} {a a' : Abs T}
    (h : Reached k st ops s a) (h' : Reached k' st' ops' s' a')
    (h0 : ∀ x, x ∈ st.abs.elems ↔ x ∈ st'.abs.elems)
    (hb : ∀ p ∈ ops, p.builder) (hb' : ∀ p ∈ ops', p.builder)
    (h1 : ∀ p ∈ ops, ∃ q ∈ ops', p.like q) (h2 : ∀ q ∈ ops', ∃ p ∈ ops, q.like p) :
    (∀ x, (DSet.contains x false s).1 = (DSet.contains x false s').1) ∧ s.len = s'.len ∧
    s.isEmpty = s'.isEmpty ∧
    (∀ x y, (DSet.inUnion k x y false false s).1 = (DSet.inUnion k' x y false false s').1) ∧
    ∀ o o' q q', ∃ gs gs', (DSet.iterate k (Shuffle.f o) (Shuffle.f o') s).1 = .ok gs ∧
      (DSet.iterate k' (Shuffle.f q) (Shuffle.f q') s').1 = .ok gs' ∧ gs.length = gs'.length ∧
      ∀ x y, (∃ g ∈ gs, x ∈ g ∧ y ∈ g) ↔ ∃ g ∈ gs', x ∈ g ∧ y ∈ g := by
  obtain ⟨e1, e2⟩ := like_same h0 hb hb' h1 h2
  rw [← h.abs, ← h'.abs] at e1 e2
  obtain ⟨c1, c2, c3⟩ := c57_contents h
  obtain ⟨d1, d2, d3⟩ := c57_contents h'
  refine ⟨fun x => ?_, ?_, ?_, fun x y => ?_, fun o o' q q' => ?_⟩
  · obtain ⟨b, hb1, hb2⟩ := c1 x
    obtain ⟨d, hd1, hd2⟩ := d1 x
    rw [hb1, hd1, show b = d by rw [Bool.eq_iff_iff, hb2, hd2, e1]]
  · rw [c2, d2]
    apply List.Perm.length_eq
    rw [List.perm_ext_iff_of_nodup (List.nodup_dedup _) (List.nodup_dedup _)]
    intro x; rw [List.mem_dedup, List.mem_dedup, e1]
  · rw [Bool.eq_iff_iff, c3, d3]; simp only [e1]
  · obtain ⟨b, hb1, hb2⟩ := c56_in_union h x y
    obtain ⟨d, hd1, hd2⟩ := c56_in_union h' x y
    rw [hb1, hd1, show b = d by rw [Bool.eq_iff_iff, hb2, hd2, e1, e1, e2]]
  · have hc : s.ids.len < 2 ^ k := by rw [h.rel.card]; exact lt_two_pow h.small_now h.stack_ge
    have hc' : s'.ids.len < 2 ^ k' := by rw [h'.rel.card]; exact lt_two_pow h'.small_now h'.stack_ge
    obtain ⟨t, g1, _⟩ := iterate_ok (stack := k) h.rel hc o o'
    obtain ⟨t', g2, _⟩ := iterate_ok (stack := k') h'.rel hc' q q'
    obtain ⟨p, _⟩ := groups_partition h.rel o o'
    obtain ⟨p', _⟩ := groups_partition h'.rel q q'
    refine ⟨_, _, by rw [g1], by rw [g2], ?_, fun x y => ?_⟩
    · exact Nat.le_antisymm (partition_le p p' e1 e2)
        (partition_le p' p (fun x => (e1 x).symm) (fun x y => (e2 x y).symm))
    · rw [p.2.2.2, p'.2.2.2, Abs.Same, Abs.Same, e1, e1, e2]

/-- C63: in particular any permutation. -/
theorem c63_permutation {k : Nat} {st : Start T} {ops ops' : List (Op T)} {s s' : DSet T} {a a' : Abs T}
    (h : Reached k st ops s a) (h' : Reached k st ops' s' a') (hb : ∀ p ∈ ops, p.builder)
    (hp : ops.Perm ops') :
    (∀ x, (DSet.contains x false s).1 = (DSet.contains x false s').1) ∧ s.len = s'.len ∧
    ∀ x y, (DSet.inUnion k x y false false s).1 = (DSet.inUnion k x y false false s').1 := by
  obtain ⟨g1, g2, _, g4, _⟩ := c63_order_irrelevant h h' (fun _ => Iff.rfl) hb
    (fun p hm => hb p (hp.mem_iff.mpr hm)) (fun p hm => ⟨p, hp.mem_iff.mp hm, .inl rfl⟩)
    (fun p hm => ⟨p, hp.mem_iff.mpr hm, .inl rfl⟩)
  exact ⟨g1, g2, g4⟩

end

open Demo in
example : ∃ s s' a a',
    Reached 64 (T := Nat) .new [.union 1 2 false false, .union 3 2 false false, .makeSet 4 false] s a ∧
    Reached 64 (T := Nat) .new [.makeSet 4 false, .union 2 3 false false, .union 1 2 false false,
      .union 2 3 false false] s' a' ∧ s ≠ s' ∧
    (DSet.inUnion 64 1 3 false false s).1 = .ok true ∧ (DSet.inUnion 64 1 3 false false s').1 = .ok true :=
  ⟨_, _, _, _, ⟨Nat.le_refl _, small_of_size _ _ (by decide), ⟨_, rfl, rfl⟩, rfl⟩,
    ⟨Nat.le_refl _, small_of_size _ _ (by decide), ⟨_, rfl, rfl⟩, rfl⟩, by decide, by decide, by decide⟩

section
variable {T : Type} [DecidableEq T] [Cfg]

/-! ## C64 -/

/-- C64: `make_set` of a present element changes nothing at all. -/
theorem c64_idempotent {k : Nat} {st : Start T} {ops : List (Op T)} {s : DSet T} {a : Abs T}
    (h : Reached k st ops s a) {x : T} (hx : (DSet.contains x false s).1 = .ok true) :
    DSet.makeSet x false s = (.ok (), s) := by
  obtain ⟨b, h1, h2⟩ := (c57_contents h).1 x
  rw [h1] at hx
  have hx' : x ∈ a.elems := h2.mp (by cases hx; rfl)
  obtain ⟨i, s', h3, _, _, _, h4⟩ := makeOrGetSet_ok h.rel x
  rw [makeSet_of h3, h4 hx']

/-- C64: `make_set` of a new element adds a group of its own and leaves all other answers as they were. -/
theorem c64_isolated {k : Nat} {st : Start T} {ops : List (Op T)} {s : DSet T} {a : Abs T}
    (h : Reached k st ops s a) {x : T} (hx : (DSet.contains x false s).1 = .ok false) (hm : s.len + 1 ≤ usizeMax) :
    ∃ s', DSet.makeSet x false s = (.ok (), s') ∧ s'.len = s.len + 1 ∧
      (DSet.contains x false s').1 = .ok true ∧
      (∀ y, (DSet.inUnion k x y false false s').1 = .ok (decide (y = x)) ∧
        (DSet.inUnion k y x false false s').1 = .ok (decide (y = x))) ∧
      (∀ y, y ≠ x → (DSet.contains y false s').1 = (DSet.contains y false s).1) ∧
      (∀ y z, y ≠ x → z ≠ x →
        (DSet.inUnion k y z false false s').1 = (DSet.inUnion k y z false false s).1) ∧
      ∀ o o' q q', ∃ gs gs', (DSet.iterate k (Shuffle.f o) (Shuffle.f o') s).1 = .ok gs ∧
        (DSet.iterate k (Shuffle.f q) (Shuffle.f q') s').1 = .ok gs' ∧ [x] ∈ gs' ∧
        gs'.length = gs.length + 1 := by
  obtain ⟨b, h1, h2⟩ := (c57_contents h).1 x
  rw [h1] at hx
  have hx' : x ∉ a.elems := fun hh => by have := h2.mpr hh; subst this; cases hx
  obtain ⟨i, s', h3, _, r', _, _⟩ := makeOrGetSet_ok h.rel x
  have hlen : s'.len = s.len + 1 := by
    show s'.ids.len = s.ids.len + 1
    rw [r'.card, h.rel.card, Abs.card, Abs.card, List.dedup_cons_of_notMem hx', List.length_cons]
  have small' : ∀ pre, pre <+: ops ++ [.makeSet x false] → (st.abs.run pre).card ≤ usizeMax := by
    intro pre hp
    rcases List.prefix_concat_iff.mp hp with rfl | hp
    · rw [Abs.run, List.foldl_append]
      show ((Abs.step (st.abs.run ops) (.makeSet x false))).card ≤ usizeMax
      rw [← h.abs]
      have : (a.step (.makeSet x false)).card = s'.len := by
        rw [show s'.len = _ from r'.card]; rfl
      rw [this, hlen]; exact hm
    · exact h.small pre hp
  have h' : Reached k st (ops ++ [.makeSet x false]) s' { a with elems := x :: a.elems } := by
    refine ⟨h.stack_ge, small', ?_, ?_⟩
    · obtain ⟨s0, g1, g2⟩ := h.made
      refine ⟨s0, g1, ?_⟩
      rw [run_append, ← g2]
      show s' = (step k (.makeSet x false) s).2
      rw [show step k (.makeSet x false) s = _ from wrap_ok (makeSet_of h3)]
    · rw [Abs.run, List.foldl_append]
      show _ = Abs.step (st.abs.run ops) (.makeSet x false)
      rw [← h.abs]; rfl
  have hconn : ∀ y, Conn a.pairs x y ↔ y = x := by
    intro y
    constructor
    · intro hc
      rcases conn_support h.rel.pairs hc with e | e
      · exact e.symm
      · exact absurd e.1 hx'
    · rintro rfl; exact .refl _
  have hself : ∀ y, (DSet.inUnion k x y false false s').1 = .ok (decide (y = x)) ∧
        (DSet.inUnion k y x false false s').1 = .ok (decide (y = x)) := by
    intro y
    constructor
    · obtain ⟨b, g1, g2⟩ := c56_in_union h' x y
      rw [g1, show b = decide (y = x) from ?_]
      rw [Bool.eq_iff_iff, g2, decide_eq_true_iff, hconn]
      exact ⟨fun e => e.2.2, fun e => ⟨List.mem_cons_self, e ▸ List.mem_cons_self, e⟩⟩
    · obtain ⟨b, g1, g2⟩ := c56_in_union h' y x
      rw [g1, show b = decide (y = x) from ?_]
      rw [Bool.eq_iff_iff, g2, decide_eq_true_iff]
      exact ⟨fun e => (hconn y).mp e.2.2.symm,
        fun e => ⟨e ▸ List.mem_cons_self, List.mem_cons_self, e ▸ .refl _⟩⟩
  refine ⟨s', makeSet_of h3, hlen, ?_, hself, ?_, ?_, ?_⟩
  · obtain ⟨b, g1, g2⟩ := (c57_contents h').1 x
    rw [g1, g2.mpr List.mem_cons_self]
  · intro y hy
    obtain ⟨b, g1, g2⟩ := (c57_contents h').1 y
    obtain ⟨d, g3, g4⟩ := (c57_contents h).1 y
    rw [g1, g3, show b = d from ?_]
    rw [Bool.eq_iff_iff, g2, g4]; simp [hy]
  · intro y z hy hz
    obtain ⟨b, g1, g2⟩ := c56_in_union h' y z
    obtain ⟨d, g3, g4⟩ := c56_in_union h y z
    rw [g1, g3, show b = d from ?_]
    rw [Bool.eq_iff_iff, g2, g4]; simp [hy, hz]
  · intro o o' q q'
    obtain ⟨gs, g1, g2⟩ := c61_group_count h o o'
    obtain ⟨gs', g3, g4⟩ := c61_group_count h' q q'
    refine ⟨gs, gs', g1, g3, ?_, ?_⟩
    · obtain ⟨gs'', e1, e2, e3, e4, e5, _⟩ := c58_partition h' q q'
      rw [g3] at e1; cases e1
      obtain ⟨g, hg, hxg, _⟩ := (e5 x x).mpr (by rw [(hself x).1]; simp)
      have hall : ∀ y ∈ g, y = x := by
        intro y hy
        have := (e5 x y).mp ⟨g, hg, hxg, hy⟩
        rw [(hself y).1, Except.ok.injEq, decide_eq_true_iff] at this
        exact this
      have hnd : g.Nodup := (List.nodup_flatten.mp e3).1 g hg
      have : g = [x] := by
        match g, hxg, hall, hnd with
        | [y], _, hall, _ => rw [hall y List.mem_cons_self]
        | y :: z :: t, _, hall, hnd =>
          have a1 := hall y List.mem_cons_self
          have a2 := hall z (List.mem_cons_of_mem _ List.mem_cons_self)
          rw [a1, a2] at hnd
          exact absurd List.mem_cons_self (List.nodup_cons.mp hnd).1
      rw [← this]; exact hg
    · rw [hlen] at g4
      have g4' : gs'.length + a.joins = s.len + 1 := g4
      omega

end

open Demo in
example : Reached 64 (.fromIter [7, 3]) demoOps demoEnd (Start.abs (.fromIter [7, 3]) |>.run demoOps) ∧
    (DSet.contains 8 false demoEnd).1 = .ok false ∧ (DSet.contains 4 false demoEnd).1 = .ok true ∧
    demoEnd.len + 1 ≤ usizeMax ∧
    (DSet.iterate 64 same.f same.f (run 64 [.makeSet 8 false, .makeSet 4 false] demoEnd).2).1 =
      .ok [[7], [4, 2, 1, 3], [5], [6], [8]] :=
  ⟨demo_reached, by decide, by decide, by decide, by decide⟩

section
variable {T : Type} [DecidableEq T] [Cfg]

/-! ## C65 -/

/-- C65: after `clear` every later history runs exactly as on a new set. -/
theorem c65_clear {k : Nat} (st : Start T) (pre post : List (Op T)) :
    ∃ s0, st.make = .ok s0 ∧
      (run k (pre ++ [.clear]) s0).1 = (run k pre s0).1 ++ [.ok .unit] ∧
      (run k (pre ++ .clear :: post) s0).1 = (run k (pre ++ [.clear]) s0).1 ++ (run k post DSet.new).1 := by
  obtain ⟨s0, h1, h2⟩ := start_ok st
  refine ⟨s0, h1, ?_, ?_⟩
  · rw [run_append]; rfl
  · rw [run_append, run_append, List.append_assoc]; rfl

end

open Demo in
example : Start.make (.fromIter [7, 3]) = .ok demoStart ∧ (run 64 demoOps demoStart).2 = demoEnd ∧
    (run 64 [.clear, .len, .makeSet 1 false, .union 2 3 false false, .inUnion 1 2 false false] demoEnd).1 =
      [.ok .unit, .ok (.nat 0), .ok .unit, .ok .unit, .ok (.bool false)] :=
  ⟨demoStart_made, by rw [demoEnd_made], by decide⟩

/-! ## C66 -/

/-- The abstract state `b` describes the set `s`: all later calls answer as they should. -/
structure Describes {T : Type} [DecidableEq T] [Cfg] (k : Nat) (b : Abs T) (s : DSet T) : Prop where
  support : ∀ p ∈ b.pairs, p.1 ∈ b.elems ∧ p.2 ∈ b.elems
  card_le : b.card ≤ usizeMax
  answers : ∀ later, (∀ pre, pre <+: later → (b.run pre).card ≤ usizeMax) → Answers b later (run k later s).1

section
variable {T : Type} [DecidableEq T] [Cfg]

/-- C66, for every call but `clear`: whatever panics in it, all later calls answer as if exactly the elements
handed over before the panic had been added. Missing: a panic of an element's destructor in `clear`, for which
the claim is false (`c66_clear_not_panic_safe`). -/
theorem c66_panic_safe_partial {k : Nat} {st : Start T} {ops : List (Op T)} {s : DSet T} {a : Abs T}
    (h : Reached k st ops s a) (op : Op T) {e : Fault} (_hp : (step k op s).1 = .error e)
    (hm : (a.step op).card ≤ usizeMax) :
    Describes k (a.step op) (step k op s).2 ∧ (a.step op).pairs = a.pairs ∧
      ∀ x, x ∈ (a.step op).elems → x ∈ a.elems ∨ (∃ y, op = .union x y false true) ∨
        ∃ n items, (op = .extend n false items true ∨ op = .extendRef n false items true) ∧ x ∈ items := by
  obtain ⟨out, s', h1, r1, h2⟩ := step_ok (stack := k) h.rel op hm (lt_two_pow hm h.stack_ge)
  rw [h1] at _hp ⊢
  have : out = .error e := _hp
  subst this
  refine ⟨⟨r1.pairs, hm, fun later hl => (run_ok h.stack_ge r1 later hl).2⟩, ?_⟩
  cases op with
  | makeSet x kp => cases kp <;> simp_all [Abs.Answer, Abs.step]
  | union x y xp yp => cases xp <;> cases yp <;> simp_all [Abs.Answer, Abs.step]
  | extend n cp items p => cases cp <;> cases p <;> simp_all [Abs.Answer, Abs.step, or_comm]
  | extendRef n cp items p => cases cp <;> cases p <;> simp_all [Abs.Answer, Abs.step, or_comm]
  | clear => simp_all [Abs.Answer]
  | inUnion | contains | len | isEmpty | reserve | iterate => exact ⟨rfl, fun x hx => .inl hx⟩

omit [DecidableEq T] [Cfg] in
/-- C66: a second `clear` that does not panic repairs the set. -/
theorem c66_second_clear_repairs (s : DSet T) :
    (DSet.clear false (DSet.clear true s).2) = (.ok (), DSet.new) ∧ (DSet.clear true s).1 = .error .user :=
  ⟨rfl, rfl⟩

end

/-- C66 is false of `clear`: if the destructor of an element panics, the ids are gone but the forest stays, so
that new elements inherit the old unions. After `union(1, 2)` and a panicking `clear` the set is empty; 3 and 4,
only ever added by `make_set`, are then in one union. No abstract state describes that. -/
theorem c66_clear_not_panic_safe [Cfg] :
    ∃ (ops : List (Op Nat)) (s : DSet Nat) (a : Abs Nat), Reached 64 .new ops s a ∧
      (DSet.clear true s).1 = .error .user ∧ (∀ b, ¬ Describes 64 b (DSet.clear true s).2) ∧
      (run 64 [.len, .makeSet 3 false, .makeSet 4 false, .inUnion 3 4 false false] (DSet.clear true s).2).1 =
        [.ok (.nat 0), .ok .unit, .ok .unit, .ok (.bool true)] := by
  have hs : Reached 64 (T := Nat) .new [.union 1 2 false false]
      ⟨⟨[(2, 1), (1, 0)]⟩, [⟨0, 1⟩, ⟨0, 0⟩]⟩ (Start.abs .new |>.run [.union 1 2 false false]) :=
    ⟨Nat.le_refl _, small_of_size _ _ (by decide), ⟨_, rfl, by rfl⟩, rfl⟩
  have hrun : (run 64 [.len, .makeSet 3 false, .makeSet 4 false, .inUnion 3 4 false false]
      (DSet.clear true (⟨⟨[(2, 1), (1, 0)]⟩, [⟨0, 1⟩, ⟨0, 0⟩]⟩ : DSet Nat)).2).1 =
        [.ok (.nat 0), .ok .unit, .ok .unit, .ok (.bool true)] := by rfl
  refine ⟨_, _, _, hs, rfl, ?_, hrun⟩
  intro b hb
  have h1 := hb.answers [.len] (fun pre hp => by
    have : b.run pre = b := by
      rcases List.prefix_cons_iff.mp hp with rfl | ⟨t, rfl, ht⟩
      · rfl
      · rw [List.prefix_nil.mp ht]; rfl
    rw [this]; exact hb.card_le)
  have h2 : (Except.ok (Out.nat 0) : Except Fault (Out Nat)) = .ok (.nat b.card) := h1.1
  have h3 : b.card = 0 := by injection h2 with h2; injection h2 with h2; exact h2.symm
  have h4 : b.elems = [] := by
    have : b.elems.dedup = [] := List.length_eq_zero_iff.mp h3
    apply List.eq_nil_iff_forall_not_mem.mpr
    intro x hx
    have := this ▸ List.mem_dedup.mpr hx
    cases this
  have h5 : b.pairs = [] := by
    apply List.eq_nil_iff_forall_not_mem.mpr
    intro p hp
    have := (hb.support p hp).1
    rw [h4] at this; cases this
  have h6 := hb.answers _ (small_of_size b
    [.len, .makeSet 3 false, .makeSet 4 false, .inUnion 3 4 false false] (by rw [h4]; decide))
  rw [hrun] at h6
  obtain ⟨_, _, _, ⟨c, hc, hc'⟩, _⟩ := h6
  cases hc
  have h7 : Conn b.pairs 3 4 := (hc'.mp rfl).2.2
  rw [h5] at h7
  rcases conn_support (es := []) (by simp) h7 with h | h
  · cases h
  · cases h.1

open Demo in
/-- the hypotheses of `c66_panic_safe_partial` are met by a union whose second key panics -/
example : Reached 64 (.fromIter [7, 3]) demoOps demoEnd (Start.abs (.fromIter [7, 3]) |>.run demoOps) ∧
    (step 64 (.union 8 1 false true) demoEnd).1 = .error .user ∧
    (run 64 [.contains 8 false, .inUnion 8 1 false false] (step 64 (.union 8 1 false true) demoEnd).2).1 =
      [.ok (.bool true), .ok (.bool false)] :=
  ⟨demo_reached, by decide, by decide⟩

end DS
