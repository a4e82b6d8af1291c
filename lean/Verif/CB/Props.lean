import Verif.CB.Misc
/-!
# Property theorems C01–C21: circular buffer

The statements use only API calls of the model (`Buf.contents` is `iter().collect()`), the specification
`CB.Spec`, the bookkeeping definitions of `CB.Ledger`, and plain lists. `Reachable` is the set of buffers
obtainable through the API, including after caught panics.
-/

set_option linter.unusedSectionVars false

open Rust
namespace CB
open Spec (Deque)

section
variable {α : Type} [Cfg] [Elem α] {cb : Buf α} {xs : List α} {n : Nat}

/-- No destructor among these values panics. -/
def Calm (l : List α) : Prop := ∀ x ∈ l, Elem.dropPanics x = false

/-! ## C01 -/

/-- C01: for every element type with buffers at all (see C84), from a fresh buffer every sequence of calls returns, panics and drops exactly like the bounded
deque, and the final content and capacity agree. -/
theorem c01_refines_bounded_deque (hu : Elem.uninitOk α = true) (hn : n ≤ isizeMax)
    (hs : (n + 1) * Elem.size α ≤ isizeMax) (ops : List (Op α)) (hops : ∀ op ∈ ops, OpOk op) :
    ∃ cb : Buf α, withCapacity n = .ok cb ∧
      (run ops ⟨cb, []⟩).1 = (Spec.run ops ⟨n, []⟩).1 ∧
      (run ops ⟨cb, []⟩).2.dropped = (Spec.run ops ⟨n, []⟩).2.2 ∧
      (run ops ⟨cb, []⟩).2.cb.contents = .ok (Spec.run ops ⟨n, []⟩).2.1.items ∧
      (run ops ⟨cb, []⟩).2.cb.capacity = .ok (Spec.run ops ⟨n, []⟩).2.1.cap := by
  obtain ⟨cb, e, r⟩ := withCapacity_rep hu hn hs
  obtain ⟨cb', e', r'⟩ := run_sim ops (s := ⟨cb, []⟩) r hops
  refine ⟨cb, e, ?_⟩
  rw [e']
  exact ⟨rfl, by simp, r'.contents_eq, r'.capacity_eq⟩

/-- C01, from any reachable buffer (for example one made by `from_iter`, or one that survived a panic). -/
theorem c01_refines_from_any (h : Reachable cb) (hx : cb.contents = .ok xs) (hn : cb.capacity = .ok n)
    (ops : List (Op α)) (hops : ∀ op ∈ ops, OpOk op) (dr : List α) :
    (run ops ⟨cb, dr⟩).1 = (Spec.run ops ⟨n, xs⟩).1 ∧
    (run ops ⟨cb, dr⟩).2.dropped = dr ++ (Spec.run ops ⟨n, xs⟩).2.2 ∧
    (run ops ⟨cb, dr⟩).2.cb.contents = .ok (Spec.run ops ⟨n, xs⟩).2.1.items ∧
    (run ops ⟨cb, dr⟩).2.cb.capacity = .ok (Spec.run ops ⟨n, xs⟩).2.1.cap := by
  obtain ⟨cb', e', r'⟩ := run_sim ops (s := ⟨cb, dr⟩) (h.rep_of hx hn) hops
  rw [e']
  exact ⟨rfl, rfl, r'.contents_eq, r'.capacity_eq⟩

end

open Demo in
example : Elem.uninitOk Nat = true ∧ (3 : Nat) ≤ isizeMax ∧ (3 + 1) * Elem.size Nat ≤ isizeMax ∧
    (∀ op ∈ [Op.pushBack 1, .pushFront 2, .resize 1, .reverse, .popBack], OpOk op) := by
  refine ⟨rfl, by decide, by decide, ?_⟩
  intro op h
  simp only [List.mem_cons, List.not_mem_nil, or_false] at h
  rcases h with rfl | rfl | rfl | rfl | rfl <;> simp only [OpOk]
  exact Or.inl (by decide)

section
variable {α : Type} [Cfg] [Elem α] {cb : Buf α} {xs : List α} {n : Nat}

/-! ## C02, C03 -/

/-- C02: `push_back` keeps the newest `capacity()` elements of the old content followed by `v`, and drops
exactly the others. -/
theorem c02_push_back (h : Reachable cb) (hx : cb.contents = .ok xs) (hn : cb.capacity = .ok n) (v : α)
    (hc : Calm (xs ++ [v])) (dr : List α) :
    ∃ cb', pushBack v ⟨cb, dr⟩ = (.ok (), ⟨cb', dr ++ (xs ++ [v]).take ((xs ++ [v]).length - n)⟩) ∧
      cb'.contents = .ok (lastN n (xs ++ [v])) ∧ cb'.capacity = .ok n := by
  have r := h.rep_of hx hn
  obtain ⟨cb', e, r'⟩ := pushBack_sim (s := ⟨cb, dr⟩) r v
  rw [pushBack_calm r.le_cap hc] at e r'
  exact ⟨cb', e, r'.contents_eq, r'.capacity_eq⟩

/-- C02, spelled out: append when not full, evict exactly the front element when full, discard `v` when
the capacity is zero. -/
theorem c02_push_back_cases (h : Reachable cb) (hx : cb.contents = .ok xs) (hn : cb.capacity = .ok n)
    (v : α) (hc : Calm (xs ++ [v])) (dr : List α) :
    ∃ cb' dr', pushBack v ⟨cb, dr⟩ = (.ok (), ⟨cb', dr ++ dr'⟩) ∧
      (xs.length < n → cb'.contents = .ok (xs ++ [v]) ∧ dr' = []) ∧
      (xs.length = n → ∀ x ys, xs = x :: ys → cb'.contents = .ok (ys ++ [v]) ∧ dr' = [x]) ∧
      (n = 0 → cb'.contents = .ok [] ∧ dr' = [v]) := by
  obtain ⟨cb', e, hc', _⟩ := c02_push_back h hx hn v hc dr
  have hl := (h.rep_of hx hn).le_cap
  simp only at hl
  refine ⟨cb', _, e, ?_, ?_, ?_⟩
  · intro hlt
    have : xs.length + 1 - n = 0 := by omega
    simpa [lastN, this] using hc'
  · intro hlt x ys hxs
    have : xs.length + 1 - n = 1 := by omega
    subst hxs
    simp only [List.length_cons] at this
    simpa [lastN, this] using hc'
  · intro h0
    have : xs = [] := List.length_eq_zero_iff.mp (by omega)
    subst this; subst h0
    simpa [lastN] using hc'

end

open Demo in
example : Reachable Demo.buf ∧ Demo.buf.contents = .ok [3, 4, 5] ∧ Demo.buf.capacity = .ok 3 ∧
    Calm ([3, 4, 5] ++ [6]) :=
  ⟨buf_reachable, buf_contents, buf_capacity, by unfold Calm; decide⟩

section
variable {α : Type} [Cfg] [Elem α] {cb : Buf α} {xs : List α} {n : Nat}

/-- C03: `push_front` keeps the foremost `capacity()` elements of `v` followed by the old content, and
drops exactly the other. -/
theorem c03_push_front (h : Reachable cb) (hx : cb.contents = .ok xs) (hn : cb.capacity = .ok n) (v : α)
    (hc : Calm (v :: xs)) (dr : List α) :
    ∃ cb', pushFront v ⟨cb, dr⟩ = (.ok (), ⟨cb', dr ++ (v :: xs).drop n⟩) ∧
      cb'.contents = .ok ((v :: xs).take n) ∧ cb'.capacity = .ok n := by
  have r := h.rep_of hx hn
  obtain ⟨cb', e, r'⟩ := pushFront_sim (s := ⟨cb, dr⟩) r v
  rw [pushFront_calm r.le_cap hc] at e r'
  exact ⟨cb', e, r'.contents_eq, r'.capacity_eq⟩

end

open Demo in
example : Reachable Demo.buf ∧ Demo.buf.contents = .ok [3, 4, 5] ∧ Demo.buf.capacity = .ok 3 ∧
    Calm (6 :: [3, 4, 5]) :=
  ⟨buf_reachable, buf_contents, buf_capacity, by unfold Calm; decide⟩

section
variable {α : Type} [Cfg] [Elem α] {cb : Buf α} {xs : List α} {n : Nat}

/-! ## C04, C05 -/

/-- C04: the observers agree with what `iter()` yields. -/
theorem c04_observers_agree (h : Reachable cb) :
    ∃ xs n, cb.contents = .ok xs ∧ cb.capacity = .ok n ∧ cb.len = .ok xs.length ∧ xs.length ≤ n ∧
      (cb.isEmpty = true ↔ xs.length = 0) ∧
      (cb.isFull = .ok true ↔ xs.length = n) ∧ (cb.isFull = .ok false ↔ xs.length ≠ n) := by
  obtain ⟨xs, n, hx, hn, hl, r⟩ := h.shows
  refine ⟨xs, n, hx, hn, r.len_eq, hl, ?_, ?_, ?_⟩
  · rw [r.isEmpty_eq]; simp
  · rw [r.isFull_eq]; simp
  · rw [r.isFull_eq]; simp

end

open Demo in
example : Reachable Demo.buf := buf_reachable

section
variable {α : Type} [Cfg] [Elem α] {cb : Buf α} {xs : List α} {n : Nat}

/-- C05: after any history the capacity is the argument of the last successful `resize`, or the initial
one. -/
theorem c05_only_resize_changes_capacity (h : Reachable cb) (hn : cb.capacity = .ok n)
    (ops : List (Op α)) (hops : ∀ op ∈ ops, OpOk op) (dr : List α) :
    (run ops ⟨cb, dr⟩).2.cb.capacity
      = .ok (capAfter n (ops.zip (run ops ⟨cb, dr⟩).1)) := by
  obtain ⟨xs, n', hx, hn', hl, r⟩ := h.shows
  rw [hn] at hn'; cases hn'
  obtain ⟨cb', e', r'⟩ := run_sim ops (s := ⟨cb, dr⟩) r hops
  rw [e', r'.capacity_eq, (run_spec_facts ops (d := ⟨n, xs⟩) hl).2]

/-- C05, `append`: neither capacity changes. -/
theorem c05_append_keeps_capacities {a b : Buf α} {m : Nat} (ha : Reachable a) (hb : Reachable b)
    (hn : a.capacity = .ok n) (hm : b.capacity = .ok m) (dr : List α) :
    (append ⟨a, b, dr⟩).2.self.capacity = .ok n ∧ (append ⟨a, b, dr⟩).2.other.capacity = .ok m := by
  obtain ⟨xs, n', _, hn', _, r⟩ := ha.shows
  obtain ⟨ys, m', _, hm', _, r2⟩ := hb.shows
  rw [hn] at hn'; cases hn'
  rw [hm] at hm'; cases hm'
  obtain ⟨cb', cb'', e, h1, h2⟩ := append_sim (s := ⟨a, b, dr⟩) r r2
  rw [e]
  refine ⟨?_, h2.capacity_eq⟩
  rw [h1.capacity_eq, (append_eq_extend _ _).2.1, extend_cap]

/-- C05, `extend(&items)`: the capacity does not change. -/
theorem c05_extend_ref_keeps_capacity (h : Reachable cb) (hn : cb.capacity = .ok n)
    (c : α → Except Fault α) (items : List α) (p : Bool) (dr : List α) :
    (extendRef c items p ⟨cb, dr⟩).2.cb.capacity = .ok n := by
  obtain ⟨xs, n', _, hn', _, r⟩ := h.shows
  rw [hn] at hn'; cases hn'
  obtain ⟨cb', e, r'⟩ := extendRef_sim c p items (s := ⟨cb, dr⟩) r
  rw [e, r'.capacity_eq]
  have hcap := extend_cap (Spec.clonePrefix c p items).1 false ⟨n, xs⟩
  have : (Spec.extendF ⟨n, xs⟩ (Spec.clonePrefix c p items).1 (Spec.clonePrefix c p items).2).deque.cap
      = (Spec.extend ⟨n, xs⟩ (Spec.clonePrefix c p items).1 false).deque.cap := by
    unfold Spec.extendF
    split <;> (simp only; split <;> rfl)
  rw [this, hcap]

end

open Demo in
example : Reachable Demo.buf ∧ Demo.buf.capacity = .ok 3 ∧
    capAfter 3 (([.resize 5, .pushBack 1] : List (Op Nat)).zip
      (run [.resize 5, .pushBack 1] ⟨Demo.buf, []⟩).1) = 5 :=
  ⟨buf_reachable, buf_capacity, rfl⟩

section
variable {α : Type} [Cfg] [Elem α] {cb : Buf α} {xs : List α} {n : Nat}

/-! ## C06 -/

/-- C06: a `resize` whose allocation is accepted keeps the newest `n` elements in order, drops exactly the
older ones oldest first and sets the capacity. -/
theorem c06_resize (h : Reachable cb) (hx : cb.contents = .ok xs) (m : Nat) (hm : CapOk α m)
    (hs : (m + 1) * Elem.size α ≤ isizeMax) (hc : Calm xs) (dr : List α) :
    ∃ cb', resize m ⟨cb, dr⟩ = (.ok (), ⟨cb', dr ++ xs.take (xs.length - m)⟩) ∧
      cb'.contents = .ok (lastN m xs) ∧ cb'.capacity = .ok m := by
  obtain ⟨xs', n, hx', hn, hl, r⟩ := h.shows
  rw [hx] at hx'; cases hx'
  obtain ⟨cb', e, r'⟩ := resize_sim (s := ⟨cb, dr⟩) r m (.inl hm)
  have hsp : Spec.resize ⟨n, xs⟩ m = ⟨.ok (), ⟨m, lastN m xs⟩, xs.take (xs.length - m)⟩ := by
    unfold Spec.resize
    rw [if_neg (by omega)]
    simp only
    rw [dropSeq_calm _ (fun x hx => hc x (List.mem_of_mem_take hx))]
    simp [lastN]
  rw [hsp] at e r'
  exact ⟨cb', e, r'.contents_eq, r'.capacity_eq⟩

/-- C06: a `resize` whose allocation is refused panics and changes nothing. -/
theorem c06_resize_refused (h : Reachable cb) (m : Nat) (hm : m < usizeMax)
    (hs : isizeMax < (m + 1) * Elem.size α) (dr : List α) :
    ∃ cb', resize m ⟨cb, dr⟩ = (.error .capacityOverflow, ⟨cb', dr⟩) ∧
      cb'.contents = cb.contents ∧ cb'.capacity = cb.capacity := by
  obtain ⟨xs, n, hx, hn, hl, r⟩ := h.shows
  obtain ⟨cb', e, r'⟩ := resize_sim (s := ⟨cb, dr⟩) r m (by
    by_cases hz : Elem.size α = 0
    · rw [hz] at hs; omega
    · exact .inl (.inr ⟨by omega, hm⟩))
  have hsp : Spec.resize ⟨n, xs⟩ m = ⟨.error .capacityOverflow, ⟨n, xs⟩, []⟩ := by
    unfold Spec.resize; rw [if_pos hs]
  rw [hsp] at e r'
  exact ⟨cb', by simpa using e, by rw [r'.contents_eq, hx], by rw [r'.capacity_eq, hn]⟩

end

open Demo in
example : Reachable Demo.buf ∧ Demo.buf.contents = .ok [3, 4, 5] ∧ CapOk Nat 2 ∧
    (2 + 1) * Elem.size Nat ≤ isizeMax ∧ Calm [3, 4, 5] ∧
    2 ^ 61 < usizeMax ∧ isizeMax < (2 ^ 61 + 1) * Elem.size Nat :=
  ⟨buf_reachable, buf_contents, Or.inl (by decide), by decide, by unfold Calm; decide, by decide, by decide⟩

section
variable {α : Type} [Cfg] [Elem α] {cb : Buf α} {xs : List α} {n : Nat}

/-! ## C07 -/

/-- C07: whatever the call, a fault is the documented index panic, a refused allocation, or a panic of
user code; never undefined behaviour, a slice index out of bounds, an arithmetic overflow, a failed debug
assertion or an endless loop. -/
theorem c07_only_expected_panics (h : Reachable cb) (hx : cb.contents = .ok xs) (op : Op α)
    (hop : OpOk op) (dr : List α) {e : Fault} (he : (step op ⟨cb, dr⟩).1 = .error e) :
    Allowed xs op e := by
  obtain ⟨xs', n, hx', hn, hl, r⟩ := h.shows
  rw [hx] at hx'; cases hx'
  obtain ⟨cb', e', r'⟩ := step_sim (s := ⟨cb, dr⟩) r op hop
  rw [e'] at he
  exact step_allowed (d := ⟨n, xs⟩) hl op he

/-- C07: the remaining observers never fault. -/
theorem c07_views_never_fault (h : Reachable cb) :
    (∃ p, cb.slices = .ok p) ∧ (∃ p, cb.slicesMut = .ok p) ∧ (∃ p, cb.iterMut = .ok p) ∧
    (∃ p, cb.iter = .ok p) := by
  obtain ⟨xs, n, hx, hn, hl, r⟩ := h.shows
  refine ⟨?_, ?_, ⟨_, r.iterMut_eq⟩, ?_⟩
  · rw [r.slices_eq]; split <;> exact ⟨_, rfl⟩
  · have := r.iterMut_eq
    unfold Buf.iterMut at this
    cases hm : cb.slicesMut with
    | ok p => exact ⟨p, rfl⟩
    | error e => rw [hm] at this; cases this
  · unfold Buf.iter
    rw [r.slices_eq]; split <;> exact ⟨_, rfl⟩

/-- C07, `append`: only user panics and the abort on a second panic. -/
theorem c07_append_only_user_panics {a b : Buf α} (ha : Reachable a) (hb : Reachable b) (dr : List α)
    {e : Fault} (he : (append ⟨a, b, dr⟩).1 = .error e) : e = .user ∨ e = .abort := by
  obtain ⟨xs, n, _, _, hl, r⟩ := ha.shows
  obtain ⟨ys, m, _, _, _, r2⟩ := hb.shows
  obtain ⟨cb', cb'', e', h1, h2⟩ := append_sim (s := ⟨a, b, dr⟩) r r2
  rw [e', (append_eq_extend _ _).1] at he
  have := step_allowed (d := ⟨n, xs⟩) hl (.extend ys false) (e := e) (by
    simp only [Spec.step]; simp only at he; rw [he]; rfl)
  revert this
  cases e <;> simp [Allowed]

end

open Demo in
example : Reachable Demo.bomb ∧ Demo.bomb.contents = .ok [13, 4, 5] ∧
    (step (.pushBack 7) ⟨Demo.bomb, []⟩).1 = .error .user ∧
    (step (.index 3) ⟨Demo.bomb, []⟩).1 = .error .explicit :=
  ⟨bomb_reachable, bomb_contents, rfl, rfl⟩

section
variable {α : Type} [Cfg] [Elem α] {cb : Buf α} {xs : List α} {n : Nat}

/-! ## C08 -/

/-- C08: over any history, what was in the buffer plus what was handed in is exactly what was handed out,
plus what was dropped, plus what is still there. -/
theorem c08_conservation (h : Reachable cb) (hx : cb.contents = .ok xs) (ops : List (Op α))
    (hops : ∀ op ∈ ops, OpOk op) (dr : List α) :
    ∃ handed dropped ys, HandedAll (ops.zip (run ops ⟨cb, dr⟩).1) handed ∧
      (run ops ⟨cb, dr⟩).2.dropped = dr ++ dropped ∧
      (run ops ⟨cb, dr⟩).2.cb.contents = .ok ys ∧
      (xs ++ handed).Perm (returnedAll (ops.zip (run ops ⟨cb, dr⟩).1) ++ dropped ++ ys) := by
  obtain ⟨xs', n, hx', hn, hl, r⟩ := h.shows
  rw [hx] at hx'; cases hx'
  obtain ⟨cb', e', r'⟩ := run_sim ops (s := ⟨cb, dr⟩) r hops
  obtain ⟨⟨hs, h1, h2⟩, _⟩ := run_spec_facts ops (d := ⟨n, xs⟩) hl
  rw [e']
  exact ⟨hs, _, _, h1, rfl, r'.contents_eq, h2⟩

/-- C08: dropping the buffer drops exactly what is still in it, each value once. -/
theorem c08_drop_drops_the_rest (h : Reachable cb) (hx : cb.contents = .ok xs) (hc : Calm xs) (dr : List α) :
    ∃ cb', dropSelf ⟨cb, dr⟩ = (.ok (), ⟨cb', dr ++ xs.reverse⟩) ∧ cb'.contents = .ok [] := by
  obtain ⟨xs', n, hx', hn, hl, r⟩ := h.shows
  rw [hx] at hx'; cases hx'
  obtain ⟨cb', e, r'⟩ := clear_sim (s := ⟨cb, dr⟩) r
  rw [clear_calm (d := ⟨n, xs⟩) hc] at e r'
  exact ⟨cb', e, r'.contents_eq⟩

/-- C08: if all values handed in are different objects, no value is dropped twice, handed out twice,
dropped while still stored, or handed out and dropped. -/
theorem c08_nothing_twice (h : Reachable cb) (hx : cb.contents = .ok xs) (ops : List (Op α))
    (hops : ∀ op ∈ ops, OpOk op) :
    ∃ handed ys, HandedAll (ops.zip (run ops ⟨cb, []⟩).1) handed ∧
      (run ops ⟨cb, []⟩).2.cb.contents = .ok ys ∧
      ((xs ++ handed).Nodup →
        (returnedAll (ops.zip (run ops ⟨cb, []⟩).1) ++ (run ops ⟨cb, []⟩).2.dropped ++ ys).Nodup) := by
  obtain ⟨hs, dropped, ys, h1, h2, h3, h4⟩ := c08_conservation h hx ops hops []
  refine ⟨hs, ys, h1, h3, fun hnd => ?_⟩
  rw [h2, List.nil_append]
  exact h4.nodup_iff.mp hnd

end

open Demo in
example : Reachable Demo.bomb ∧ Demo.bomb.contents = .ok [13, 4, 5] ∧
    (∀ op ∈ [Op.pushBack 7, .popFront, .replaceAt 0 9], OpOk op) ∧
    (run [.pushBack 7, .popFront, .replaceAt 0 9] ⟨Demo.bomb, []⟩).2.dropped = [13, 7] :=
  ⟨bomb_reachable, bomb_contents, by intro op h; simp at h; rcases h with rfl | rfl | rfl <;> trivial, rfl⟩

section
variable {α : Type} [Cfg] [Elem α] {cb : Buf α} {xs : List α} {n : Nat}

/-! ## C09 -/

/-- The values a call works on, in order. -/
def workedOn (xs : List α) : Op α → List α
  | .pushBack v => xs ++ [v]
  | .pushFront v => v :: xs
  | .extend items _ => xs ++ items
  | .extendRef c items p => xs ++ (Spec.clonePrefix c p items).1
  | _ => xs

/-- C09: after a panic inside a call the capacity is unchanged, what is left is a contiguous part of what
the call worked on, every value involved is either dropped once or still there, and every later history
behaves like the bounded deque. -/
theorem c09_panic_keeps_buffer_sound (h : Reachable cb) (hx : cb.contents = .ok xs)
    (hn : cb.capacity = .ok n) (op : Op α) (hop : OpOk op) (dr : List α) {e : Fault}
    (he : (step op ⟨cb, dr⟩).1 = .error e) :
    ∃ ys dropped handed, (step op ⟨cb, dr⟩).2.cb.contents = .ok ys ∧
      (step op ⟨cb, dr⟩).2.cb.capacity = .ok n ∧
      (step op ⟨cb, dr⟩).2.dropped = dr ++ dropped ∧
      ys <:+: workedOn xs op ∧
      Handed op (.error e) handed ∧ (xs ++ handed).Perm (dropped ++ ys) ∧
      ∀ ops, (∀ op ∈ ops, OpOk op) →
        (run ops (step op ⟨cb, dr⟩).2).1 = (Spec.run ops ⟨n, ys⟩).1 ∧
        (run ops (step op ⟨cb, dr⟩).2).2.dropped = dr ++ dropped ++ (Spec.run ops ⟨n, ys⟩).2.2 := by
  have r := h.rep_of hx hn
  have hl := r.le_cap
  obtain ⟨cb', e', r'⟩ := step_sim (s := ⟨cb, dr⟩) r op hop
  rw [e'] at he ⊢
  simp only at he
  have hcap : (Spec.step ⟨n, xs⟩ op).deque.cap = n := by
    rw [step_cap, he]; cases op <;> rfl
  obtain ⟨hd, hh, hp⟩ := step_conserves hl op
  rw [he] at hh hp
  have hret : returned op (.error e) = [] := by cases op <;> rfl
  rw [hret, List.nil_append] at hp
  refine ⟨(Spec.step ⟨n, xs⟩ op).deque.items, (Spec.step ⟨n, xs⟩ op).dropped, hd, r'.contents_eq,
    by rw [r'.capacity_eq, hcap], rfl, ?_, hh, hp, ?_⟩
  · -- contiguous
    have drop_suffix : ∀ l : List α, (Spec.dropSeq l).2.1 <:+ l := fun l =>
      ⟨(Spec.dropSeq l).1, dropSeq_append l⟩
    cases op with
    | pushBack v =>
      have := extend_infix [v] false ⟨n, xs⟩ hl
      simp only [Spec.extend] at this
      simp only [Spec.step, workedOn] at he ⊢
      cases hr : (Spec.pushBack ⟨n, xs⟩ v).ret <;> simpa [hr] using this
    | pushFront v =>
      simp only [Spec.step, workedOn] at he ⊢
      have hin : xs <:+: v :: xs := (List.suffix_cons _ _).isInfix
      by_cases h0 : n = 0
      · simp only [Spec.pushFront, h0, if_true]; exact hin
      · by_cases h1 : xs.length < n
        · simp only [Spec.pushFront, h0, h1, if_true, if_false]; exact List.infix_refl _
        · cases h2 : xs.getLast? with
          | none => simp [Spec.pushFront, h0, h1, h2, Except.map] at he
          | some x =>
            cases h3 : Elem.dropPanics x with
            | true =>
              simp only [Spec.pushFront, h0, h1, h2, h3, if_true, if_false]
              exact (List.dropLast_prefix xs).isInfix.trans hin
            | false => simp [Spec.pushFront, h0, h1, h2, h3, Except.map] at he
    | extend items p => exact extend_infix items p ⟨n, xs⟩ hl
    | extendRef c items p =>
      simp only [Spec.step, workedOn, (extendF_parts _ _ _).1]
      exact extend_infix _ false ⟨n, xs⟩ hl
    | clear =>
      simp only [Spec.step, workedOn, Spec.clear]
      have h1 := (drop_suffix xs.reverse)
      exact (List.reverse_suffix.mp (by rw [List.reverse_reverse]; exact h1)).isInfix
    | resize m =>
      simp only [Spec.step, workedOn, Spec.resize]
      split
      · exact List.infix_refl _
      · have h1 := drop_suffix (xs.take (xs.length - m))
        obtain ⟨pre, hpre⟩ := h1
        split
        · refine ⟨pre, [], ?_⟩
          rw [List.append_nil, ← List.append_assoc, hpre, List.take_append_drop]
        · exact (List.drop_suffix _ _).isInfix
    | swap a b =>
      simp only [Spec.step, workedOn] at he ⊢
      split
      · rename_i h1 h2; simp [h1, h2] at he
      · exact List.infix_refl _
    | replaceAt i v =>
      simp only [Spec.step, workedOn] at he ⊢
      split
      · rename_i h1; simp [h1] at he
      · exact List.infix_refl _
    | index i =>
      simp only [Spec.step, workedOn] at he ⊢
      split
      · rename_i h1; simp [h1] at he
      · exact List.infix_refl _
    | _ => simp [Spec.step] at he
  · intro ops hops
    obtain ⟨cb'', e'', r''⟩ := run_sim ops (s := ⟨cb', dr ++ (Spec.step ⟨n, xs⟩ op).dropped⟩) r' hops
    have hdq : (Spec.step ⟨n, xs⟩ op).deque = ⟨n, (Spec.step ⟨n, xs⟩ op).deque.items⟩ := by
      conv => lhs; rw [show (Spec.step ⟨n, xs⟩ op).deque
        = ⟨(Spec.step ⟨n, xs⟩ op).deque.cap, (Spec.step ⟨n, xs⟩ op).deque.items⟩ from rfl]
      rw [hcap]
    rw [e'', ← hdq]
    exact ⟨rfl, rfl⟩

theorem append_perm (vs : List α) : ∀ d : Deque α, d.items.length ≤ d.cap →
    (d.items ++ vs).Perm ((Spec.append d vs).1.dropped ++ (Spec.append d vs).1.deque.items ++
      (Spec.append d vs).2) ∧ (Spec.append d vs).2 <:+ vs := by
  induction vs with
  | nil => intro d _; simp [Spec.append]
  | cons v vs ih =>
    intro d hl
    have h1 := pushBack_perm hl v
    have e0 : d.items ++ v :: vs = d.items ++ [v] ++ vs := by simp
    rw [e0]
    unfold Spec.append
    cases hr : (Spec.pushBack d v).ret with
    | error e =>
      simp only [hr]
      exact ⟨h1.append_right vs, List.suffix_cons _ _⟩
    | ok u =>
      obtain ⟨i1, i2⟩ := ih (Spec.pushBack d v).deque (pushBack_length hl v)
      simp only [hr]
      refine ⟨?_, i2.trans (List.suffix_cons _ _)⟩
      refine (h1.append_right vs).trans ?_
      rw [List.append_assoc]
      refine (i1.append_left _).trans ?_
      simp

/-- C09, `append`: also when a destructor panics half way, both buffers stay sound: what is left in `self`
is a contiguous part of the two contents, `other` keeps an end piece, and every value is dropped once or
is in exactly one of the buffers. -/
theorem c09_append_keeps_buffers_sound {a b : Buf α} {ys : List α} {m : Nat} (ha : Reachable a)
    (hb : Reachable b) (hx : a.contents = .ok xs) (hy : b.contents = .ok ys) (hn : a.capacity = .ok n)
    (hm : b.capacity = .ok m) (dr : List α) :
    ∃ xs' ys' dropped, (append ⟨a, b, dr⟩).2.self.contents = .ok xs' ∧
      (append ⟨a, b, dr⟩).2.other.contents = .ok ys' ∧
      (append ⟨a, b, dr⟩).2.dropped = dr ++ dropped ∧
      xs' <:+: xs ++ ys ∧ ys' <:+ ys ∧ (xs ++ ys).Perm (dropped ++ xs' ++ ys') := by
  have r := ha.rep_of hx hn
  obtain ⟨cb', cb'', e, h1, h2⟩ := append_sim (s := ⟨a, b, dr⟩) r (hb.rep_of hy hm)
  rw [e]
  obtain ⟨p1, p2⟩ := append_perm ys ⟨n, xs⟩ r.le_cap
  refine ⟨_, _, _, h1.contents_eq, h2.contents_eq, rfl, ?_, p2, p1⟩
  rw [(append_eq_extend _ _).2.1]
  exact extend_infix ys false ⟨n, xs⟩ r.le_cap

end

open Demo in
example : Reachable Demo.bomb ∧ Demo.bomb.contents = .ok [13, 4, 5] ∧ Demo.bomb.capacity = .ok 3 ∧
    (step (.extend [6, 7] false) ⟨Demo.bomb, []⟩).1 = .error .user ∧
    (step (.extend [6, 7] false) ⟨Demo.bomb, []⟩).2.cb.contents = .ok [4, 5] :=
  ⟨bomb_reachable, bomb_contents, bomb_capacity, rfl, rfl⟩

section
variable {α : Type} [Cfg] [Elem α] {cb : Buf α} {xs : List α} {n : Nat}

/-! ## C10, C11, C12 -/

/-- What is read at some positions of the backing slice, all of which must be initialised. -/
def readAll (cb : Buf α) (ps : List Nat) : Except Fault (List α) := ps.mapM (readCell cb.buf)

theorem readAll_eq {d : Deque α} (r : Rep cb d) :
    readAll cb ((List.range d.items.length).map fun i => wrap (d.cap + 1) (cb.start + i)) = .ok d.items := by
  have key : ∀ (ps : List Nat) (vs : List α), ps.length = vs.length →
      (∀ (i : Nat) p v, ps[i]? = some p → vs[i]? = some v → readCell cb.buf p = .ok v) →
      ps.mapM (readCell cb.buf) = .ok vs := by
    intro ps
    induction ps with
    | nil => intro vs hl _; cases vs <;> simp_all [pure, Except.pure]
    | cons p ps ih =>
      intro vs hl hv
      cases vs with
      | nil => simp at hl
      | cons v vs =>
        rw [List.mapM_cons, hv 0 p v rfl rfl, ih vs (by simpa using hl)
          (fun i p v h1 h2 => hv (i + 1) p v (by simpa using h1) (by simpa using h2))]
        rfl
  apply key
  · simp
  · intro i p v h1 h2
    have hi : i < d.items.length := (List.getElem?_eq_some_iff.mp h2).1
    rw [List.getElem?_map, List.getElem?_range hi] at h1
    simp only [Option.map_some, Option.some.injEq] at h1
    rw [← h1, r.readCell_eq hi]
    rw [List.getElem?_eq_getElem hi] at h2
    simpa using h2

/-- C10: the slices, the mutable slices (as places), indexing, `first` and `last` all describe the
sequence `iter()` yields. -/
theorem c10_views_agree (h : Reachable cb) (hx : cb.contents = .ok xs) :
    (∃ a b, cb.slices = .ok (a, b) ∧ a ++ b = xs) ∧
    (∃ a b, cb.slicesMut = .ok (a, b) ∧
      readAll cb (Buf.regionPositions a ++ Buf.regionPositions b) = .ok xs ∧
      (Buf.regionPositions a ++ Buf.regionPositions b).Nodup) ∧
    (∀ i, (hi : i < xs.length) → cb.index i = .ok xs[i]) ∧
    cb.first = .ok xs.head? ∧ cb.last = .ok xs.getLast? := by
  obtain ⟨xs', n, hx', hn, hl, r⟩ := h.shows
  rw [hx] at hx'; cases hx'
  refine ⟨?_, ?_, fun i hi => r.index_ok hi, r.first_eq, r.last_eq⟩
  · rw [r.slices_eq]
    split
    · exact ⟨_, _, rfl, by simp⟩
    · exact ⟨_, _, rfl, by simp⟩
  · obtain ⟨⟨a, b⟩, hab⟩ := (c07_views_never_fault h).2.1
    have him := r.iterMut_eq
    unfold Buf.iterMut at him
    rw [hab] at him
    simp only [bind, Except.bind, pure, Except.pure, Except.ok.injEq] at him
    refine ⟨a, b, hab, ?_, ?_⟩
    · rw [him]; exact readAll_eq r
    · rw [him]
      have h3 := r.start_le
      simp only at h3 hl
      rw [List.nodup_iff_pairwise_ne, List.pairwise_map]
      refine List.Pairwise.imp_of_mem ?_ (List.pairwise_lt_range (n := xs.length))
      intro i j hi hj hij heq
      rw [List.mem_range] at hi hj
      have := (wrap_inj (n := n + 1) (s := cb.start) (by omega) (by omega) (by omega)).mp heq
      omega

/-- C11: `linearize` returns the whole content; afterwards the first slice is the whole content, the
second is empty, and content and capacity are unchanged. -/
theorem c11_linearize (h : Reachable cb) (hx : cb.contents = .ok xs) (dr : List α) :
    ∃ cb', linearize ⟨cb, dr⟩ = (.ok xs, ⟨cb', dr⟩) ∧ cb'.slices = .ok (xs, []) ∧
      cb'.contents = .ok xs ∧ cb'.capacity = cb.capacity := by
  obtain ⟨xs', n, hx', hn, hl, r⟩ := h.shows
  rw [hx] at hx'; cases hx'
  obtain ⟨cb', e, r', hs⟩ := linearize_sim (s := ⟨cb, dr⟩) r
  refine ⟨cb', e, ?_, r'.contents_eq, by rw [r'.capacity_eq, hn]⟩
  rw [r'.slices_eq, hs, if_pos (Nat.zero_le _)]

end

open Demo in
example : Reachable Demo.buf ∧ Demo.buf.contents = .ok [3, 4, 5] ∧
    Demo.buf.slices = .ok ([3, 4], [5]) :=
  ⟨buf_reachable, buf_contents, rfl⟩

section
variable {α : Type} [Cfg] [Elem α] {cb : Buf α} {xs : List α} {n : Nat}

/-- C12: `swap` exchanges exactly the two positions. -/
theorem c12_swap (h : Reachable cb) (hx : cb.contents = .ok xs) {a b : Nat} (ha : a < xs.length)
    (hb : b < xs.length) (dr : List α) :
    ∃ cb' ys, swap a b ⟨cb, dr⟩ = (.ok (), ⟨cb', dr⟩) ∧ cb'.contents = .ok ys ∧
      cb'.capacity = cb.capacity ∧ ys[a]? = xs[b]? ∧ ys[b]? = xs[a]? ∧
      ∀ i, i ≠ a → i ≠ b → ys[i]? = xs[i]? := by
  obtain ⟨xs', n, hx', hn, hl, r⟩ := h.shows
  rw [hx] at hx'; cases hx'
  obtain ⟨cb', e, r'⟩ := swap_sim (s := ⟨cb, dr⟩) r a b
  simp only [List.getElem?_eq_getElem ha, List.getElem?_eq_getElem hb] at e r'
  refine ⟨cb', _, e, r'.contents_eq, by rw [r'.capacity_eq, hn], ?_, ?_, ?_⟩
  · rw [List.getElem?_set, List.getElem?_set]
    by_cases hab : b = a
    · subst hab; simp [hb]
    · simp [hab, ha, hb]
  · rw [List.getElem?_set]; simp [ha, hb]
  · intro i h1 h2
    rw [List.getElem?_set, List.getElem?_set, if_neg (by omega), if_neg (by omega)]

/-- C12: `reverse` reverses, and reversing twice restores the content. -/
theorem c12_reverse (h : Reachable cb) (hx : cb.contents = .ok xs) (dr : List α) :
    ∃ cb' cb'', reverse ⟨cb, dr⟩ = (.ok (), ⟨cb', dr⟩) ∧ cb'.contents = .ok xs.reverse ∧
      cb'.capacity = cb.capacity ∧
      reverse ⟨cb', dr⟩ = (.ok (), ⟨cb'', dr⟩) ∧ cb''.contents = .ok xs := by
  obtain ⟨xs', n, hx', hn, hl, r⟩ := h.shows
  rw [hx] at hx'; cases hx'
  obtain ⟨cb', e, r'⟩ := reverse_sim (s := ⟨cb, dr⟩) r
  obtain ⟨cb'', e', r''⟩ := reverse_sim (s := ⟨cb', dr⟩) r'
  exact ⟨cb', cb'', e, r'.contents_eq, by rw [r'.capacity_eq, hn], e', by
    rw [r''.contents_eq]; simp⟩

end

open Demo in
example : Reachable Demo.buf ∧ Demo.buf.contents = .ok [3, 4, 5] ∧ 0 < [3, 4, 5].length ∧
    2 < [3, 4, 5].length :=
  ⟨buf_reachable, buf_contents, by decide, by decide⟩

section
variable {α : Type} [Cfg] [Elem α] {cb : Buf α} {xs : List α} {n : Nat}

/-! ## C13, C14 -/

/-- C13: `extend` leaves the last `capacity()` elements of the content followed by the items. -/
theorem c13_extend (h : Reachable cb) (hx : cb.contents = .ok xs) (hn : cb.capacity = .ok n)
    (items : List α) (hc : Calm (xs ++ items)) (dr : List α) :
    ∃ cb', extend items false ⟨cb, dr⟩
        = (.ok (), ⟨cb', dr ++ (xs ++ items).take ((xs ++ items).length - n)⟩) ∧
      cb'.contents = .ok (lastN n (xs ++ items)) ∧ cb'.capacity = .ok n := by
  have r := h.rep_of hx hn
  obtain ⟨cb', e, r'⟩ := extend_sim items false (s := ⟨cb, dr⟩) r
  rw [extend_calm items r.le_cap hc] at e r'
  exact ⟨cb', e, r'.contents_eq, r'.capacity_eq⟩

/-- C13: `extend(&items)` does the same with the clones of the items. -/
theorem c13_extend_ref (h : Reachable cb) (hx : cb.contents = .ok xs) (hn : cb.capacity = .ok n)
    (items : List α) (f : α → α) (hc : Calm (xs ++ items.map f)) (dr : List α) :
    ∃ cb', extendRef (fun x => .ok (f x)) items false ⟨cb, dr⟩
        = (.ok (), ⟨cb', dr ++ (xs ++ items.map f).take ((xs ++ items.map f).length - n)⟩) ∧
      cb'.contents = .ok (lastN n (xs ++ items.map f)) ∧ cb'.capacity = .ok n := by
  have hcp : ∀ l : List α, Spec.clonePrefix (fun x => .ok (f x)) false l = (l.map f, none) := by
    intro l
    induction l with
    | nil => rfl
    | cons x l ih => simp [Spec.clonePrefix, ih]
  have r := h.rep_of hx hn
  obtain ⟨cb', e, r'⟩ := extendRef_sim (fun x => .ok (f x)) false items (s := ⟨cb, dr⟩) r
  rw [hcp] at e r'
  simp only [Spec.extendF, extend_calm (items.map f) r.le_cap hc, Spec.userIf] at e r'
  exact ⟨cb', e, r'.contents_eq, r'.capacity_eq⟩

/-- C13: `append` moves the other content over in the same way and leaves the other buffer empty with its
capacity. -/
theorem c13_append {a b : Buf α} {ys : List α} {m : Nat} (ha : Reachable a) (hb : Reachable b)
    (hx : a.contents = .ok xs) (hy : b.contents = .ok ys) (hn : a.capacity = .ok n)
    (hm : b.capacity = .ok m) (hc : Calm (xs ++ ys)) (dr : List α) :
    ∃ a' b', append ⟨a, b, dr⟩
        = (.ok (), ⟨a', b', dr ++ (xs ++ ys).take ((xs ++ ys).length - n)⟩) ∧
      a'.contents = .ok (lastN n (xs ++ ys)) ∧ a'.capacity = .ok n ∧
      b'.contents = .ok [] ∧ b'.capacity = .ok m := by
  have r := ha.rep_of hx hn
  obtain ⟨a', b', e, h1, h2⟩ := append_sim (s := ⟨a, b, dr⟩) r (hb.rep_of hy hm)
  have hsp := append_eq_extend (⟨n, xs⟩ : Deque α) ys
  rw [extend_calm ys r.le_cap hc] at hsp
  obtain ⟨s1, s2, s3⟩ := hsp
  simp only at s1 s2 s3
  have hrest : ∀ (vs : List α) (d : Deque α), (Spec.append d vs).1.ret = .ok () → (Spec.append d vs).2 = [] := by
    intro vs
    induction vs with
    | nil => intro d _; rfl
    | cons v vs ih =>
      intro d hr
      unfold Spec.append at hr ⊢
      cases hp : (Spec.pushBack d v).ret with
      | error e => simp [hp] at hr
      | ok u => simp only [hp] at hr ⊢; exact ih _ hr
  have s4 := hrest ys ⟨n, xs⟩ s1
  rw [s1, s3] at e
  rw [s2] at h1
  rw [s4] at h2
  exact ⟨a', b', e, h1.contents_eq, h1.capacity_eq, h2.contents_eq, h2.capacity_eq⟩

end

open Demo in
example : Reachable Demo.buf ∧ Demo.buf.contents = .ok [3, 4, 5] ∧ Demo.buf.capacity = .ok 3 ∧
    Calm ([3, 4, 5] ++ [7, 8]) ∧ Calm ([3, 4, 5] ++ [3, 4, 5]) :=
  ⟨buf_reachable, buf_contents, buf_capacity, by unfold Calm; decide, by unfold Calm; decide⟩

section
variable {α : Type} [Cfg] [Elem α] {cb : Buf α} {xs : List α} {n : Nat}

/-- C14: `k` steps of `drain()` yield the first `k` elements in order (then `None`), drop nothing, and
leave exactly the elements from position `k` on. -/
theorem c14_drain (h : Reachable cb) (hx : cb.contents = .ok xs) (k : Nat) (dr : List α) :
    ∃ cb', drainN k ⟨cb, dr⟩ = (.ok ((List.range k).map (xs[·]?)), ⟨cb', dr⟩) ∧
      cb'.contents = .ok (xs.drop k) ∧ cb'.capacity = cb.capacity := by
  obtain ⟨xs', n, hx', hn, hl, r⟩ := h.shows
  rw [hx] at hx'; cases hx'
  obtain ⟨cb', e, r'⟩ := drainN_sim k (s := ⟨cb, dr⟩) r
  exact ⟨cb', e, r'.contents_eq, by rw [r'.capacity_eq, hn]⟩

/-- C14: `drain().collect()`, possibly cut off after `k` elements. -/
theorem c14_drain_collect (h : Reachable cb) (hx : cb.contents = .ok xs) (k : Nat) (dr : List α) :
    ∃ cb', drainTake k ⟨cb, dr⟩ = (.ok (xs.take k), ⟨cb', dr⟩) ∧
      cb'.contents = .ok (xs.drop k) ∧ cb'.capacity = cb.capacity := by
  obtain ⟨xs', n, hx', hn, hl, r⟩ := h.shows
  rw [hx] at hx'; cases hx'
  obtain ⟨cb', e, r'⟩ := drainTake_sim k (s := ⟨cb, dr⟩) r
  exact ⟨cb', e, r'.contents_eq, by rw [r'.capacity_eq, hn]⟩

/-- C14: `k` steps of `into_iter()` yield the first `k` elements in order, then `None`; dropping the
iterator after them drops exactly the rest, each value once. -/
theorem c14_into_iter_drop (h : Reachable cb) (hx : cb.contents = .ok xs) (hc : Calm xs) (k : Nat)
    (dr : List α) :
    ∃ cb', (do let vs ← intoIterN k; intoIterDrop; return vs) ⟨cb, dr⟩
        = (.ok ((List.range k).map (xs[·]?)), ⟨cb', dr ++ (xs.drop k).reverse⟩) ∧
      cb'.contents = .ok [] := by
  obtain ⟨xs', n, hx', hn, hl, r⟩ := h.shows
  rw [hx] at hx'; cases hx'
  obtain ⟨cb', e, r'⟩ := intoIterN_sim k (s := ⟨cb, dr⟩) r
  obtain ⟨cb'', e', r''⟩ := clear_sim (s := ⟨cb', dr⟩) r'
  rw [clear_calm (d := ⟨n, xs.drop k⟩) (fun x hx => hc x (List.mem_of_mem_drop hx))] at e' r''
  refine ⟨cb'', ?_, r''.contents_eq⟩
  rw [M.bind_ok e, M.bind_ok (show intoIterDrop _ = _ from e')]
  rfl

/-- C08: the values in the buffer are exactly those `k` steps of `into_iter()` return and those dropped with the
iterator, each once. -/
theorem c08_into_iter (h : Reachable cb) (hx : cb.contents = .ok xs) (hc : Calm xs) (k : Nat) (dr : List α) :
    ∃ vs dropped cb', (do let vs ← intoIterN k; intoIterDrop; return vs) ⟨cb, dr⟩ = (.ok vs, ⟨cb', dr ++ dropped⟩) ∧
      cb'.contents = .ok [] ∧ xs.Perm (vs.filterMap id ++ dropped) := by
  obtain ⟨cb', e, hc'⟩ := c14_into_iter_drop h hx hc k dr
  refine ⟨_, _, cb', e, hc', ?_⟩
  have hv : ((List.range k).map (xs[·]?)).filterMap id = xs.take k := by
    clear e hx hc
    induction k with
    | zero => simp
    | succ k ih =>
      rw [List.range_succ, List.map_append, List.filterMap_append, ih, List.take_add_one]
      rfl
  rw [hv]
  exact (List.Perm.of_eq (List.take_append_drop k xs).symm).trans ((List.reverse_perm _).symm.append_left _)

end

open Demo in
example : Reachable Demo.buf ∧ Demo.buf.contents = .ok [3, 4, 5] ∧ Calm [3, 4, 5] ∧
    (drainN 4 ⟨Demo.buf, []⟩).1 = .ok [some 3, some 4, some 5, none] ∧
    (intoIterN 2 ⟨Demo.buf, []⟩).1 = .ok [some 3, some 4] :=
  ⟨buf_reachable, buf_contents, by unfold Calm; decide, rfl, rfl⟩

section
variable {α : Type} [Cfg] [Elem α] {cb : Buf α} {xs : List α} {n : Nat}

/-! ## C15 -/

section
variable {a b c : Buf α} {ys zs : List α}

theorem iter_collect (h : Reachable a) (hx : a.contents = .ok xs) :
    ∃ it, a.iter = .ok it ∧ it.collect = xs := by
  obtain ⟨it, hit⟩ := (c07_views_never_fault h).2.2.2
  refine ⟨it, hit, ?_⟩
  unfold Buf.contents at hx
  rw [hit] at hx
  exact Except.ok.inj hx

/-- C15: `==` holds iff the contents have the same length and are pairwise `==`; it never faults. -/
theorem c15_eq (ha : Reachable a) (hb : Reachable b) (hx : a.contents = .ok xs) (hy : b.contents = .ok ys)
    (e : α → α → Bool) :
    ∃ r, Buf.eq e a b = .ok r ∧ (r = true ↔ Pairwise2 (fun x y => e x y = true) xs ys) := by
  obtain ⟨i1, h1, c1⟩ := iter_collect ha hx
  obtain ⟨i2, h2, c2⟩ := iter_collect hb hy
  unfold Buf.eq; rw [h1, h2]
  exact ⟨_, rfl, by rw [c1, c2]; exact iterEq_iff e xs ys⟩

/-- C15: comparison with a slice likewise. -/
theorem c15_eq_slice (ha : Reachable a) (hx : a.contents = .ok xs) (e : α → α → Bool) (sl : List α) :
    ∃ r, Buf.eqSlice e a sl = .ok r ∧ (r = true ↔ Pairwise2 (fun x y => e x y = true) xs sl) := by
  obtain ⟨i1, h1, c1⟩ := iter_collect ha hx
  unfold Buf.eqSlice; rw [h1]
  exact ⟨_, rfl, by rw [c1]; exact iterEq_iff e xs sl⟩

/-- C15: `partial_cmp` is the lexicographic comparison of the contents, for any element `partial_cmp`. -/
theorem c15_partial_cmp (ha : Reachable a) (hb : Reachable b) (hx : a.contents = .ok xs)
    (hy : b.contents = .ok ys) (pc : α → α → Option Ordering) :
    ∃ r, Buf.partialCmp pc a b = .ok r ∧
      ∀ o, r = o ↔ LexOutcome pc (some .eq) (some .lt) (some .gt) o xs ys := by
  obtain ⟨i1, h1, c1⟩ := iter_collect ha hx
  obtain ⟨i2, h2, c2⟩ := iter_collect hb hy
  unfold Buf.partialCmp; rw [h1, h2]
  exact ⟨_, rfl, fun o => by rw [c1, c2]; exact iterPartialCmp_iff pc o xs ys⟩

/-- C15: `cmp` is the lexicographic comparison of the contents. -/
theorem c15_cmp (ha : Reachable a) (hb : Reachable b) (hx : a.contents = .ok xs)
    (hy : b.contents = .ok ys) (c : α → α → Ordering) :
    ∃ r, Buf.cmp c a b = .ok r ∧ ∀ o, r = o ↔ LexOutcome c .eq .lt .gt o xs ys := by
  obtain ⟨i1, h1, c1⟩ := iter_collect ha hx
  obtain ⟨i2, h2, c2⟩ := iter_collect hb hy
  unfold Buf.cmp; rw [h1, h2]
  exact ⟨_, rfl, fun o => by rw [c1, c2]; exact iterCmp_iff c o xs ys⟩

/-- C15: with a lawful element order, `cmp` on buffers is a total order agreeing with `partial_cmp`, and
says `Equal` iff `==` does. -/
theorem c15_cmp_total_order (ha : Reachable a) (hb : Reachable b) (hc : Reachable c)
    (f : α → α → Ordering) (e : α → α → Bool)
    (hs : ∀ x y, f x y = (f y x).swap) (ht : ∀ x y z, f x y ≠ .gt → f y z ≠ .gt → f x z ≠ .gt)
    (he : ∀ x y, e x y = true ↔ f x y = .eq) :
    ∃ ab ba bc ac, Buf.cmp f a b = .ok ab ∧ Buf.cmp f b a = .ok ba ∧ Buf.cmp f b c = .ok bc ∧
      Buf.cmp f a c = .ok ac ∧
      ab = ba.swap ∧ (ab ≠ .gt → bc ≠ .gt → ac ≠ .gt) ∧
      Buf.partialCmp (fun x y => some (f x y)) a b = .ok (some ab) ∧
      Buf.eq e a b = .ok (ab == .eq) := by
  obtain ⟨xs, _, hx, _⟩ := ha.shows
  obtain ⟨ys, _, hy, _⟩ := hb.shows
  obtain ⟨zs, _, hz, _⟩ := hc.shows
  obtain ⟨i1, h1, c1⟩ := iter_collect ha hx
  obtain ⟨i2, h2, c2⟩ := iter_collect hb hy
  obtain ⟨i3, h3, c3⟩ := iter_collect hc hz
  refine ⟨iterCmp f xs ys, iterCmp f ys xs, iterCmp f ys zs, iterCmp f xs zs, ?_, ?_, ?_, ?_,
    iterCmp_swap f hs xs ys, iterCmp_trans f hs ht xs ys zs, ?_, ?_⟩
  · unfold Buf.cmp; rw [h1, h2, ← c1, ← c2]; rfl
  · unfold Buf.cmp; rw [h1, h2, ← c1, ← c2]; rfl
  · unfold Buf.cmp; rw [h2, h3, ← c2, ← c3]; rfl
  · unfold Buf.cmp; rw [h1, h3, ← c1, ← c3]; rfl
  · unfold Buf.partialCmp; rw [h1, h2, ← iterPartialCmp_some, ← c1, ← c2]; rfl
  · have : iterEq e xs ys = (iterCmp f xs ys == .eq) := by
      rw [Bool.eq_iff_iff, iterEq_iff, beq_iff_eq, iterCmp_iff]
      constructor
      · intro h
        exact Or.inr (Or.inr (Or.inr ⟨⟨h.1, fun i x y h1 h2 => (he x y).mp (h.2 i x y h1 h2)⟩, rfl⟩))
      · rintro (⟨p, q, x, y, r, s, _, _, _, _, h⟩ | ⟨_, _, _, _, _, h⟩ | ⟨_, _, _, _, _, h⟩ | ⟨h, _⟩)
        · exact absurd rfl h
        · cases h
        · cases h
        · exact ⟨h.1, fun i x y h1 h2 => (he x y).mpr (h.2 i x y h1 h2)⟩
    unfold Buf.eq; rw [h1, h2, ← this, ← c1, ← c2]; rfl

end

end

open Demo in
example : Reachable Demo.buf ∧ Reachable Demo.bomb ∧
    (∀ x y : Nat, compare x y = (compare y x).swap) ∧
    (∀ x y z : Nat, compare x y ≠ .gt → compare y z ≠ .gt → compare x z ≠ .gt) ∧
    (∀ x y : Nat, (x == y) = true ↔ compare x y = .eq) ∧
    Buf.cmp compare Demo.buf Demo.bomb = .ok .lt := by
  refine ⟨buf_reachable, bomb_reachable, ?_, ?_, ?_, rfl⟩
  · intro x y; rw [Nat.compare_swap]
  · intro x y z; rw [Nat.compare_ne_gt, Nat.compare_ne_gt, Nat.compare_ne_gt]; omega
  · intro x y; rw [Nat.compare_eq_eq]; simp

section
variable {α : Type} [Cfg] [Elem α] {cb : Buf α} {xs : List α} {n : Nat}

/-! ## C16 -/

/-- C16 is false of the code: cloning any reachable buffer by element-wise `clone` (what
`#[derive(Clone)]` does when the element type is not `Copy`) calls `T::clone` on an uninitialised slot; so if
`clone` of the elements does not panic the program has undefined behaviour, and in no case is there a clone. -/
theorem c16_clone_touches_uninitialised (h : Reachable cb) (c : α → Except Fault α) :
    ((∀ x, ∃ y, c x = .ok y) → cb.clone c = .error .ub) ∧
    ∃ e, cb.clone c = .error e ∧ (e = .ub ∨ ∃ x, c x = .error e) := by
  obtain ⟨xs, n, hx, hn, hl, r⟩ := h.shows
  have hspare : (none : Option α) ∈ cb.buf := by
    have := r.cells xs.length hl
    simp only at this
    rw [List.getElem?_eq_none (Nat.le_refl _)] at this
    exact List.mem_of_getElem? this
  have key : ∀ l : List (Option α), none ∈ l →
      ∃ e, cloneSlots c l = .error e ∧ (e = .ub ∨ ∃ x, c x = .error e) := by
    intro l
    induction l with
    | nil => intro h; cases h
    | cons o l ih =>
      intro hm
      cases o with
      | none => exact ⟨_, rfl, .inl rfl⟩
      | some x =>
        unfold cloneSlots
        cases hy : c x with
        | error e => exact ⟨e, rfl, .inr ⟨x, hy⟩⟩
        | ok y =>
          obtain ⟨e, he, h⟩ := ih (by simpa using hm)
          exact ⟨e, by rw [he]; rfl, h⟩
  obtain ⟨e, he, h⟩ := key _ hspare
  have hcl : cb.clone c = .error e := by unfold Buf.clone; rw [he]; rfl
  refine ⟨fun hc => ?_, e, hcl, h⟩
  rcases h with rfl | ⟨x, hx⟩
  · exact hcl
  · obtain ⟨y, hy⟩ := hc x
    rw [hy] at hx; cases hx

/-- C16, partial: when the slots are copied bitwise (`T: Copy`) the clone has the same content and
capacity, is itself reachable, and every later history on it behaves like the bounded deque holding that content. Missing: element types
that are not `Copy`, for which `c16_clone_touches_uninitialised` shows the property fails. -/
theorem c16_clone_partial (h : Reachable cb) (hx : cb.contents = .ok xs) (hn : cb.capacity = .ok n)
    (ops : List (Op α)) (hops : ∀ op ∈ ops, OpOk op) (dr : List α) :
    Reachable cb.cloneBitwise ∧ cb.cloneBitwise.contents = .ok xs ∧
    cb.cloneBitwise.capacity = .ok n ∧
    (run ops ⟨cb.cloneBitwise, dr⟩).1 = (Spec.run ops ⟨n, xs⟩).1 ∧
    (run ops ⟨cb.cloneBitwise, dr⟩).2.cb.contents = .ok (Spec.run ops ⟨n, xs⟩).2.1.items := by
  have r := (Reachable.cloneBitwise h).rep_of hx hn
  obtain ⟨h1, _, h2, _⟩ := c01_refines_from_any (Reachable.cloneBitwise h) hx hn ops hops dr
  exact ⟨Reachable.cloneBitwise h, r.contents_eq, r.capacity_eq, h1, h2⟩

end

open Demo in
example : Reachable Demo.buf ∧ (∀ x : Nat, ∃ y, (fun x => (.ok x : Except Fault Nat)) x = .ok y) :=
  ⟨buf_reachable, fun x => ⟨x, rfl⟩⟩

section
variable {α : Type} [Cfg] [Elem α] {cb : Buf α} {xs : List α} {n : Nat}

/-! ## C17, C18, C19 -/

/-- C17: `index`, `index_mut` and `swap` panic exactly when a position is out of range, and then change
nothing. -/
theorem c17_out_of_range (h : Reachable cb) (hx : cb.contents = .ok xs) (i j : Nat) (v : α) (dr : List α) :
    (cb.index i = .error .explicit ↔ xs.length ≤ i) ∧
    ((replaceAt i v ⟨cb, dr⟩).1 = .error .explicit ↔ xs.length ≤ i) ∧
    (xs.length ≤ i → replaceAt i v ⟨cb, dr⟩ = (.error .explicit, ⟨cb, dr⟩)) ∧
    ((swap i j ⟨cb, dr⟩).1 = .error .explicit ↔ xs.length ≤ i ∨ xs.length ≤ j) ∧
    (xs.length ≤ i ∨ xs.length ≤ j → swap i j ⟨cb, dr⟩ = (.error .explicit, ⟨cb, dr⟩)) ∧
    (i < xs.length → ∃ x cb', cb.index i = .ok x ∧ replaceAt i v ⟨cb, dr⟩ = (.ok x, ⟨cb', dr⟩) ∧
      cb'.contents = .ok (xs.set i v)) := by
  obtain ⟨xs', n, hx', hn, hl, r⟩ := h.shows
  rw [hx] at hx'; cases hx'
  have herr : ∀ i, xs.length ≤ i → cb.internalIndex i = .error .explicit := fun i hi => r.internalIndex_err hi
  have hri : xs.length ≤ i → replaceAt i v ⟨cb, dr⟩ = (.error .explicit, ⟨cb, dr⟩) := by
    intro hi
    unfold replaceAt
    rw [M.bind_error (by rw [self_run]; exact congrArg (·, _) (herr i hi))]
  have hsw : xs.length ≤ i ∨ xs.length ≤ j → swap i j ⟨cb, dr⟩ = (.error .explicit, ⟨cb, dr⟩) := by
    intro hij
    unfold swap
    rw [M.bind_error]
    rw [self_run]
    by_cases hi : xs.length ≤ i
    · rw [herr i hi]; rfl
    · rw [r.internalIndex_ok (h.cap_lt r) (Nat.lt_of_not_le hi), herr j (by omega)]; rfl
  refine ⟨?_, ?_, hri, ?_, hsw, ?_⟩
  · constructor
    · intro he
      by_cases hi : xs.length ≤ i
      · exact hi
      · rw [r.index_ok (Nat.lt_of_not_le hi)] at he; cases he
    · exact fun hi => r.index_err hi
  · constructor
    · intro he
      by_cases hi : xs.length ≤ i
      · exact hi
      · obtain ⟨cb', e, _⟩ := replaceAt_sim (s := ⟨cb, dr⟩) r i v
        rw [e, List.getElem?_eq_getElem (Nat.lt_of_not_le hi)] at he; cases he
    · intro hi; rw [hri hi]
  · constructor
    · intro he
      by_cases hij : xs.length ≤ i ∨ xs.length ≤ j
      · exact hij
      · obtain ⟨cb', e, _⟩ := swap_sim (s := ⟨cb, dr⟩) r i j
        rw [e, List.getElem?_eq_getElem (by simp only; omega), List.getElem?_eq_getElem (by simp only; omega)] at he
        cases he
    · intro hij; rw [hsw hij]
  · intro hi
    obtain ⟨cb', e, r'⟩ := replaceAt_sim (s := ⟨cb, dr⟩) r i v
    rw [List.getElem?_eq_getElem hi] at e
    exact ⟨xs[i], cb', r.index_ok hi, e, r'.contents_eq⟩

end

open Demo in
example : Reachable Demo.buf ∧ Demo.buf.contents = .ok [3, 4, 5] ∧ [3, 4, 5].length ≤ 3 ∧
    1 < [3, 4, 5].length := ⟨buf_reachable, buf_contents, by decide, by decide⟩

section
variable {α : Type} [Cfg] [Elem α] {cb : Buf α} {xs : List α} {n : Nat}

/-- C18: `new(n)` / `with_capacity(n)` gives an empty buffer of capacity `n`, or panics exactly when the
allocation is too large. -/
theorem c18_with_capacity (hu : Elem.uninitOk α = true) (hn : CapOk α n) :
    ((n + 1) * Elem.size α ≤ isizeMax ∧
      ∃ cb : Buf α, withCapacity n = .ok cb ∧ cb.contents = .ok [] ∧ cb.capacity = .ok n ∧ Reachable cb) ∨
    (isizeMax < (n + 1) * Elem.size α ∧
      (withCapacity n : Except Fault (Buf α)) = .error .capacityOverflow) := by
  have h6 := two_isizeMax
  by_cases hs : (n + 1) * Elem.size α ≤ isizeMax
  · left
    have hn' : n ≤ isizeMax := by
      rcases hn with h | ⟨hz, _⟩
      · exact h
      · have : (n + 1) * 1 ≤ (n + 1) * Elem.size α := Nat.mul_le_mul_left _ hz
        omega
    obtain ⟨cb, e, r⟩ := withCapacity_rep hu hn' hs
    exact ⟨hs, cb, e, r.contents_eq, r.capacity_eq, Reachable.withCapacity hn e⟩
  · right
    exact ⟨by omega, withCapacity_err (by rcases hn with h | h <;> omega) (by omega)⟩

/-- C18: `from(vec)` and `from_iter(items)` give a full buffer with exactly the items in order. -/
theorem c18_from_sequence (hu : Elem.uninitOk α = true) (items : List α) (hn : items.length ≤ isizeMax)
    (hs : (items.length + 1) * Elem.size α ≤ isizeMax) :
    (∃ cb : Buf α, fromVec items = .ok cb ∧ cb.contents = .ok items ∧
      cb.capacity = .ok items.length ∧ cb.isFull = .ok true ∧ Reachable cb) ∧
    (∃ cb : Buf α, fromIter items false = .ok cb ∧ cb.contents = .ok items ∧
      cb.capacity = .ok items.length ∧ cb.isFull = .ok true ∧ Reachable cb) := by
  obtain ⟨cb, e, r⟩ := fromVec_rep hu hn hs
  obtain ⟨cb', e', r'⟩ := fromIter_rep hu hn hs
  exact ⟨⟨cb, e, r.contents_eq, r.capacity_eq, by rw [r.isFull_eq]; simp, Reachable.fromVec (Or.inl hn) e⟩,
    ⟨cb', e', r'.contents_eq, r'.capacity_eq, by rw [r'.isFull_eq]; simp, Reachable.fromIter (Or.inl hn) e'⟩⟩

/-- C18: `from_iter(&items)` gives a full buffer with exactly the clones of the items in order, provided
no clone panics. -/
theorem c18_from_refs (hu : Elem.uninitOk α = true) (items : List α) (c : α → Except Fault α) (f : α → α)
    (hf : ∀ x, c x = .ok (f x)) (hn : items.length ≤ isizeMax) (hs : (items.length + 1) * Elem.size α ≤ isizeMax) :
    ∃ cb : Buf α, fromIterRef c items = .ok cb ∧ cb.contents = .ok (items.map f) ∧
      cb.capacity = .ok items.length ∧ cb.isFull = .ok true ∧ Reachable cb := by
  obtain ⟨cb, e, r⟩ := fromIterRef_rep hu hf hn hs
  exact ⟨cb, e, r.contents_eq, r.capacity_eq, by rw [r.isFull_eq]; simp, Reachable.fromIterRef (Or.inl hn) e⟩

end

open Demo in
example : Elem.uninitOk Nat = true ∧ CapOk Nat 4 ∧ [7, 8].length ≤ isizeMax ∧ ([7, 8].length + 1) * Elem.size Nat ≤ isizeMax ∧
    CapOk Nat (2 ^ 62) ∧ isizeMax < (2 ^ 62 + 1) * Elem.size Nat :=
  ⟨rfl, Or.inl (by decide), by decide, by decide, Or.inl (by decide), by decide⟩

section
variable {α : Type} [Cfg] [Elem α] {cb : Buf α} {xs : List α} {n : Nat}

/-- C19: for any interleaving of `next` and `next_back` on `iter()`, what the front calls yielded, then
what is left, then what the back calls yielded in reverse, is exactly the content; `None` appears only
when nothing is left, and then for ever. -/
theorem c19_double_ended (h : Reachable cb) (hx : cb.contents = .ok xs) (es : List End) :
    ∃ it, cb.iter = .ok it ∧
      yielded .front es (it.calls es).1 ++ (it.calls es).2.collect ++
        (yielded .back es (it.calls es).1).reverse = xs ∧
      (it.calls es).1.length = es.length ∧
      (none ∈ (it.calls es).1 → (it.calls es).2.collect = [] ∧
        (it.calls es).2.next.1 = none ∧ (it.calls es).2.nextBack.1 = none) := by
  obtain ⟨it, hit, hc⟩ := iter_collect h hx
  obtain ⟨h1, h2, h3⟩ := it.calls_spec es
  refine ⟨it, hit, by rw [h1, hc], h2, fun hn => ?_⟩
  have h4 := h3 hn
  refine ⟨h4, ?_, ?_⟩
  · rw [(Iter.next_collect _).1, h4]; rfl
  · rw [(Iter.nextBack_collect _).1, h4]; rfl

/-- C19: the same for `iter_mut()`, in terms of the places it hands out: every place at most once, and
reading them front to back gives the content. -/
theorem c19_iter_mut (h : Reachable cb) (hx : cb.contents = .ok xs) (es : List End) :
    ∃ a b, cb.slicesMut = .ok (a, b) ∧
      let it : Iter Nat := ⟨Buf.regionPositions a, Buf.regionPositions b⟩
      let places := yielded .front es (it.calls es).1 ++ (it.calls es).2.collect ++
        (yielded .back es (it.calls es).1).reverse
      places.Nodup ∧ readAll cb places = .ok xs := by
  obtain ⟨a, b, h1, h2, h3⟩ := (c10_views_agree h hx).2.1
  refine ⟨a, b, h1, ?_⟩
  have h4 := (Iter.calls_spec es ⟨Buf.regionPositions a, Buf.regionPositions b⟩).1
  simp only [h4]
  exact ⟨h3, h2⟩

end

open Demo in
example : Reachable Demo.buf ∧ Demo.buf.contents = .ok [3, 4, 5] ∧
    (Iter.calls [.back, .front, .front, .back] (⟨[3, 4], [5]⟩ : Iter Nat)).1
      = [some 5, some 3, some 4, none] := ⟨buf_reachable, buf_contents, rfl⟩

section
variable {α : Type} [Cfg] [Elem α] {cb : Buf α} {xs : List α} {n : Nat}

/-! ## C20 -/

/-- C20: pushing a stream to the back of a fresh buffer of capacity `n` and then popping `k` times from
the front returns the last `n` items of the stream, oldest first. -/
theorem c20_sliding_window (hu : Elem.uninitOk α = true) (hn : n ≤ isizeMax)
    (hs : (n + 1) * Elem.size α ≤ isizeMax) (stream : List α) (hc : Calm stream) (k : Nat) :
    ∃ cb : Buf α, withCapacity n = .ok cb ∧
      (run (stream.map .pushBack) ⟨cb, []⟩).2.cb.contents = .ok (lastN n stream) ∧
      (run (stream.map .pushBack ++ List.replicate k .popFront) ⟨cb, []⟩).1
        = stream.map (fun _ => .ok .unit) ++
          (List.range k).map (fun i => .ok (.opt (lastN n stream)[i]?)) := by
  obtain ⟨cb, e, r⟩ := withCapacity_rep hu hn hs
  refine ⟨cb, e, ?_⟩
  have pops : ∀ (k : Nat) (d : Deque α), (Spec.run (List.replicate k .popFront) d).1
      = (List.range k).map (fun i => .ok (.opt d.items[i]?)) := by
    intro k
    induction k with
    | zero => intro d; rfl
    | succ k ih =>
      intro d
      rw [List.replicate_succ, specRun_cons (by simp [Spec.step]), ih, List.range_succ_eq_map]
      simp only [Spec.step, List.map_cons, List.map_map]
      congr 1
      · rw [List.head?_eq_getElem?]
      · apply List.map_congr_left; intro i _; simp
  have pushes : ∀ (vs : List α) (d : Deque α) (tl : List (Op α)), d.items.length ≤ d.cap → Calm (d.items ++ vs) →
      (Spec.run (vs.map .pushBack ++ tl) d).1 = vs.map (fun _ => .ok .unit) ++
        (Spec.run tl ⟨d.cap, lastN d.cap (d.items ++ vs)⟩).1 ∧
      (Spec.run (vs.map .pushBack ++ tl) d).2.1
        = (Spec.run tl ⟨d.cap, lastN d.cap (d.items ++ vs)⟩).2.1 := by
    intro vs
    induction vs with
    | nil =>
      intro d tl hl _
      have : d.items.length - d.cap = 0 := by omega
      simp [lastN, this]
    | cons v vs ih =>
      intro d tl hl hcalm
      have hp := pushBack_calm (v := v) hl (fun x hx => hcalm x (by
        simp only [List.mem_append, List.mem_cons, List.not_mem_nil, or_false] at hx ⊢
        rcases hx with h | h <;> simp [h]))
      rw [List.map_cons, List.cons_append, specRun_cons (by simp [Spec.step, hp, Except.map])]
      obtain ⟨i1, i2⟩ := ih (Spec.step d (.pushBack v)).deque tl (step_length hl _) (fun x hx => hcalm x (by
        simp only [Spec.step, hp, List.mem_append] at hx
        rcases hx with hx | hx
        · have := List.mem_of_mem_drop hx
          simp only [List.mem_append, List.mem_cons, List.not_mem_nil, or_false] at this ⊢
          rcases this with h | h <;> simp [h]
        · simp [hx]))
      have hd : lastN (Spec.step d (.pushBack v)).deque.cap ((Spec.step d (.pushBack v)).deque.items ++ vs)
          = lastN d.cap (d.items ++ v :: vs) := by
        simp only [Spec.step, hp]
        rw [lastN_append_lastN]; simp
      rw [i1, i2, hd]
      have hcap : (Spec.step d (.pushBack v)).deque.cap = d.cap := by simp [Spec.step, hp]
      rw [hcap]
      simp [Spec.step, hp, Except.map]
  obtain ⟨p1, p2⟩ := pushes stream ⟨n, []⟩ [] (by simp) (by simpa using hc)
  obtain ⟨q1, q2⟩ := pushes stream ⟨n, []⟩ (List.replicate k .popFront) (by simp) (by simpa using hc)
  constructor
  · obtain ⟨cb', e', r'⟩ := run_sim (stream.map .pushBack) (s := ⟨cb, []⟩) r (by
      intro op hop
      rw [List.mem_map] at hop
      obtain ⟨v, _, rfl⟩ := hop
      trivial)
    rw [List.append_nil] at p2
    rw [e', r'.contents_eq, p2]
    simp [Spec.run]
  · obtain ⟨cb', e', r'⟩ := run_sim (stream.map .pushBack ++ List.replicate k .popFront) (s := ⟨cb, []⟩) r (by
      intro op hop
      rw [List.mem_append, List.mem_map] at hop
      rcases hop with ⟨v, _, rfl⟩ | hop
      · trivial
      · rw [List.eq_of_mem_replicate hop]; trivial)
    rw [e', q1, pops]
    simp

end

open Demo in
example : Elem.uninitOk Nat = true ∧ (2 : Nat) ≤ isizeMax ∧ (2 + 1) * Elem.size Nat ≤ isizeMax ∧ Calm [1, 2, 3, 4] ∧
    lastN 2 [1, 2, 3, 4] = [3, 4] := ⟨rfl, by decide, by decide, by unfold Calm; decide, rfl⟩

section
variable {α : Type} [Cfg] [Elem α] {cb : Buf α} {xs : List α} {n : Nat}

/-! ## C21 -/

/-- The part of a huge buffer of zero-sized values that a few calls touch. -/
theorem set_replicate_getElem? {N i : Nat} (hi : i < N) (v : Option Unit) (j : Nat) (hj : j < N) :
    ((List.replicate N (none : Option Unit)).set i v)[j]? = some (if i = j then v else none) := by
  rw [List.getElem?_set, List.length_replicate]
  by_cases h : i = j
  · simp [h, hj]
  · simp [h, hj]

/-- C21 beyond the constructor's guard: without overflow checks, and for every element type,
`new(usize::MAX)` "succeeds" with an empty
backing slice; it reports capacity `usize::MAX`, and the first `push_back` panics with an index out of
bounds. -/
theorem c21_new_usize_max_unchecked (hov : Cfg.overflowChecks = false) (v : α)
    (dr : List α) :
    ∃ cb : Buf α, withCapacity usizeMax = .ok cb ∧ cb.capacity = .ok usizeMax ∧
      (pushBack v ⟨cb, dr⟩).1 = .error .indexOutOfBounds := by
  have h6 := two_isizeMax
  have h7 := isizeMax_pos
  have hw : uadd usizeMax 1 = .ok 0 := by
    unfold uadd; rw [if_neg (by omega), if_neg (by simp [hov])]; congr 1; simp
  have hc : usub 0 1 = .ok usizeMax := by
    unfold usub; rw [if_neg (by omega), if_neg (by simp [hov])]; congr 1; omega
  refine ⟨⟨[], 0, 0⟩, ?_, hc, ?_⟩
  · unfold withCapacity
    rw [hw]
    simp only [bind, Except.bind]
    rw [show allocCheck α 0 = .ok () by
      unfold allocCheck; rw [if_pos]; exact ⟨by rw [Nat.zero_mul]; omega, by omega⟩]
    rfl
  · have hfull : Buf.isFull (⟨[], 0, 0⟩ : Buf α) = .ok false := by
      unfold Buf.isFull
      rw [show Buf.len (⟨[], 0, 0⟩ : Buf α) = .ok 0 from (usub_ok (Nat.le_refl 0) : usub 0 0 = .ok 0),
        show Buf.capacity (⟨[], 0, 0⟩ : Buf α) = .ok usizeMax from hc]
      show Except.ok (0 == usizeMax) = _
      congr 1; simp; omega
    unfold pushBack
    rw [M.bind_ok (owning_ok (b := true) (s' := ⟨⟨[], 0, 0⟩, dr⟩) (by
      rw [self_bind _ _ hfull]; rfl))]
    rfl

section c21
/-- a zero-sized element type -/
local instance zst : Elem Unit := ⟨0, fun _ => false, true⟩

/-- C21 is false of the code when overflow checks are on: `new(usize::MAX - 1)` succeeds for a zero-sized
element type, and after one `push_front` and one `push_back` the buffer cannot even report its length. -/
theorem c21_huge_zst_len_overflows (hov : Cfg.overflowChecks = true) :
    ∃ cb cb' cb'' : Buf Unit, withCapacity (usizeMax - 1) = .ok cb ∧
      pushFront () ⟨cb, []⟩ = (.ok (), ⟨cb', []⟩) ∧
      pushBack () ⟨cb', []⟩ = (.ok (), ⟨cb'', []⟩) ∧
      cb''.len = .error .overflow := by
  have h6 := two_isizeMax
  have h7 := isizeMax_pos
  have hz : Elem.size Unit = 0 := rfl
  let N := usizeMax
  let b0 : Buf Unit := ⟨List.replicate N none, 0, 0⟩
  let b1 : Buf Unit := ⟨(List.replicate N none).set (N - 1) (some ()), N - 1, 0⟩
  let b2 : Buf Unit := ⟨((List.replicate N none).set (N - 1) (some ())).set 0 (some ()), N - 1, 1⟩
  have hN : N = usizeMax := rfl
  have len0 : b0.len = .ok 0 := by
    show usub 0 0 = _; exact usub_ok (Nat.le_refl _)
  have cap0 : b0.capacity = .ok (N - 1) := by
    show usub (List.replicate N _).length 1 = _; rw [List.length_replicate]; exact usub_ok (by omega)
  have full0 : b0.isFull = .ok false := by
    unfold Buf.isFull; rw [len0, cap0]
    show Except.ok (0 == N - 1) = _
    congr 1; simp; omega
  have len1 : b1.len = .ok 1 := by
    unfold Buf.len
    have : ¬ b1.start ≤ b1.end_ := by show ¬ (N - 1 ≤ 0); omega
    rw [if_neg this]
    show (do usub (← uadd ((List.replicate N none).set (N - 1) (some ())).length 0) (N - 1)) = _
    rw [List.length_set, List.length_replicate, uadd_ok (by omega)]
    show usub (N + 0) (N - 1) = _
    rw [usub_ok (by omega)]; congr 1; omega
  have cap1 : b1.capacity = .ok (N - 1) := by
    show usub ((List.replicate N none).set (N - 1) (some ())).length 1 = _
    rw [List.length_set, List.length_replicate]; exact usub_ok (by omega)
  have full1 : b1.isFull = .ok false := by
    unfold Buf.isFull; rw [len1, cap1]
    show Except.ok (1 == N - 1) = _
    congr 1; simp; omega
  refine ⟨b0, b1, b2, ?_, ?_, ?_, ?_⟩
  · unfold withCapacity
    rw [uadd_ok (by omega)]
    simp only [bind, Except.bind]
    rw [show allocCheck Unit (usizeMax - 1 + 1) = .ok () by
      unfold allocCheck; rw [if_pos]; rw [hz]; omega]
    simp only
    rw [uninits_eq rfl, show usizeMax - 1 + 1 = N by omega]
    rfl
  · unfold pushFront
    have hgo : owning () (do
        if ← self_ Buf.isFull then
          if (← self_ Buf.capacity) = 0 then return false
          else dropOpt (← popBack); decrStart; return true
        else decrStart; return true) ⟨b0, []⟩ = (.ok true, ⟨⟨List.replicate N none, N - 1, 0⟩, []⟩) := by
      apply owning_ok
      rw [self_bind _ _ full0]
      simp only [Bool.false_eq_true, if_false]
      rw [M.bind_ok (decrStart_run full0 (by show 0 < (List.replicate N _).length; rw [List.length_replicate]; omega))]
      show (Except.ok true, _) = _
      congr 2
      show Buf.mk _ (if 0 = 0 then (List.replicate N _).length - 1 else 0 - 1) _ = _
      simp [b0]
    rw [M.bind_ok hgo]
    simp only [if_true]
    rw [selfp_bind, pushAt_run () (by show N - 1 < (List.replicate N _).length; rw [List.length_replicate]; omega)]
  · unfold pushBack
    have hgo : owning () (do
        if ← self_ Buf.isFull then
          if (← self_ Buf.capacity) = 0 then return false
          else dropOpt (← popFront); return true
        else return true) ⟨b1, []⟩ = (.ok true, ⟨b1, []⟩) := by
      apply owning_ok
      rw [self_bind _ _ full1]; rfl
    rw [M.bind_ok hgo]
    simp only [if_true]
    have hlen1 : b1.buf.length = N := by
      show ((List.replicate N none).set (N - 1) (some ())).length = N
      rw [List.length_set, List.length_replicate]
    rw [selfp_bind, M.bind_ok (pushAt_run () (by show 0 < b1.buf.length; omega))]
    unfold incrEnd
    have hf2 : Buf.isFull (⟨b1.buf.set 0 (some ()), N - 1, 0⟩ : Buf Unit) = .ok false := by
      have := full1
      simp only [Buf.isFull, Buf.len, Buf.capacity, List.length_set] at this ⊢
      exact this
    rw [M.bind_ok (debugAssert_run (s := ⟨⟨b1.buf.set 0 (some ()), N - 1, 0⟩, []⟩) (by
      unfold notFull; rw [hf2]; rfl)), self_bind _ _ (b := 1) (by
        show uadd 0 1 = _; rw [uadd_ok (by omega)]), setBuf_bind, setBuf_run]
    show (Except.ok (), _) = _
    congr 2
    show (if 1 = (b1.buf.set 0 (some ())).length then _ else _) = _
    rw [List.length_set, hlen1, if_neg (by omega)]
  · unfold Buf.len
    have : ¬ b2.start ≤ b2.end_ := by show ¬ (N - 1 ≤ 1); omega
    rw [if_neg this]
    show (do usub (← uadd (((List.replicate N none).set (N - 1) (some ())).set 0 (some ())).length 1) (N - 1)) = _
    rw [List.length_set, List.length_set, List.length_replicate]
    have : uadd N 1 = .error .overflow := by
      unfold uadd; rw [if_neg (by omega), if_pos hov]
    rw [this]; rfl

/-- C21 for `resize(usize::MAX)` without overflow checks: it does not panic on an empty buffer and leaves
one whose next `push_back` panics. -/
theorem c21_resize_usize_max_unchecked (hov : Cfg.overflowChecks = false) :
    ∃ cb : Buf Unit, (withCapacity 0 >>= fun c => .ok (resize usizeMax ⟨c, []⟩)) = .ok (.ok (), ⟨cb, []⟩) ∧
      (pushBack () ⟨cb, []⟩).1 = .error .indexOutOfBounds := by
  have h6 := two_isizeMax
  have h7 := isizeMax_pos
  have hw : uadd usizeMax 1 = .ok 0 := by
    unfold uadd; rw [if_neg (by omega), if_neg (by simp [hov])]; congr 1; simp
  obtain ⟨_, h1, _, h3⟩ := c21_new_usize_max_unchecked hov () []
  have alloc0 : allocCheck Unit 0 = .ok () := by
    unfold allocCheck; rw [if_pos]; exact ⟨by rw [Nat.zero_mul]; omega, by omega⟩
  have alloc1 : allocCheck Unit 1 = .ok () := by
    unfold allocCheck; rw [if_pos]; exact ⟨by show 1 * 0 ≤ _; omega, by omega⟩
  refine ⟨⟨[], 0, 0⟩, ?_, ?_⟩
  · have e0 : (withCapacity 0 : Except Fault (Buf Unit)) = .ok ⟨[none], 0, 0⟩ := by
      unfold withCapacity
      rw [uadd_ok (by omega)]
      show (do allocCheck Unit 1; _) = _
      rw [alloc1]
      rfl
    rw [e0]
    show Except.ok (resize usizeMax ⟨⟨[none], 0, 0⟩, []⟩) = _
    congr 1
    unfold resize
    rw [hw, lift_bind _ rfl, alloc0, lift_bind _ rfl,
      self_bind _ _ (b := 0) (show Buf.len (⟨[none], 0, 0⟩ : Buf Unit) = .ok 0 from (usub_ok (Nat.le_refl 0) : usub 0 0 = .ok 0)),
      lift_bind _ (b := 0) (by rw [if_neg (by omega)])]
    have hsk : skipLoop 0 (⟨⟨[none], 0, 0⟩, []⟩ : St Unit) = (.ok (), ⟨⟨[none], 0, 0⟩, []⟩) := rfl
    have hco : collectLoop 2 (⟨⟨[none], 0, 0⟩, []⟩ : St Unit) = (.ok [], ⟨⟨[none], 0, 0⟩, []⟩) := rfl
    rw [M.bind_ok hsk, selfp_bind, M.bind_ok (m := collectLoop ([none].length + 1)) hco,
      lift_bind _ (b := 0) (by
        show (do uadd (← usub usizeMax 0) 1) = _
        rw [usub_ok (by omega)]; exact hw),
      show uninits Unit 0 = .ok [] from rfl, lift_bind _ rfl,
      show allocCheck Unit (([] : List Unit).length + 0) = .ok () from alloc0, lift_bind _ rfl, setBuf_run]
    rfl
  · have : withCapacity usizeMax = .ok (⟨[], 0, 0⟩ : Buf Unit) := by
      unfold withCapacity
      rw [hw]
      show (do allocCheck Unit 0; _) = _
      rw [alloc0]; rfl
    rw [this] at h1; cases h1
    exact h3

end c21

theorem specRun_no_overflow : ∀ (ops : List (Op α)), (∀ op ∈ ops, OpWide op) → ∀ (d : Deque α),
    d.items.length ≤ d.cap → .error .overflow ∉ (Spec.run ops d).1 := by
  intro ops
  induction ops with
  | nil => intro _ d _; simp [Spec.run]
  | cons op ops ih =>
    intro hops d hl
    have hne : (Spec.step d op).ret ≠ .error .overflow := by
      intro he
      have := step_allowed hl op he
      revert this
      cases op with
      | extendRef c items p =>
        have hok := hops _ (List.mem_cons_self ..)
        simp only [Allowed, OpWide, OpOk] at hok ⊢
        rintro (⟨x, _, hc⟩ | ⟨h, _⟩ | ⟨h | h, _⟩)
        · rcases hok x _ hc with h | h <;> cases h
        all_goals cases h
      | _ => simp [Allowed]
    by_cases ha : (Spec.step d op).ret = .error .abort
    · rw [specRun_cons_abort ha]; simp
    · rw [specRun_cons ha, List.mem_cons, not_or]
      exact ⟨fun h => hne h.symm, ih (fun o ho => hops o (by simp [ho])) _ (step_length hl op)⟩

/-- C21, partial: for a zero-sized element type every capacity up to `isize::MAX`, and in builds without
overflow checks every capacity but `usize::MAX`, is accepted and every history behaves exactly like the
bounded deque, drops included. Missing: capacities above `isize::MAX` in builds with overflow checks, where
`c21_exact` (in `PropsHuge.lean`) shows that the property fails for each of them, and `usize::MAX`, where
`c21_new_usize_max_unchecked` does. -/
theorem c21_zst_partial (hu : Elem.uninitOk α = true) (hz : Elem.size α = 0) (hn : n ≤ isizeMax ∨ Wide α n) (ops : List (Op α))
    (hops : ∀ op ∈ ops, OpWide op) :
    ∃ cb : Buf α, withCapacity n = .ok cb ∧ (run ops ⟨cb, []⟩).1 = (Spec.run ops ⟨n, []⟩).1 ∧
      (run ops ⟨cb, []⟩).2.dropped = (Spec.run ops ⟨n, []⟩).2.2 ∧
      (run ops ⟨cb, []⟩).2.cb.contents = .ok (Spec.run ops ⟨n, []⟩).2.1.items ∧
      .error .overflow ∉ (run ops ⟨cb, []⟩).1 := by
  obtain ⟨cb, h1, r⟩ := withCapacity_rep_wide hu hn (by rw [hz]; omega)
  obtain ⟨cb', e, r'⟩ := run_sim_wide ops (s := ⟨cb, []⟩) r hops
  rw [List.nil_append] at e
  refine ⟨cb, h1, by rw [e], by rw [e], by rw [e]; exact r'.contents_eq, ?_⟩
  rw [e]
  exact specRun_no_overflow ops hops _ (by simp)

end

example := @c21_huge_zst_len_overflows Demo.demoCfg rfl
example := @c21_new_usize_max_unchecked Nat ⟨64, false, false, by decide, by decide⟩ Demo.demoElem rfl 7 []
example := @c21_resize_usize_max_unchecked ⟨64, false, false, by decide, by decide⟩ rfl
example : @Elem.size Unit ⟨0, fun _ => false, true⟩ = 0 ∧ @Elem.uninitOk Unit ⟨0, fun _ => false, true⟩ = true ∧ 5 < @isizeMax Demo.demoCfg :=
  ⟨rfl, rfl, by decide⟩
example : @Wide ⟨64, false, false, by decide, by decide⟩ Unit (2 ^ 64 - 2) :=
  ⟨rfl, inferInstance, by decide⟩

/-! ## C67 -/
section
variable {α : Type} [Cfg] [Elem α] {cb : Buf α} {xs : List α} {n : Nat}

/-- C67, partial: when the destructor of an element panics while the buffer itself is dropped, the elements
behind it and that element have been dropped, each once. Missing: the elements `pre` in front of it, which
are never dropped (`c67_drop_leaks`): they stay in `ManuallyDrop` slots that are freed as plain memory. -/
theorem c67_drop_partial {pre post : List α} {x : α} (h : Reachable cb)
    (hx : cb.contents = .ok (pre ++ x :: post)) (hp : Elem.dropPanics x = true) (hc : Calm post)
    (dr : List α) :
    ∃ cb', dropSelf ⟨cb, dr⟩ = (.error .user, ⟨cb', dr ++ post.reverse ++ [x]⟩) ∧
      cb'.contents = .ok pre := by
  obtain ⟨xs', n, hx', hn, hl, r⟩ := h.shows
  rw [hx] at hx'; cases hx'
  obtain ⟨cb', e, r'⟩ := clear_sim (s := ⟨cb, dr⟩) r
  rw [clear_panic hc hp] at e r'
  exact ⟨cb', by rw [List.append_assoc]; exact e, r'.contents_eq⟩

/-- C67, partial, the same for an `into_iter()` dropped after `k` steps. -/
theorem c67_into_iter_drop_partial {pre post : List α} {x : α} (h : Reachable cb)
    (hx : cb.contents = .ok (xs ++ pre ++ x :: post)) (hp : Elem.dropPanics x = true) (hc : Calm post)
    (dr : List α) :
    ∃ cb' cb'', intoIterN xs.length ⟨cb, dr⟩ = (.ok (xs.map some), ⟨cb', dr⟩) ∧
      intoIterDrop ⟨cb', dr⟩ = (.error .user, ⟨cb'', dr ++ post.reverse ++ [x]⟩) ∧
      cb''.contents = .ok pre := by
  obtain ⟨xs', n, hx', hn, hl, r⟩ := h.shows
  rw [hx] at hx'; cases hx'
  obtain ⟨cb', e, r'⟩ := intoIterN_sim xs.length (s := ⟨cb, dr⟩) r
  obtain ⟨cb'', e'', r''⟩ := clear_sim (s := ⟨cb', dr⟩) r'
  have hd : (xs ++ pre ++ x :: post).drop xs.length = pre ++ x :: post := by simp
  simp only [hd] at e'' r''
  rw [clear_panic hc hp] at e'' r''
  refine ⟨cb', cb'', ?_, by rw [List.append_assoc]; exact e'', r''.contents_eq⟩
  rw [e]
  congr 2
  apply List.ext_getElem
  · simp
  · intro i h1 h2
    simp only [List.length_map] at h2
    simp only [List.getElem_map, List.getElem_range]
    rw [List.append_assoc, List.getElem?_append_left h2, List.getElem?_eq_getElem h2]

end

open Demo in
/-- C67 is false: a dropped buffer need not have dropped its elements. -/
theorem c67_drop_leaks :
    ¬ ∀ (cb : Buf Nat) (xs : List Nat), Reachable cb → cb.contents = .ok xs →
      xs.Perm (dropSelf ⟨cb, []⟩).2.dropped := by
  intro h
  have := (h mid [3, 13, 5] mid_reachable mid_contents).length_eq
  have e : (dropSelf ⟨mid, []⟩).2.dropped = [5, 13] := by decide
  rw [e] at this
  cases this

open Demo in
example : Reachable Demo.mid ∧ Demo.mid.contents = .ok ([3] ++ 13 :: [5]) ∧
    Demo.mid.contents = .ok ([3] ++ [] ++ 13 :: [5]) ∧ Elem.dropPanics 13 = true ∧ Calm [5] :=
  ⟨mid_reachable, mid_contents, mid_contents, rfl, by unfold Calm; decide⟩

end CB
