import Verif.CB.Laws
import Verif.CB.Props
import Mathlib.Data.List.Rotate
/-!
# Property theorem C77: laws of pushing and popping
-/

set_option linter.unusedSectionVars false

open Rust
namespace CB
open Spec (Deque)

/-- `if let Some(v) = cb.pop_front() { cb.push_back(v) }`, `k` times -/
def rotateLeftBy {α : Type} [Cfg] [Elem α] : Nat → M (St α) Unit
  | 0 => return ()
  | k + 1 => do
    match ← popFront with
    | none => return ()
    | some v =>
      pushBack v
      rotateLeftBy k

/-- `if let Some(v) = cb.pop_back() { cb.push_front(v) }`, `k` times -/
def rotateRightBy {α : Type} [Cfg] [Elem α] : Nat → M (St α) Unit
  | 0 => return ()
  | k + 1 => do
    match ← popBack with
    | none => return ()
    | some v =>
      pushFront v
      rotateRightBy k

section
variable {α : Type} [Cfg] [Elem α] {cb : Buf α} {xs : List α} {n : Nat}

/-- C77: with room for one more element, popping undoes pushing at the same end, and pushing undoes popping. -/
theorem c77_push_pop (h : Reachable cb) (hx : cb.contents = .ok xs) (hn : cb.capacity = .ok n) (v : α)
    (dr : List α) :
    (xs.length < n → ∃ b, run [.pushBack v, .popBack] ⟨cb, dr⟩ = ([.ok .unit, .ok (.opt (some v))], ⟨b, dr⟩) ∧
      b.contents = .ok xs ∧ b.capacity = .ok n) ∧
    (xs.length < n → ∃ b, run [.pushFront v, .popFront] ⟨cb, dr⟩ = ([.ok .unit, .ok (.opt (some v))], ⟨b, dr⟩) ∧
      b.contents = .ok xs ∧ b.capacity = .ok n) ∧
    (xs.getLast? = some v → ∃ b, run [.popBack, .pushBack v] ⟨cb, dr⟩ =
      ([.ok (.opt (some v)), .ok .unit], ⟨b, dr⟩) ∧ b.contents = .ok xs ∧ b.capacity = .ok n) ∧
    (xs.head? = some v → ∃ b, run [.popFront, .pushFront v] ⟨cb, dr⟩ =
      ([.ok (.opt (some v)), .ok .unit], ⟨b, dr⟩) ∧ b.contents = .ok xs ∧ b.capacity = .ok n) := by
  have r := h.rep_of hx hn
  have hle : xs.length ≤ n := r.le_cap
  have fin : ∀ (ops : List (Op α)), (∀ op ∈ ops, OpOk op) → ∀ (rs : List (Except Fault (Out α))),
      Spec.run ops ⟨n, xs⟩ = (rs, ⟨n, xs⟩, []) →
      ∃ b, run ops ⟨cb, dr⟩ = (rs, ⟨b, dr⟩) ∧ b.contents = .ok xs ∧ b.capacity = .ok n := by
    intro ops hops rs hs
    obtain ⟨b, e, r'⟩ := run_sim ops (s := ⟨cb, dr⟩) r hops
    rw [hs] at e r'
    exact ⟨b, by simpa using e, r'.contents_eq, r'.capacity_eq⟩
  refine ⟨fun hl => fin _ (by simp [OpOk]) _ ?_, fun hl => fin _ (by simp [OpOk]) _ ?_,
    fun hl => fin _ (by simp [OpOk]) _ ?_, fun hl => fin _ (by simp [OpOk]) _ ?_⟩
  · have h0 : n ≠ 0 := by omega
    simp [Spec.run, Spec.step, Spec.pushBack, h0, hl, Except.map]
  · have h0 : n ≠ 0 := by omega
    simp [Spec.run, Spec.step, Spec.pushFront, h0, hl, Except.map]
  · obtain ⟨ys, rfl⟩ := List.getLast?_eq_some_iff.mp hl
    simp only [List.length_append, List.length_cons, List.length_nil] at hle
    have h0 : n ≠ 0 := by omega
    have h1 : ys.length < n := by omega
    simp [Spec.run, Spec.step, Spec.pushBack, h0, h1, Except.map]
  · obtain ⟨ys, rfl⟩ := List.head?_eq_some_iff.mp hl
    simp only [List.length_cons] at hle
    have h0 : n ≠ 0 := by omega
    have h1 : ys.length < n := by omega
    simp [Spec.run, Spec.step, Spec.pushFront, h0, h1, Except.map]

/-- C77: moving elements from one end to the other rotates the content; nothing is lost or dropped. -/
theorem c77_rotate (k : Nat) : ∀ {cb : Buf α} {xs : List α} {n : Nat}, Reachable cb → cb.contents = .ok xs →
    cb.capacity = .ok n → ∀ dr : List α,
    (∃ b, rotateLeftBy k ⟨cb, dr⟩ = (.ok (), ⟨b, dr⟩) ∧ b.contents = .ok (xs.rotate k) ∧ b.capacity = .ok n) ∧
    (∃ b, rotateRightBy k ⟨cb, dr⟩ = (.ok (), ⟨b, dr⟩) ∧
      b.contents = .ok (xs.reverse.rotate k).reverse ∧ b.capacity = .ok n) := by
  suffices H : ∀ (k : Nat) {cb : Buf α} {xs : List α} {n : Nat}, Rep cb ⟨n, xs⟩ → ∀ dr : List α,
      (∃ b, rotateLeftBy k ⟨cb, dr⟩ = (.ok (), ⟨b, dr⟩) ∧ Rep b ⟨n, xs.rotate k⟩) ∧
      (∃ b, rotateRightBy k ⟨cb, dr⟩ = (.ok (), ⟨b, dr⟩) ∧ Rep b ⟨n, (xs.reverse.rotate k).reverse⟩) by
    intro cb xs n h hx hn dr
    obtain ⟨⟨b, e, r⟩, ⟨b', e', r'⟩⟩ := H k (h.rep_of hx hn) dr
    exact ⟨⟨b, e, r.contents_eq, r.capacity_eq⟩, ⟨b', e', r'.contents_eq, r'.capacity_eq⟩⟩
  intro k
  induction k with
  | zero => intro cb xs n r dr; exact ⟨⟨cb, rfl, by simpa using r⟩, ⟨cb, rfl, by simpa using r⟩⟩
  | succ k ih =>
    intro cb xs n r dr
    have hle : xs.length ≤ n := r.le_cap
    constructor
    · obtain ⟨b, e, r1⟩ := popFront_sim (s := ⟨cb, dr⟩) r
      show ∃ b', (popFront >>= fun o => match o with
        | none => pure ()
        | some v => pushBack v >>= fun _ => rotateLeftBy k) (⟨cb, dr⟩ : St α) = _ ∧ _
      rw [M.bind_ok e]
      cases xs with
      | nil => exact ⟨b, rfl, by simpa using r1⟩
      | cons x xs =>
        simp only [List.length_cons] at hle
        simp only [List.head?_cons, List.tail_cons] at r1 ⊢
        obtain ⟨b2, e2, r2⟩ := pushBack_sim (s := ⟨b, dr⟩) r1 x
        have h0 : n ≠ 0 := by omega
        have h1 : xs.length < n := by omega
        simp only [Spec.pushBack, h0, h1, if_true, if_false, List.append_nil] at e2 r2
        rw [M.bind_ok e2, List.rotate_cons_succ]
        exact (ih r2 dr).1
    · obtain ⟨b, e, r1⟩ := popBack_sim (s := ⟨cb, dr⟩) r
      show ∃ b', (popBack >>= fun o => match o with
        | none => pure ()
        | some v => pushFront v >>= fun _ => rotateRightBy k) (⟨cb, dr⟩ : St α) = _ ∧ _
      rw [M.bind_ok e]
      rcases List.eq_nil_or_concat xs with rfl | ⟨ys, x, rfl⟩
      · exact ⟨b, rfl, by simpa using r1⟩
      · rw [List.concat_eq_append] at r1 hle ⊢
        simp only [List.length_append, List.length_cons, List.length_nil] at hle
        simp only [List.getLast?_concat, List.dropLast_concat] at r1 ⊢
        obtain ⟨b2, e2, r2⟩ := pushFront_sim (s := ⟨b, dr⟩) r1 x
        have h0 : n ≠ 0 := by omega
        have h1 : ys.length < n := by omega
        simp only [Spec.pushFront, h0, h1, if_true, if_false, List.append_nil] at e2 r2
        rw [M.bind_ok e2]
        have : (ys ++ [x]).reverse.rotate (k + 1) = (x :: ys).reverse.rotate k := by
          rw [List.reverse_append, List.reverse_singleton, List.singleton_append, List.rotate_cons_succ]; simp
        rw [this]
        exact (ih r2 dr).2

/-- C77: the two ends are symmetric: on a buffer with the reversed content, the mirrored calls return the
mirrored results, drop the same values and leave the reversed content. -/
theorem c77_mirror {a b : Buf α} (ha : Reachable a) (hb : Reachable b) (hxa : a.contents = .ok xs)
    (hxb : b.contents = .ok xs.reverse) (hna : a.capacity = .ok n) (hnb : b.capacity = .ok n)
    (ops : List (Op α)) (hops : ∀ op ∈ ops, Symmetric op) (dr : List α) :
    (run (ops.map mirror) ⟨b, dr⟩).1 = (run ops ⟨a, dr⟩).1.map (Except.map mirrorOut) ∧
    (run (ops.map mirror) ⟨b, dr⟩).2.dropped = (run ops ⟨a, dr⟩).2.dropped ∧
    ∃ ys, (run ops ⟨a, dr⟩).2.cb.contents = .ok ys ∧
      (run (ops.map mirror) ⟨b, dr⟩).2.cb.contents = .ok ys.reverse := by
  have ok1 : ∀ op ∈ ops, OpOk op := by
    intro op ho; have := hops op ho; cases op <;> trivial
  have ok2 : ∀ op ∈ ops.map mirror, OpOk op := by
    intro op ho
    obtain ⟨o, ho', rfl⟩ := List.mem_map.mp ho
    have := hops o ho'; cases o <;> trivial
  obtain ⟨cb1, e1, r1⟩ := run_sim ops (s := ⟨a, dr⟩) (ha.rep_of hxa hna) ok1
  obtain ⟨cb2, e2, r2⟩ := run_sim (ops.map mirror) (s := ⟨b, dr⟩) (hb.rep_of hxb hnb) ok2
  have hh := run_mirror ops hops ⟨n, xs⟩ (ha.rep_of hxa hna).le_cap
  rw [hh] at e2 r2
  rw [e1, e2]
  exact ⟨rfl, rfl, _, r1.contents_eq, r2.contents_eq⟩

end

open Demo in
example : Reachable Demo.buf ∧ Reachable (step .reverse ⟨Demo.buf, []⟩).2.cb ∧
    Demo.buf.contents = .ok [3, 4, 5] ∧ (step .reverse ⟨Demo.buf, []⟩).2.cb.contents = .ok [5, 4, 3] ∧
    Demo.buf.capacity = .ok 3 ∧ (step .reverse ⟨Demo.buf, []⟩).2.cb.capacity = .ok 3 ∧
    (∀ op ∈ [Op.pushBack 8, .popFront, .last], Symmetric op) := by
  refine ⟨Demo.buf_reachable, Reachable.step _ _ Demo.buf_reachable trivial, rfl, rfl, rfl, rfl, ?_⟩
  intro op h
  simp only [List.mem_cons, List.not_mem_nil, or_false] at h
  rcases h with rfl | rfl | rfl <;> trivial

open Demo in
example : Reachable (step .popBack ⟨Demo.buf, []⟩).2.cb ∧
    (step .popBack ⟨Demo.buf, []⟩).2.cb.contents = .ok [3, 4] ∧ [3, 4].length < 3 :=
  ⟨Reachable.step _ _ Demo.buf_reachable trivial, rfl, by decide⟩

section
variable {α : Type} [Cfg] [Elem α] {xs : List α} {n : Nat}

/-- C81: two buffers with the same content and capacity cannot be told apart by any calls, however they came
about and wherever their elements lie: the same results, panics, drops, and again the same content and capacity. -/
theorem c81_only_content_matters {a b : Buf α} (ha : Reachable a) (hb : Reachable b) (hxa : a.contents = .ok xs)
    (hxb : b.contents = .ok xs) (hna : a.capacity = .ok n) (hnb : b.capacity = .ok n) (ops : List (Op α))
    (hops : ∀ op ∈ ops, OpOk op) (dr : List α) :
    (run ops ⟨a, dr⟩).1 = (run ops ⟨b, dr⟩).1 ∧
    (run ops ⟨a, dr⟩).2.dropped = (run ops ⟨b, dr⟩).2.dropped ∧
    (run ops ⟨a, dr⟩).2.cb.contents = (run ops ⟨b, dr⟩).2.cb.contents ∧
    (run ops ⟨a, dr⟩).2.cb.capacity = (run ops ⟨b, dr⟩).2.cb.capacity := by
  obtain ⟨cb1, e1, r1⟩ := run_sim ops (s := ⟨a, dr⟩) (ha.rep_of hxa hna) hops
  obtain ⟨cb2, e2, r2⟩ := run_sim ops (s := ⟨b, dr⟩) (hb.rep_of hxb hnb) hops
  rw [e1, e2]
  exact ⟨rfl, rfl, by rw [r1.contents_eq, r2.contents_eq], by rw [r1.capacity_eq, r2.capacity_eq]⟩

/-- C81: what `slices` returns is the same too, but for the place where the content is split in two. -/
theorem c81_slices_join {a b : Buf α} (ha : Reachable a) (hb : Reachable b) (hxa : a.contents = .ok xs)
    (hxb : b.contents = .ok xs) :
    ∃ p q p' q', a.slices = .ok (p, q) ∧ b.slices = .ok (p', q') ∧ p ++ q = xs ∧ p' ++ q' = xs := by
  obtain ⟨p, q, h1, h2⟩ := (c10_views_agree ha hxa).1
  obtain ⟨p', q', h3, h4⟩ := (c10_views_agree hb hxb).1
  exact ⟨p, q, p', q', h1, h3, h2, h4⟩

end

open Demo in
example : Reachable (step .linearize ⟨Demo.buf, []⟩).2.cb ∧ (step .linearize ⟨Demo.buf, []⟩).2.cb.start ≠ Demo.buf.start ∧
    (step .linearize ⟨Demo.buf, []⟩).2.cb.contents = Demo.buf.contents ∧
    (step .linearize ⟨Demo.buf, []⟩).2.cb.capacity = Demo.buf.capacity :=
  ⟨Reachable.step _ _ Demo.buf_reachable trivial, by decide, rfl, rfl⟩

open Demo in
/-- C81: `slices` can tell two buffers with the same content and capacity apart. -/
theorem c81_slices_split : ∃ a b : Buf Nat, Reachable a ∧ Reachable b ∧ a.contents = b.contents ∧ a.capacity = b.capacity ∧
    ∃ p q p' q', a.slices = .ok (p, q) ∧ b.slices = .ok (p', q') ∧ p.length ≠ p'.length :=
  ⟨buf, (step .linearize ⟨buf, []⟩).2.cb, buf_reachable, Reachable.step _ _ buf_reachable trivial, rfl, rfl, _, _, _, _,
    rfl, rfl, by decide⟩

end CB
