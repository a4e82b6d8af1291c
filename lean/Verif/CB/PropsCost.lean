import Verif.CB.LemmasCost
import Verif.CB.Props
/-!
# C101: the documented costs of the circular buffer (circular_buffer/mod.rs:5-20)

The counted model (`CB.Cost`) tells how many steps a call takes and which blocks of memory it asks for.
-/

open Rust
namespace CB.Cost
open Spec (Deque)

section
variable {α : Type} [Cfg] [Elem α]

/-- C101: the counted calls are the calls of the model: the same results, the same panics, the same buffers. The step
counts and the requests for memory are the only addition. -/
theorem c101_counted_is_the_model (s : State α) (op : Op α) (ops : List (Op α)) (t : St2 α × Spent) (n : Nat) :
    ((step op s).1, (step op s).2.1) = CB.step op s.1 ∧ ((run ops s).1, (run ops s).2.1) = CB.run ops s.1 ∧
    ((append t).1, (append t).2.1) = CB.append t.1 ∧
    (withCapacity n : Except Fault (Buf α) × Spent).1 = CB.withCapacity n := by
  refine ⟨?_, ?_, ?_, ?_⟩
  · obtain ⟨j, e⟩ := step_spent op s
    rw [e]
  · obtain ⟨j, e⟩ := run_spent ops s
    rw [e]
  · obtain ⟨j, _, e⟩ := appendLoop_fine (t.1.other.buf.length + 1) t
    unfold append CB.append
    rw [e]
  · unfold withCapacity CB.withCapacity
    cases uadd n 1 with
    | error e => rfl
    | ok m =>
      cases ha : allocCheck α m with
      | error e => simp only [ha, bind, Except.bind]
      | ok u => cases hu : uninits α m <;> simp only [ha, hu, bind, Except.bind, pure, Except.pure]

/-- C101: as documented, pushing, popping and accessing an element take a constant time, whatever the buffer holds and
however large it is: `n` such calls take at most `20 * n` steps. They ask for no memory. -/
theorem c101_constant_time (s : State α) (ops : List (Op α)) (hops : ∀ op ∈ ops, Quick op) :
    (run ops s).2.2.steps ≤ s.2.steps + 20 * ops.length ∧ (run ops s).2.2.requests = s.2.requests := by
  obtain ⟨j, hj, e⟩ := run_constant ops s hops
  rw [e]
  exact ⟨Nat.add_le_add_left hj _, rfl⟩

/-- C101: every other call takes a constant time for each element it has to look at. -/
theorem c101_linear_time {cb : Buf α} {xs : List α} {n : Nat} (h : Reachable cb) (hx : cb.contents = .ok xs)
    (hn : cb.capacity = .ok n) (op : Op α) (hop : OpOk op) (dr : List α) (sp : Spent) :
    (step op (⟨cb, dr⟩, sp)).2.2.steps ≤ sp.steps + 20 + 30 * load ⟨n, xs⟩ op := by
  obtain ⟨j, hj, e⟩ := step_rep hop (s := (⟨cb, dr⟩, sp)) (h.rep_of hx hn)
  rw [e]
  change sp.steps + j ≤ _
  omega

/-- C101: `append` takes a constant time for each element that is moved and asks for no memory. -/
theorem c101_append {b : Buf α} {ys : List α} (h : Reachable b) (hy : b.contents = .ok ys) (a : Buf α) (dr : List α)
    (sp : Spent) :
    (append (⟨a, b, dr⟩, sp)).2.2.steps ≤ sp.steps + 9 + 29 * ys.length ∧
    (append (⟨a, b, dr⟩, sp)).2.2.requests = sp.requests := by
  obtain ⟨xs, m, hx, hm, _, r⟩ := h.shows
  rw [hy] at hx; cases hx
  obtain ⟨j, hj, e⟩ := appendLoop_rep (b.buf.length + 1) (s := (⟨a, b, dr⟩, sp)) r
  unfold append
  rw [e]
  exact ⟨by change sp.steps + j ≤ _; change j ≤ 29 * ys.length + 9 at hj; omega, rfl⟩

/-- C101: the memory of a buffer. `with_capacity(n)` asks once, for one place more than the capacity, and takes a constant
time for each of them. -/
theorem c101_with_capacity (hu : Elem.uninitOk α = true) {n : Nat} (hn : n < usizeMax) :
    (withCapacity n : Except Fault (Buf α) × Spent).2.requests =
      (if (n + 1) * Elem.size α ≤ isizeMax then [n + 1] else []) ∧
    (withCapacity n : Except Fault (Buf α) × Spent).2.steps ≤ n + 3 := by
  unfold withCapacity
  rw [uadd_ok (by omega)]
  by_cases hs : (n + 1) * Elem.size α ≤ isizeMax
  · have ha : allocCheck α (n + 1) = .ok () := if_pos ⟨hs, by omega⟩
    simp only [ha, uninits_eq hu, if_pos hs]
    exact ⟨trivial, by omega⟩
  · have ha : allocCheck α (n + 1) = .error .capacityOverflow := if_neg fun h => hs h.1
    simp only [ha, if_neg hs]
    exact ⟨trivial, by omega⟩

/-- C101: as documented, no memory is allocated while the buffer is used. Along every history of calls, the only requests
are those of the `resize` calls, one each; and at every moment the buffer has exactly one place more than the capacity that
was asked for last. -/
theorem c101_memory {cb : Buf α} {n : Nat} (h : Reachable cb) (hn : cb.capacity = .ok n) (ops : List (Op α))
    (hops : ∀ op ∈ ops, OpOk op) (dr : List α) (sp : Spent) :
    (run ops (⟨cb, dr⟩, sp)).2.2.requests =
      sp.requests ++ (ops.take (run ops (⟨cb, dr⟩, sp)).1.length).flatMap asked ∧
    (run ops (⟨cb, dr⟩, sp)).2.1.cb.buf.length = capAfter n (ops.zip (run ops (⟨cb, dr⟩, sp)).1) + 1 := by
  obtain ⟨j, e⟩ := run_spent ops (⟨cb, dr⟩, sp)
  rw [e]
  refine ⟨?_, ?_⟩
  · have : ∀ os : List (Op α), (∀ op ∈ os, OpOk op) → os.flatMap wants = os.flatMap asked := by
      intro os ho
      rw [List.flatMap_def, List.flatMap_def]
      refine congrArg List.flatten (List.map_congr_left fun op hm => ?_)
      cases op with
      | resize k =>
        have h6 := two_isizeMax
        have hk : k < usizeMax := by rcases ho _ hm with h | h <;> omega
        change asks α k = asked (.resize k)
        unfold asks asked allocCheck
        rw [uadd_ok (by omega)]
        by_cases hs : (k + 1) * Elem.size α ≤ isizeMax
        · simp only [if_pos hs, if_pos (show (k + 1) * Elem.size α ≤ isizeMax ∧ k + 1 ≤ usizeMax from ⟨hs, by omega⟩)]
        · simp only [if_neg hs, if_neg (show ¬((k + 1) * Elem.size α ≤ isizeMax ∧ k + 1 ≤ usizeMax) from fun h => hs h.1)]
      | _ => rfl
    exact congrArg _ (this _ fun op ho => hops op (List.mem_of_mem_take ho))
  · have hc := c05_only_resize_changes_capacity h hn ops hops dr
    obtain ⟨xs, m, hx, hm, hl, r⟩ := (h.run ops hops dr).shows
    rw [hc] at hm; cases hm
    exact r.len_buf

/-- C101: in particular, a history without `resize` asks for no memory at all, and leaves the number of places as it is. -/
theorem c101_no_allocation {cb : Buf α} (h : Reachable cb) (ops : List (Op α)) (hops : ∀ op ∈ ops, OpOk op)
    (hr : ∀ n, Op.resize n ∉ ops) (dr : List α) (sp : Spent) :
    (run ops (⟨cb, dr⟩, sp)).2.2.requests = sp.requests ∧
    (run ops (⟨cb, dr⟩, sp)).2.1.cb.buf.length = cb.buf.length := by
  obtain ⟨xs, n, hx, hn, _, r⟩ := h.shows
  obtain ⟨h1, h2⟩ := c101_memory h hn ops hops dr sp
  have hz : ∀ (os : List (Op α)) (rs : List (Except Fault (Out α))), (∀ n, Op.resize n ∉ os) →
      capAfter n (os.zip rs) = n ∧ os.flatMap asked = [] := by
    intro os
    induction os with
    | nil => exact fun rs _ => ⟨rfl, rfl⟩
    | cons o os ih =>
      intro rs ho
      have ho' : ∀ n, Op.resize n ∉ os := fun n hm => ho n (List.mem_cons_of_mem _ hm)
      have hne : ∀ n, o ≠ .resize n := fun n e => ho n (by rw [e]; exact List.mem_cons_self)
      refine ⟨?_, ?_⟩
      · cases rs with
        | nil => rfl
        | cons r rs =>
          rw [List.zip_cons_cons, capAfter]
          · exact (ih rs ho').1
          · intro m _ e; exact hne m (congrArg Prod.fst e)
      · rw [List.flatMap_cons, (ih [] ho').2, List.append_nil]
        cases o <;> first | rfl | exact absurd rfl (hne _)
  refine ⟨?_, ?_⟩
  · rw [h1, (hz _ [] fun n hm => hr n (List.mem_of_mem_take hm)).2, List.append_nil]
  · rw [h2, (hz ops _ hr).1, r.len_buf]

end

open Demo in
example : Reachable Demo.buf ∧ Demo.buf.contents = .ok [3, 4, 5] ∧ Demo.buf.capacity = .ok 3 ∧
    (∀ op ∈ [Op.pushBack 6, .pushFront 2, .popBack, .index 1], Quick op) ∧
    (run [.pushBack 6, .pushFront 2, .popBack, .index 1] (⟨Demo.buf, []⟩, {})).1
      = [.ok .unit, .ok .unit, .ok (.opt (some 5)), .ok (.elem 4)] ∧
    (run [.pushBack 6, .pushFront 2, .popBack, .index 1] (⟨Demo.buf, []⟩, {})).2.2.steps = 46 ∧
    (run [.pushBack 6, .pushFront 2, .popBack, .index 1] (⟨Demo.buf, []⟩, {})).2.2.requests = [] := by
  refine ⟨Demo.buf_reachable, rfl, rfl, ?_, rfl, by decide +kernel, by decide +kernel⟩
  intro op h
  simp only [List.mem_cons, List.not_mem_nil, or_false] at h
  rcases h with rfl | rfl | rfl | rfl <;> trivial

open Demo in
/-- a history that resizes twice: two requests; an `append` of three elements -/
example : (∀ op ∈ [Op.clear, .resize 5, .pushBack 1, .resize 2, .iter], OpOk (α := Nat) op) ∧
    (run [.clear, .resize 5, .pushBack 1, .resize 2, .iter] (⟨Demo.buf, []⟩, {})).1.length = 5 ∧
    (run [.clear, .resize 5, .pushBack 1, .resize 2, .iter] (⟨Demo.buf, []⟩, {})).2.2.requests = [6, 3] ∧
    (run [.clear, .resize 5, .pushBack 1, .resize 2, .iter] (⟨Demo.buf, []⟩, {})).2.1.cb.buf.length = 3 ∧
    (append (⟨Demo.buf, Demo.buf, []⟩, {})).2.1.other.isEmpty = true ∧
    (append (⟨Demo.buf, Demo.buf, []⟩, {})).2.2.requests = [] ∧
    (withCapacity 4 : Except Fault (Buf Nat) × Spent).2.steps = 7 ∧
    (withCapacity 4 : Except Fault (Buf Nat) × Spent).2.requests = [5] := by
  refine ⟨?_, by decide +kernel, by decide +kernel, by decide +kernel, by decide +kernel, by decide +kernel,
    by decide +kernel, by decide +kernel⟩
  intro op h
  simp only [List.mem_cons, List.not_mem_nil, or_false] at h
  rcases h with rfl | rfl | rfl | rfl | rfl <;> simp only [OpOk]
  · exact Or.inl (by decide)
  · exact Or.inl (by decide)

end CB.Cost
