import Verif.CB.LemmasPaid
import Verif.CB.PropsCost
/-!
# C101: the counts of steps leave nothing out
-/

open Rust
namespace CB.Cost

section
variable {α : Type} [Cfg] [Elem α]

/-- C101: the other direction. Whatever the buffer is, a history of calls takes at least one step for each value that is
dropped and one for each value that is handed out, so the bounds above cannot hold merely because work is not counted. -/
theorem c101_nothing_is_free (s : State α) (ops : List (Op α)) :
    (run ops s).2.1.dropped.length + allGiven (run ops s).1 + s.2.steps ≤ s.1.dropped.length + (run ops s).2.2.steps := by
  induction ops generalizing s with
  | nil => show s.1.dropped.length + 0 + s.2.steps ≤ s.1.dropped.length + s.2.steps; omega
  | cons op ops ih =>
    have h1 := owed_step op s
    unfold run
    revert h1
    rcases step op s with ⟨r, t⟩
    have h2 := ih t
    cases r with
    | ok o =>
      intro h1
      dsimp only [allGiven] at *
      omega
    | error e =>
      intro h1
      cases e <;> · dsimp only [allGiven] at *; omega

/-- C101: in particular, the times of `clear`, `iter` and `drain` are proportional to the number of elements concerned: at
least a step, and at most 30 steps, for each of them. -/
theorem c101_linear_time_tight {cb : Buf α} {xs : List α} {n : Nat} (h : Reachable cb) (hx : cb.contents = .ok xs)
    (hn : cb.capacity = .ok n) (hd : ∀ x ∈ xs, Elem.dropPanics x = false) (dr : List α) (sp : Spent) {op : Op α}
    (hop : op = .clear ∨ op = .iter ∨ ∃ k, op = .drain k) :
    sp.steps + load ⟨n, xs⟩ op ≤ (step op (⟨cb, dr⟩, sp)).2.2.steps ∧
    (step op (⟨cb, dr⟩, sp)).2.2.steps ≤ sp.steps + 20 + 30 * load ⟨n, xs⟩ op := by
  have hok : OpOk op := by rcases hop with rfl | rfl | ⟨k, rfl⟩ <;> trivial
  refine ⟨?_, c101_linear_time h hx hn op hok dr sp⟩
  obtain ⟨cb', e, _⟩ := step_sim (s := ⟨cb, dr⟩) (h.rep_of hx hn) op hok
  have h1 := owed_step op (⟨cb, dr⟩, sp)
  have h2 := (c101_counted_is_the_model (⟨cb, dr⟩, sp) op [] (⟨cb, cb, []⟩, {}) 0).1
  rw [e] at h2
  revert h1 h2
  rcases step op (⟨cb, dr⟩, sp) with ⟨r, t, sp'⟩
  intro h1 h2
  obtain ⟨rfl, rfl⟩ := Prod.mk.inj h2
  rcases hop with rfl | rfl | ⟨k, rfl⟩
  · simp only [Spec.step, clear_calm (d := ⟨n, xs⟩) hd] at h1
    simp only [Except.map, given, List.length_append, List.length_reverse] at h1
    simp only [load]
    omega
  · simp only [Spec.step, given, List.append_nil] at h1
    simp only [load]
    omega
  · simp only [Spec.step, given, List.append_nil, List.length_take] at h1
    simp only [load]
    omega

end

open Demo in
example : Reachable Demo.buf ∧ Demo.buf.contents = .ok [3, 4, 5] ∧ Demo.buf.capacity = .ok 3 ∧
    (∀ x ∈ [3, 4, 5], Elem.dropPanics (α := Nat) x = false) ∧
    (run [.pushBack 6, .popFront, .iter, .clear] (⟨Demo.buf, []⟩, {})).2.1.dropped = [3, 6, 5] ∧
    allGiven (run [.pushBack 6, .popFront, .iter, .clear] (⟨Demo.buf, []⟩, {})).1 = 3 ∧
    (step .clear (⟨Demo.buf, []⟩, {})).2.2.steps = 28 :=
  ⟨Demo.buf_reachable, rfl, rfl, by decide, by decide +kernel, by decide +kernel, by decide +kernel⟩

end CB.Cost
