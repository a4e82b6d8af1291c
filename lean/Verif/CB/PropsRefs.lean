import Mathlib.Data.List.Nodup
import Verif.CB.LemmasRefs
/-!
# C133: the references that `iter_mut` hands out
-/

set_option linter.unusedSectionVars false

open Rust
namespace CB
section
variable {α : Type} [Cfg] [Elem α] {cb : Buf α} {xs : List α}

/-- **C133 (independent references).** A client may keep the references that `iter_mut` hands out, from both ends, and read,
assign, replace, swap and reorder through them in any order, also while the iteration goes on and after panics of their own.
Every step has the outcome, and drops the values, as if each reference were a box of its own with its element inside. In the
end every element of the buffer is what was left in its box. The capacity is unchanged and the buffer is as good as any. -/
theorem c133_boxes (h : Reachable cb) (hx : cb.contents = .ok xs) (ops : List (RefOp α)) (dr : List α) :
    ∃ it ys, cb.iterMutPlaces = .ok it ∧
      (runRef ops ⟨⟨cb, dr⟩, it, []⟩).1 = (Boxes.run ops (Boxes.of xs dr)).1 ∧
      (runRef ops ⟨⟨cb, dr⟩, it, []⟩).2.st.dropped = (Boxes.run ops (Boxes.of xs dr)).2.dropped ∧
      (runRef ops ⟨⟨cb, dr⟩, it, []⟩).2.st.cb.contents = .ok ys ∧ ys.length = xs.length ∧
      (Boxes.run ops (Boxes.of xs dr)).2.Show ys ∧
      (runRef ops ⟨⟨cb, dr⟩, it, []⟩).2.st.cb.capacity = cb.capacity ∧
      Reachable (runRef ops ⟨⟨cb, dr⟩, it, []⟩).2.st.cb := by
  obtain ⟨it, n, hit, hn, r, a⟩ := start_agrees h hx dr
  obtain ⟨e, ys, a'⟩ := run_agrees ops a
  exact ⟨it, ys, hit, e, a'.dropped, a'.rep.contents_eq, a'.len, a'.shows, by rw [a'.rep.capacity_eq, hn],
    reachable_of_rewritten h r a'.rep a'.len a'.start⟩

/-- **C133 (no aliasing).** At every moment the references the client holds and those the iterator has still to hand out lead
to different slots, and every one of them leads to a slot that holds an element. -/
theorem c133_no_alias (h : Reachable cb) (hx : cb.contents = .ok xs) (ops : List (RefOp α)) (dr : List α) :
    ∃ it, cb.iterMutPlaces = .ok it ∧
      let now := (runRef ops ⟨⟨cb, dr⟩, it, []⟩).2
      (now.refs ++ now.it.collect).Nodup ∧ (now.refs ++ now.it.collect).length = xs.length ∧
      ∀ p ∈ now.refs ++ now.it.collect, ∃ v, readCell now.st.cb.buf p = .ok v := by
  obtain ⟨it, n, hit, hn, r, a⟩ := start_agrees h hx dr
  obtain ⟨e, ys, a'⟩ := run_agrees ops a
  refine ⟨it, hit, ?_⟩
  dsimp only
  rw [a'.refs, a'.it, ← List.map_append]
  refine ⟨?_, ?_, ?_⟩
  · have hnd := a'.shows.1.nodup_iff.mpr List.nodup_range
    refine List.Nodup.map_on ?_ (List.Nodup.of_map _ hnd)
    intro p hp q hq hpq
    obtain ⟨hpl, _, _⟩ := a'.box hp
    obtain ⟨hql, _, _⟩ := a'.box hq
    have h4 := a'.rep.le_cap
    have h5 := r.start_le
    simp only at h4 h5
    have := (wrap_inj (n := n + 1) (s := cb.start) (by omega) (by omega) (by omega)).mp hpq
    exact List.inj_on_of_nodup_map hnd hp hq this
  · have := a'.shows.1.length_eq
    simpa [a'.len] using this
  · intro p hp
    obtain ⟨q, hq, rfl⟩ := List.mem_map.mp hp
    obtain ⟨_, _, hc⟩ := a'.box hq
    exact ⟨q.2, hc⟩

/-- **C133 (locality).** What is stored through one reference is read through it again, and through no other. -/
theorem c133_local (h : Reachable cb) (hx : cb.contents = .ok xs) (ops : List (RefOp α)) (dr : List α) (i : Nat) (v : α) :
    ∃ it, cb.iterMutPlaces = .ok it ∧
      let now := (runRef ops ⟨⟨cb, dr⟩, it, []⟩).2
      let after := (stepRef (.replace i v) now).2
      (stepRef (.replace i v) now).1 = (stepRef (.read i) now).1 ∧
      (i < now.refs.length → (stepRef (.read i) after).1 = .ok (.elem v)) ∧
      ∀ j, j ≠ i → (stepRef (.read j) after).1 = (stepRef (.read j) now).1 := by
  obtain ⟨it, n, hit, hn, r, a⟩ := start_agrees h hx dr
  obtain ⟨e, ys, a'⟩ := run_agrees ops a
  refine ⟨it, hit, ?_⟩
  dsimp only
  generalize (runRef ops ⟨⟨cb, dr⟩, it, []⟩).2 = now at a' ⊢
  generalize (Boxes.run ops (Boxes.of xs dr)).2 = b at a'
  obtain ⟨e1, ys1, a1⟩ := step_agrees a' (.replace i v)
  have hlen : now.refs.length = b.held.length := by rw [a'.refs, List.length_map]
  refine ⟨?_, ?_, ?_⟩
  · rw [e1, (step_agrees a' (.read i)).1]
    unfold Boxes.step
    dsimp only
    cases b.held[i]? <;> rfl
  · intro hi
    rw [hlen] at hi
    rw [(step_agrees a1 (.read i)).1]
    simp [Boxes.step, hi]
  · intro j hj
    rw [(step_agrees a1 (.read j)).1, (step_agrees a' (.read j)).1]
    unfold Boxes.step
    dsimp only
    cases hi : b.held[i]? with
    | none => rfl
    | some p =>
      dsimp only
      rw [List.getElem?_set_ne (Ne.symm hj)]
      cases b.held[j]? <;> rfl

end

namespace Demo

/-- takes references from both ends of a wrapped buffer, uses them out of order, and holds on to one index too many -/
def juggle : List (RefOp Nat) :=
  [.nextBack, .next, .swap 0 1, .assign 1 9, .reorder 0 1, .next, .next, .read 0, .replace 2 8, .read 3]

example : Reachable buf ∧ buf.contents = .ok [3, 4, 5] ∧ buf.iterMutPlaces = .ok ⟨[2, 3], [0]⟩ ∧
    (runRef juggle ⟨⟨buf, []⟩, ⟨[2, 3], [0]⟩, []⟩).1 =
      [.ok (.got true), .ok (.got true), .ok .unit, .ok .unit, .ok .unit, .ok (.got true), .ok (.got false),
        .ok (.elem 9), .ok (.elem 4), .error .indexOutOfBounds] ∧
    (runRef juggle ⟨⟨buf, []⟩, ⟨[2, 3], [0]⟩, []⟩).2.st.cb.contents = .ok [9, 8, 3] ∧
    (runRef juggle ⟨⟨buf, []⟩, ⟨[2, 3], [0]⟩, []⟩).2.st.dropped = [5] ∧
    (runRef juggle ⟨⟨buf, []⟩, ⟨[2, 3], [0]⟩, []⟩).2.refs = [2, 0, 3] :=
  ⟨buf_reachable, buf_contents, rfl, rfl, rfl, rfl, rfl⟩

/-- The new value is stored although the destructor of the old one panics. -/
example : (runRef [.next, .assign 0 7] ⟨⟨bomb, []⟩, ⟨[2, 3], [0]⟩, []⟩).1 = [.ok (.got true), .error .user] ∧
    bomb.iterMutPlaces = .ok ⟨[2, 3], [0]⟩ ∧
    (runRef [.next, .assign 0 7] ⟨⟨bomb, []⟩, ⟨[2, 3], [0]⟩, []⟩).2.st.cb.contents = .ok [7, 4, 5] :=
  ⟨rfl, rfl, rfl⟩

end Demo
end CB
