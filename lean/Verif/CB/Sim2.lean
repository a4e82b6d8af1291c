import Verif.CB.Sim
/-!
# Simulation of push, clear, resize, extend
-/

set_option linter.unusedSectionVars false

open Rust
namespace CB
open Spec (Deque)

variable {α : Type} [Cfg]

section push
variable {s : St α} {d : Deque α} [Elem α]

/-- `push_at(val, self.end); self.incr_end()` on a buffer that is not full -/
theorem storeBack_sim (h : Rep s.cb d) (hl : d.items.length < d.cap) (v : α) :
    ∃ cb', (do pushAt v (← self_ fun cb => .ok cb.end_); incrEnd) s = (.ok (), ⟨cb', s.dropped⟩) ∧
      Rep cb' { d with items := d.items ++ [v] } := by
  have h1 := h.len_buf; have h3 := h.start_le; have h4 := h.le_cap; have h5 := h.end_eq
  rw [selfp_bind, M.bind_ok (pushAt_run v h.end_lt)]
  have hr := incrEnd_run
    (s := ⟨{ s.cb with buf := s.cb.buf.set s.cb.end_ (some v) }, s.dropped⟩)
    (by
      have := h.isFull_eq
      have hne : (d.items.length == d.cap) = false := by simp; omega
      rw [hne] at this
      simpa [Buf.isFull, Buf.len, Buf.capacity] using this)
    (by simpa using h.end_lt) (by simpa using h.buf_le)
  refine ⟨_, hr, ?_⟩
  refine ⟨h.uninit_ok, by simpa using h1, h.cap_lt, h3, by simp; omega, ?_, ?_⟩
  · simp only [List.length_append, List.length_singleton, List.length_set, h1]
    rw [h5]; unfold wrap; split <;> split <;> split <;> omega
  · intro i hi
    simp only at hi ⊢
    have := h.set_cell (k := d.items.length) (by omega) (some v) i hi
    rw [h5, this]
    by_cases hik : i = d.items.length
    · subst hik; simp
    · rw [if_neg hik, List.getElem?_append]
      split
      · rfl
      · rw [List.getElem?_eq_none (by omega), List.getElem?_eq_none (by simp; omega)]

/-- `self.decr_start()` then `push_at(val, self.start)` on a buffer that is not full -/
theorem decrStart_sim (h : Rep s.cb d) (hl : d.items.length < d.cap) :
    decrStart s = (.ok (), ⟨{ s.cb with
      start := if s.cb.start = 0 then s.cb.buf.length - 1 else s.cb.start - 1 }, s.dropped⟩) := by
  refine decrStart_run ?_ h.start_lt
  rw [h.isFull_eq]
  have hne : (d.items.length == d.cap) = false := by simp; omega
  rw [hne]

theorem storeFront_sim (h : Rep s.cb d) (hl : d.items.length < d.cap) (v : α) {s' : St α}
    (hs' : s' = ⟨{ s.cb with
      start := if s.cb.start = 0 then s.cb.buf.length - 1 else s.cb.start - 1 }, s.dropped⟩) :
    ∃ cb', (do pushAt v (← self_ fun cb => .ok cb.start)) s' = (.ok (), ⟨cb', s.dropped⟩) ∧
      Rep cb' { d with items := v :: d.items } := by
  have h1 := h.len_buf; have h3 := h.start_le; have h4 := h.le_cap; have h5 := h.end_eq
  have hlt : (if s.cb.start = 0 then s.cb.buf.length - 1 else s.cb.start - 1) < s.cb.buf.length := by
    split <;> omega
  have hw : (if s.cb.start = 0 then s.cb.buf.length - 1 else s.cb.start - 1)
      = wrap (d.cap + 1) (s.cb.start + d.cap) := by
    unfold wrap; split <;> split <;> omega
  subst hs'
  rw [selfp_bind, pushAt_run v (by simpa using hlt)]
  refine ⟨_, rfl, ?_⟩
  simp only [hw]
  refine ⟨h.uninit_ok, by simpa using h1, h.cap_lt, ?_, by simp; omega, ?_, ?_⟩
  · simp only; have := wrap_lt (n := d.cap + 1) (x := s.cb.start + d.cap) (by omega); omega
  · simp only [List.length_cons]
    rw [h5]; unfold wrap; split <;> split <;> split <;> omega
  · intro i hi
    simp only at hi ⊢
    rcases i with _ | i
    · have := h.set_cell (k := d.cap) (by omega) (some v) d.cap (by omega)
      have e : wrap (d.cap + 1) (wrap (d.cap + 1) (s.cb.start + d.cap) + 0)
          = wrap (d.cap + 1) (s.cb.start + d.cap) := by unfold wrap; split <;> split <;> omega
      rw [e, this]; simp
    · have := h.set_cell (k := d.cap) (by omega) (some v) i (by omega)
      have e : wrap (d.cap + 1) (wrap (d.cap + 1) (s.cb.start + d.cap) + (i + 1))
          = wrap (d.cap + 1) (s.cb.start + i) := by unfold wrap; split <;> split <;> split <;> omega
      rw [e, this, if_neg (by omega)]; simp


theorem dropVal_run (x : α) (s : St α) :
    dropVal x s = (Spec.userIf (Elem.dropPanics x), ⟨s.cb, s.dropped ++ [x]⟩) := rfl

theorem owning_ok {β : Type} {x : α} {m : M (St α) β} {s s' : St α} {b : β}
    (h : m s = (.ok b, s')) : owning x m s = (.ok b, s') := by unfold owning; rw [h]
theorem owning_error {β : Type} {x : α} {m : M (St α) β} {s s' : St α} {e : Fault}
    (h : m s = (.error e, s')) :
    owning x m s = (.error (if Elem.dropPanics x then .abort else e),
      { s' with dropped := s'.dropped ++ [x] }) := by unfold owning; rw [h]

theorem pushBack_sim (h : Rep s.cb d) (v : α) :
    ∃ cb', pushBack v s
        = ((Spec.pushBack d v).ret, ⟨cb', s.dropped ++ (Spec.pushBack d v).dropped⟩) ∧
      Rep cb' (Spec.pushBack d v).deque := by
  have hf := h.isFull_eq; have hc := h.capacity_eq; have h4 := h.le_cap
  unfold pushBack Spec.pushBack
  by_cases h0 : d.cap = 0
  · have hlen : d.items.length = 0 := by omega
    rw [M.bind_ok (a := false) (s' := s)]
    · refine ⟨s.cb, ?_, ?_⟩
      · simp only [Bool.false_eq_true, if_false, h0, if_true]; rfl
      · simpa [h0] using h
    · apply owning_ok
      rw [self_bind _ _ hf]
      simp only [hlen, h0, beq_self_eq_true, if_true]
      rw [self_bind _ _ hc]
      simp only [h0, if_true]; rfl
  · by_cases hl : d.items.length < d.cap
    · have hne : (d.items.length == d.cap) = false := by simp; omega
      rw [M.bind_ok (a := true) (s' := s)]
      · simp only [if_true, h0, hl, if_false]
        obtain ⟨cb', e, r⟩ := storeBack_sim h hl v
        exact ⟨cb', by simpa using e, r⟩
      · apply owning_ok
        rw [self_bind _ _ hf]
        simp only [hne, Bool.false_eq_true, if_false]; rfl
    · have hne : (d.items.length == d.cap) = true := by simp; omega
      obtain ⟨cb1, e1, r1⟩ := popFront_sim h
      cases hd : d.items with
      | nil => rw [hd] at hl; simp at hl; omega
      | cons x xs =>
        rw [hd] at e1 r1
        simp only [List.tail_cons, List.head?_cons] at e1 r1
        have hlen : d.items.length = xs.length + 1 := by simp [hd]
        have hl' : ¬ (xs.length + 1 < d.cap) := by omega
        simp only [h0, if_false, List.length_cons, hl']
        by_cases hp : Elem.dropPanics x = true
        · rw [M.bind_error (owning_error (e := .user) (s' := ⟨cb1, s.dropped ++ [x]⟩) _)]
          · exact ⟨cb1, by simp [hp], by simpa [hp] using r1⟩
          · rw [self_bind _ _ hf]
            simp only [hne, if_true]
            rw [self_bind _ _ hc]
            simp only [h0, if_false]
            rw [M.bind_ok e1, M.bind_error (e := .user) (s' := ⟨cb1, s.dropped ++ [x]⟩)]
            show dropVal x _ = _
            rw [dropVal_run]; simp [Spec.userIf, hp]
        · rw [M.bind_ok (owning_ok (b := true) (s' := ⟨cb1, s.dropped ++ [x]⟩) _)]
          · obtain ⟨cb2, e2, r2⟩ := storeBack_sim (s := ⟨cb1, s.dropped ++ [x]⟩) r1 (by simp; omega) v
            exact ⟨cb2, by simpa [hp] using e2, by simpa [hp] using r2⟩
          · rw [self_bind _ _ hf]
            simp only [hne, if_true]
            rw [self_bind _ _ hc]
            simp only [h0, if_false]
            rw [M.bind_ok e1, M.bind_ok (a := ()) (s' := ⟨cb1, s.dropped ++ [x]⟩)]
            · rfl
            · show dropVal x _ = _
              rw [dropVal_run]; simp [Spec.userIf, hp]

theorem pushFront_sim (h : Rep s.cb d) (v : α) :
    ∃ cb', pushFront v s
        = ((Spec.pushFront d v).ret, ⟨cb', s.dropped ++ (Spec.pushFront d v).dropped⟩) ∧
      Rep cb' (Spec.pushFront d v).deque := by
  have hf := h.isFull_eq; have hc := h.capacity_eq; have h4 := h.le_cap
  unfold pushFront Spec.pushFront
  by_cases h0 : d.cap = 0
  · have hlen : d.items.length = 0 := by omega
    rw [M.bind_ok (a := false) (s' := s)]
    · refine ⟨s.cb, ?_, ?_⟩
      · simp only [Bool.false_eq_true, if_false, h0, if_true]; rfl
      · simpa [h0] using h
    · apply owning_ok
      rw [self_bind _ _ hf]
      simp only [hlen, h0, beq_self_eq_true, if_true]
      rw [self_bind _ _ hc]
      simp only [h0, if_true]; rfl
  · by_cases hl : d.items.length < d.cap
    · have hne : (d.items.length == d.cap) = false := by simp; omega
      rw [M.bind_ok (owning_ok (b := true) _)]
      · simp only [if_true, h0, hl, if_false]
        obtain ⟨cb', e, r⟩ := storeFront_sim h hl v rfl
        exact ⟨cb', by simpa using e, r⟩
      · rw [self_bind _ _ hf]
        simp only [hne, Bool.false_eq_true, if_false]
        rw [M.bind_ok (decrStart_sim h hl)]; rfl
    · have hne : (d.items.length == d.cap) = true := by simp; omega
      obtain ⟨cb1, e1, r1⟩ := popBack_sim h
      have hnil : d.items ≠ [] := by intro hd; rw [hd] at hl; simp at hl; omega
      have hlast : d.items.getLast? = some (d.items.getLast hnil) := List.getLast?_eq_some_getLast hnil
      rw [hlast] at e1 ⊢
      simp only [h0, if_false, hl]
      generalize d.items.getLast hnil = x at *
      by_cases hp : Elem.dropPanics x = true
      · rw [M.bind_error (owning_error (e := .user) (s' := ⟨cb1, s.dropped ++ [x]⟩) _)]
        · exact ⟨cb1, by simp [hp], by simpa [hp] using r1⟩
        · rw [self_bind _ _ hf]
          simp only [hne, if_true]
          rw [self_bind _ _ hc]
          simp only [h0, if_false]
          rw [M.bind_ok e1, M.bind_error (e := .user) (s' := ⟨cb1, s.dropped ++ [x]⟩)]
          show dropVal x _ = _
          rw [dropVal_run]; simp [Spec.userIf, hp]
      · have hl1 : d.items.dropLast.length < d.cap := by simp; omega
        rw [M.bind_ok (owning_ok (b := true) _)]
        · obtain ⟨cb2, e2, r2⟩ := storeFront_sim (s := ⟨cb1, s.dropped ++ [x]⟩) r1 hl1 v rfl
          exact ⟨cb2, by simpa [hp] using e2, by simpa [hp] using r2⟩
        · rw [self_bind _ _ hf]
          simp only [hne, if_true]
          rw [self_bind _ _ hc]
          simp only [h0, if_false]
          rw [M.bind_ok e1, M.bind_ok (a := ()) (s' := ⟨cb1, s.dropped ++ [x]⟩),
            M.bind_ok (decrStart_sim (s := ⟨cb1, s.dropped ++ [x]⟩) r1 hl1)]
          · rfl
          · show dropVal x _ = _
            rw [dropVal_run]; simp [Spec.userIf, hp]

end push
end CB
