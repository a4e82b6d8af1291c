import Verif.CB.Lemmas
/-!
# Simulation of the mutating methods by the deque specification
-/

set_option linter.unusedSectionVars false

open Rust
namespace CB
open Spec (Deque)

variable {α : Type} [Cfg]

/-! ## Run equations of the small helpers -/
section runs
variable {s : St α} {β : Type}

theorem self_run (f : Buf α → Except Fault β) (s : St α) : self_ f s = (f s.cb, s) := rfl
theorem setBuf_run (f : Buf α → Buf α) (s : St α) : setBuf f s = (.ok (), { s with cb := f s.cb }) := rfl
theorem debugAssert_run {c : Buf α → Except Fault Bool} (h : c s.cb = .ok true) :
    debugAssert c s = (.ok (), s) := by
  unfold debugAssert; rw [h]; split <;> rfl

theorem self_bind (f : Buf α → Except Fault β) {γ : Type} (k : β → M (St α) γ) {b : β}
    (h : f s.cb = .ok b) : (self_ f >>= k) s = k b s := M.bind_ok (by rw [self_run, h])
theorem selfp_bind (f : Buf α → β) {γ : Type} (k : β → M (St α) γ) :
    (self_ (fun cb => .ok (f cb)) >>= k) s = k (f s.cb) s := rfl
theorem lift_bind {e : Except Fault β} {γ : Type} (k : β → M (St α) γ) {b : β} (h : e = .ok b) :
    (M.lift e >>= k) s = k b s := by rw [h]; rfl
theorem setBuf_bind (f : Buf α → Buf α) {γ : Type} (k : Unit → M (St α) γ) :
    (setBuf f >>= k) s = k () { s with cb := f s.cb } := rfl

theorem incrEnd_run (hf : s.cb.isFull = .ok false) (he : s.cb.end_ < s.cb.buf.length)
    (hb : s.cb.buf.length ≤ usizeMax) :
    incrEnd s = (.ok (), ⟨{ s.cb with end_ := wrap s.cb.buf.length (s.cb.end_ + 1) }, s.dropped⟩) := by
  have h6 := two_isizeMax
  have h : notFull s.cb = .ok true := by unfold notFull; rw [hf]; rfl
  unfold incrEnd
  rw [M.bind_ok (debugAssert_run h), self_bind _ _ (b := s.cb.end_ + 1) (uadd_ok (by omega)),
    setBuf_bind, setBuf_run]
  unfold wrap
  simp only [Prod.mk.injEq, true_and, St.mk.injEq, and_true]
  split
  · rw [if_neg (by omega)]; congr 1; omega
  · rw [if_pos (by omega)]

theorem incrStart_run (hf : s.cb.isEmpty = false) (he : s.cb.start < s.cb.buf.length)
    (hb : s.cb.buf.length ≤ usizeMax) :
    incrStart s = (.ok (), ⟨{ s.cb with start := wrap s.cb.buf.length (s.cb.start + 1) }, s.dropped⟩) := by
  have h6 := two_isizeMax
  have h : notEmpty s.cb = .ok true := by unfold notEmpty; rw [hf]; rfl
  unfold incrStart
  rw [M.bind_ok (debugAssert_run h), self_bind _ _ (b := s.cb.start + 1) (uadd_ok (by omega)),
    setBuf_bind, setBuf_run]
  unfold wrap
  simp only [Prod.mk.injEq, true_and, St.mk.injEq, and_true]
  split
  · rw [if_neg (by omega)]; congr 1; omega
  · rw [if_pos (by omega)]

theorem decrEnd_run (hf : s.cb.isEmpty = false) (he : s.cb.end_ < s.cb.buf.length) :
    decrEnd s = (.ok (), ⟨{ s.cb with
      end_ := if s.cb.end_ = 0 then s.cb.buf.length - 1 else s.cb.end_ - 1 }, s.dropped⟩) := by
  have h : notEmpty s.cb = .ok true := by unfold notEmpty; rw [hf]; rfl
  unfold decrEnd
  rw [M.bind_ok (debugAssert_run h),
    self_bind _ _ (b := if s.cb.end_ = 0 then s.cb.buf.length - 1 else s.cb.end_ - 1)
      (by split <;> rw [usub_ok (by omega)]), setBuf_run]

theorem decrStart_run (hf : s.cb.isFull = .ok false) (he : s.cb.start < s.cb.buf.length) :
    decrStart s = (.ok (), ⟨{ s.cb with
      start := if s.cb.start = 0 then s.cb.buf.length - 1 else s.cb.start - 1 }, s.dropped⟩) := by
  have h : notFull s.cb = .ok true := by unfold notFull; rw [hf]; rfl
  unfold decrStart
  rw [M.bind_ok (debugAssert_run h),
    self_bind _ _ (b := if s.cb.start = 0 then s.cb.buf.length - 1 else s.cb.start - 1)
      (by split <;> rw [usub_ok (by omega)]), setBuf_run]

theorem popAt_run [Elem α] (hu : Elem.uninitOk α = true) {i : Nat} {v : α} (h : s.cb.buf[i]? = some (some v)) :
    popAt i s = (.ok v, ⟨{ s.cb with buf := s.cb.buf.set i none }, s.dropped⟩) := by
  unfold popAt
  rw [M.bind_ok (a := none) (s' := s) (by rw [uninit_eq hu]; rfl), self_bind _ _ (b := v) (by simp [readCell, h]), setBuf_bind]; rfl

theorem pushAt_run {i : Nat} (v : α) (h : i < s.cb.buf.length) :
    pushAt v i s = (.ok (), ⟨{ s.cb with buf := s.cb.buf.set i (some v) }, s.dropped⟩) := by
  unfold pushAt
  rw [self_bind _ _ (b := ()) (by simp [h]), setBuf_run]

theorem replacePos_run {i : Nat} {v : α} (w : α) (h : s.cb.buf[i]? = some (some v)) :
    replacePos i w s = (.ok v, ⟨{ s.cb with buf := s.cb.buf.set i (some w) }, s.dropped⟩) := by
  unfold replacePos
  rw [self_bind _ _ (b := v) (by simp [readCell, h]), setBuf_bind]; rfl

end runs

/-! ## Effect of slot updates on the representation -/
section slots
variable [Elem α] {cb : Buf α} {d : Deque α}

theorem Rep.start_lt (h : Rep cb d) : cb.start < cb.buf.length := by
  have := h.len_buf; have := h.start_le; omega
theorem Rep.end_lt (h : Rep cb d) : cb.end_ < cb.buf.length := by
  have := h.len_buf; have := h.start_le; have := h.le_cap
  rw [h.end_eq, h.len_buf]; exact wrap_lt (by omega)
theorem Rep.buf_le (h : Rep cb d) : cb.buf.length ≤ usizeMax := by
  have := h.len_buf; have := two_isizeMax
  rcases h.cap_lt with h' | ⟨_, _, h'⟩ <;> omega

omit [Cfg] in
theorem wrap_inj {n s i j : Nat} (hs : s < n) (hi : i < n) (hj : j < n) :
    wrap n (s + i) = wrap n (s + j) ↔ i = j := by
  unfold wrap; split <;> split <;> omega

/-- writing the slot of logical position `k` -/
theorem Rep.set_cell (h : Rep cb d) {k : Nat} (hk : k ≤ d.cap) (v : Option α) (i : Nat) (hi : i ≤ d.cap) :
    (cb.buf.set (wrap (d.cap + 1) (cb.start + k)) v)[wrap (d.cap + 1) (cb.start + i)]?
      = some (if i = k then v else d.items[i]?) := by
  have h1 := h.len_buf; have h3 := h.start_le
  rw [List.getElem?_set]
  have hw : wrap (d.cap + 1) (cb.start + k) < cb.buf.length := by
    rw [h1]; exact wrap_lt (by omega)
  have := wrap_inj (n := d.cap + 1) (s := cb.start) (i := k) (j := i) (by omega) (by omega) (by omega)
  by_cases hik : i = k
  · subst hik; simp [hw]
  · rw [if_neg (by rw [this]; omega), h.cells i hi, if_neg hik]

/-- replacing a live item -/
theorem Rep.set_item (h : Rep cb d) {k : Nat} (hk : k < d.items.length) (v : α) :
    Rep { cb with buf := cb.buf.set (wrap (d.cap + 1) (cb.start + k)) (some v) }
      { d with items := d.items.set k v } := by
  have h4 := h.le_cap
  refine ⟨h.uninit_ok, by simp [h.len_buf], h.cap_lt, h.start_le, by simpa using h4, by simpa using h.end_eq, ?_⟩
  intro i hi
  simp only at hi ⊢
  rw [h.set_cell (by omega) _ i hi, List.getElem?_set]
  by_cases hik : i = k
  · subst hik; simp [hk]
  · rw [if_neg hik, if_neg (by omega)]

end slots

/-! ## pop -/
section pop
variable [Elem α] {s : St α} {d : Deque α}

theorem popFront_sim (h : Rep s.cb d) :
    ∃ cb', popFront s = (.ok d.items.head?, ⟨cb', s.dropped⟩) ∧
      Rep cb' { d with items := d.items.tail } := by
  have he := h.isEmpty_eq
  have h1 := h.len_buf; have h3 := h.start_le; have h4 := h.le_cap
  unfold popFront
  rw [selfp_bind]
  cases hd : d.items with
  | nil =>
    rw [hd] at he
    refine ⟨s.cb, by simp only [he, List.isEmpty_nil, if_true]; rfl, ?_⟩
    have : ({ d with items := [] } : Deque α) = d := by cases d; simp_all
    simpa [this] using h
  | cons x xs =>
    rw [hd] at he
    have hpos : 0 < d.items.length := by simp [hd]
    have hlen : d.items.length = xs.length + 1 := by simp [hd]
    have hc := h.cell (i := 0) hpos
    have hw0 : wrap (d.cap + 1) (s.cb.start + 0) = s.cb.start := by unfold wrap; split <;> omega
    have hx : d.items[0] = x := by simp [hd]
    rw [hw0, hx] at hc
    simp only [he, List.isEmpty_cons, Bool.false_eq_true, if_false]
    rw [selfp_bind, M.bind_ok (popAt_run h.uninit_ok hc)]
    have hrun := incrStart_run
      (s := ⟨{ s.cb with buf := s.cb.buf.set s.cb.start none }, s.dropped⟩)
      (by simpa [Buf.isEmpty] using he) (by simpa using h.start_lt) (by simpa using h.buf_le)
    rw [M.bind_ok hrun]
    refine ⟨_, rfl, ?_⟩
    refine ⟨h.uninit_ok, by simpa using h1, h.cap_lt, ?_, ?_, ?_, ?_⟩
    · simp only [List.length_set, h1]; have := wrap_lt (n := d.cap + 1) (x := s.cb.start + 1) (by omega); omega
    · simp; omega
    · simp only [List.tail_cons, List.length_set, h1]
      rw [h.end_eq, hlen]; unfold wrap; split <;> split <;> split <;> omega
    · intro i hi
      simp only [List.tail_cons, List.length_set, h1] at hi ⊢
      by_cases hlast : i = d.cap
      · have e1 : wrap (d.cap + 1) (wrap (d.cap + 1) (s.cb.start + 1) + i)
            = wrap (d.cap + 1) (s.cb.start + 0) := by
          unfold wrap; split <;> split <;> split <;> omega
        have := h.set_cell (k := 0) (by omega) none 0 (by omega)
        rw [hw0] at this
        rw [e1, hw0, this, List.getElem?_eq_none (l := xs) (by omega)]; rfl
      · have e1 : wrap (d.cap + 1) (wrap (d.cap + 1) (s.cb.start + 1) + i)
            = wrap (d.cap + 1) (s.cb.start + (i + 1)) := by
          unfold wrap; split <;> split <;> split <;> omega
        have := h.set_cell (k := 0) (by omega) none (i + 1) (by omega)
        rw [hw0] at this
        rw [e1, this, if_neg (by omega), hd]; simp

theorem popBack_sim (h : Rep s.cb d) :
    ∃ cb', popBack s = (.ok d.items.getLast?, ⟨cb', s.dropped⟩) ∧
      Rep cb' { d with items := d.items.dropLast } := by
  have he := h.isEmpty_eq
  have h1 := h.len_buf; have h3 := h.start_le; have h4 := h.le_cap; have h5 := h.end_eq
  unfold popBack
  rw [selfp_bind]
  by_cases hd : d.items = []
  · rw [hd] at he
    refine ⟨s.cb, by simp only [he, List.isEmpty_nil, if_true, hd]; rfl, ?_⟩
    have : ({ d with items := [] } : Deque α) = d := by cases d; simp_all
    simpa [this, hd] using h
  · have hpos : 0 < d.items.length := List.length_pos_iff.mpr hd
    have hem : s.cb.isEmpty = false := by rw [he]; simpa using hd
    simp only [hem, Bool.false_eq_true, if_false]
    rw [M.bind_ok (decrEnd_run hem h.end_lt), selfp_bind]
    have hw : (if s.cb.end_ = 0 then s.cb.buf.length - 1 else s.cb.end_ - 1)
        = wrap (d.cap + 1) (s.cb.start + (d.items.length - 1)) := by
      rw [h1, h5]; unfold wrap; split <;> split <;> split <;> omega
    simp only [hw]
    have hc := h.cell (i := d.items.length - 1) (by omega)
    rw [M.bind_ok (popAt_run h.uninit_ok (v := d.items[d.items.length - 1]) (by exact hc))]
    refine ⟨_, by rw [List.getLast?_eq_getElem?, List.getElem?_eq_getElem (by omega)]; rfl, ?_⟩
    refine ⟨h.uninit_ok, by simpa using h1, h.cap_lt, h3, by simp; omega, by simp, ?_⟩
    intro i hi
    simp only at hi ⊢
    rw [h.set_cell (by omega) none i hi, List.getElem?_dropLast]
    by_cases hik : i = d.items.length - 1
    · simp [hik]
    · rw [if_neg hik]
      split
      · rfl
      · rw [List.getElem?_eq_none (by omega)]

end pop
end CB
