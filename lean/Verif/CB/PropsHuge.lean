import Verif.CB.Props
/-!
# C21: where the index arithmetic of zero-sized elements stops being exact
-/

open Rust
namespace CB
open Spec

section
variable {α : Type} [Cfg] [Elem α]

/-- the buffer whose first element is in the last slot and which ends at slot `j` -/
def Far (n j : Nat) (cb : Buf α) : Prop := cb.buf.length = n + 1 ∧ cb.start = n ∧ cb.end_ = j

theorem Far.len {n j : Nat} {cb : Buf α} (h : Far n j cb) (hj : j < n) (hb : n + 1 + j ≤ usizeMax) :
    cb.len = .ok (j + 1) := by
  obtain ⟨h1, h2, h3⟩ := h
  unfold Buf.len
  rw [if_neg (by omega), h1, h2, h3, uadd_ok hb]
  show usub (n + 1 + j) n = _
  rw [usub_ok (by omega)]; congr 1; omega

theorem Far.isFull {n j : Nat} {cb : Buf α} (h : Far n j cb) (hj : j + 1 < n) (hb : n + 1 + j ≤ usizeMax) :
    cb.isFull = .ok false := by
  unfold Buf.isFull
  rw [h.len (by omega) hb, show cb.capacity = .ok n by
    show usub cb.buf.length 1 = _; rw [h.1, usub_ok (by omega)]; rfl]
  show Except.ok (j + 1 == n) = _
  congr 1; simp; omega

theorem Far.len_overflows {n j : Nat} {cb : Buf α} (h : Far n j cb) (hj : j < n) (hov : Cfg.overflowChecks = true)
    (hb : usizeMax < n + 1 + j) : cb.len = .error .overflow := by
  obtain ⟨h1, h2, h3⟩ := h
  unfold Buf.len
  rw [if_neg (by omega), h1, h3, show uadd (n + 1) j = .error .overflow by
    unfold uadd; rw [if_neg (by omega), if_pos hov]]
  rfl

theorem far_pushBack {n j : Nat} {cb : Buf α} (h : Far n j cb) (hj : j + 1 < n) (hb : n + 1 + j ≤ usizeMax) (v : α)
    (dr : List α) : ∃ cb', pushBack v ⟨cb, dr⟩ = (.ok (), ⟨cb', dr⟩) ∧ Far n (j + 1) cb' := by
  have hf := h.isFull hj hb
  obtain ⟨h1, h2, h3⟩ := h
  have h' : Far n j (⟨cb.buf.set cb.end_ (some v), cb.start, cb.end_⟩ : Buf α) :=
    ⟨by rw [List.length_set]; exact h1, h2, h3⟩
  refine ⟨⟨cb.buf.set cb.end_ (some v), cb.start, cb.end_ + 1⟩, ?_,
    by rw [List.length_set]; exact h1, h2, by show cb.end_ + 1 = _; omega⟩
  unfold pushBack
  have hgo : owning v (do
      if ← self_ Buf.isFull then
        if (← self_ Buf.capacity) = 0 then return false
        else dropOpt (← popFront); return true
      else return true) ⟨cb, dr⟩ = (.ok true, ⟨cb, dr⟩) := by
    apply owning_ok
    rw [self_bind _ _ hf]; rfl
  rw [M.bind_ok hgo]
  simp only [if_true]
  rw [selfp_bind, M.bind_ok (pushAt_run v (by show cb.end_ < cb.buf.length; omega))]
  unfold incrEnd
  rw [M.bind_ok (debugAssert_run (s := ⟨⟨cb.buf.set cb.end_ (some v), cb.start, cb.end_⟩, dr⟩) (by
    unfold notFull; rw [h'.isFull hj hb]; rfl)), self_bind _ _ (b := cb.end_ + 1) (by
      show uadd cb.end_ 1 = _; rw [uadd_ok (by omega)]), setBuf_bind, setBuf_run]
  show (Except.ok (), _) = _
  congr 2
  show (if cb.end_ + 1 = (cb.buf.set cb.end_ (some v)).length then _ else _) = _
  rw [List.length_set, if_neg (by omega)]

theorem far_pushFront {n : Nat} (hn : 0 < n) (hb : n < usizeMax) (v : α) :
    ∃ cb', pushFront v ⟨⟨List.replicate (n + 1) none, 0, 0⟩, []⟩ = (.ok (), ⟨cb', []⟩) ∧ Far n 0 cb' := by
  have hf : Buf.isFull (⟨List.replicate (n + 1) none, 0, 0⟩ : Buf α) = .ok false := by
    unfold Buf.isFull
    rw [show Buf.len (⟨List.replicate (n + 1) none, 0, 0⟩ : Buf α) = .ok 0 from
        (usub_ok (Nat.le_refl 0) : usub 0 0 = .ok 0),
      show Buf.capacity (⟨List.replicate (n + 1) none, 0, 0⟩ : Buf α) = .ok n by
        show usub (List.replicate (n + 1) _).length 1 = _
        rw [List.length_replicate, usub_ok (by omega)]; rfl]
    show Except.ok (0 == n) = _
    congr 1; simp; omega
  refine ⟨⟨(List.replicate (n + 1) none).set n (some v), n, 0⟩, ?_, by simp, rfl, rfl⟩
  unfold pushFront
  have hgo : owning v (do
      if ← self_ Buf.isFull then
        if (← self_ Buf.capacity) = 0 then return false
        else dropOpt (← popBack); decrStart; return true
      else decrStart; return true) ⟨⟨List.replicate (n + 1) none, 0, 0⟩, []⟩ =
        (.ok true, ⟨⟨List.replicate (n + 1) none, n, 0⟩, []⟩) := by
    apply owning_ok
    rw [self_bind _ _ hf]
    simp only [Bool.false_eq_true, if_false]
    rw [M.bind_ok (decrStart_run hf (by show 0 < (List.replicate (n + 1) _).length; rw [List.length_replicate]; omega))]
    show (Except.ok true, _) = _
    congr 2
    show Buf.mk _ (if 0 = 0 then (List.replicate (n + 1) _).length - 1 else 0 - 1) _ = _
    simp
  rw [M.bind_ok hgo]
  simp only [if_true]
  rw [selfp_bind, pushAt_run v (by show n < (List.replicate (n + 1) _).length; rw [List.length_replicate]; omega)]

theorem far_run {n : Nat} (hov : Cfg.overflowChecks = true) (v : α) (hn : isizeMax < n) (k : Nat) :
    ∀ {j : Nat} {cb : Buf α}, Far n j cb → n + j + k = usizeMax → ∀ dr,
      .error .overflow ∈ (run (List.replicate k (.pushBack v) ++ [.len]) ⟨cb, dr⟩).1 := by
  have h6 := two_isizeMax
  induction k with
  | zero =>
    intro j cb h hj dr
    have := h.len_overflows (by omega) hov (by omega)
    rw [List.replicate_zero, List.nil_append, run_cons (s' := ⟨cb, dr⟩) (r := .error .overflow) _ (by simp)]
    · exact List.mem_cons_self ..
    · show (self_ Buf.len >>= _) _ = _
      apply M.bind_error
      show (cb.len, _) = _
      rw [this]
  | succ k ih =>
    intro j cb h hj dr
    obtain ⟨cb', e, h'⟩ := far_pushBack h (by omega) (by omega) v dr
    rw [List.replicate_succ, List.cons_append, run_cons (s' := ⟨cb', dr⟩) (r := .ok .unit) _ (by simp)]
    · exact List.mem_cons_of_mem _ (ih h' (by omega) dr)
    · show (pushBack v >>= _) _ = _
      rw [M.bind_ok e]; rfl

/-- C21, exact in builds with overflow checks: zero-sized elements in a buffer of capacity `n` behave like the bounded
deque in every history exactly if `n` is at most `isize::MAX`. Beyond, the constructor still accepts `n`. -/
theorem c21_exact (hov : Cfg.overflowChecks = true) (hu : Elem.uninitOk α = true) (hz : Elem.size α = 0) (v : α)
    {n : Nat} (hn : n < usizeMax) :
    ∃ cb : Buf α, withCapacity n = .ok cb ∧
      ((∀ ops : List (Op α), (∀ op ∈ ops, OpOk op) → (run ops ⟨cb, []⟩).1 = (Spec.run ops ⟨n, []⟩).1) ↔
        n ≤ isizeMax) ∧
      (isizeMax < n → .error .overflow ∈
        (run (.pushFront v :: (List.replicate (usizeMax - n) (.pushBack v) ++ [.len])) ⟨cb, []⟩).1) := by
  have h6 := two_isizeMax
  have hw : withCapacity n = .ok (⟨List.replicate (n + 1) none, 0, 0⟩ : Buf α) := by
    unfold withCapacity
    rw [uadd_ok (by omega)]
    simp only [bind, Except.bind]
    rw [show allocCheck α (n + 1) = .ok () by
      unfold allocCheck; rw [if_pos]; rw [hz]; omega]
    simp only
    rw [uninits_eq hu]
    rfl
  have hbad : isizeMax < n → .error .overflow ∈
      (run (.pushFront v :: (List.replicate (usizeMax - n) (.pushBack v) ++ [.len]))
        (⟨⟨List.replicate (n + 1) none, 0, 0⟩, []⟩ : St α)).1 := by
    intro hlt
    obtain ⟨cb', e, h'⟩ := far_pushFront (n := n) (by omega) hn v
    rw [run_cons (s' := ⟨cb', []⟩) (r := .ok .unit) _ (by simp)]
    · exact List.mem_cons_of_mem _ (far_run hov v hlt _ h' (by omega) [])
    · show (pushFront v >>= _) _ = _
      rw [M.bind_ok e]; rfl
  refine ⟨_, hw, ⟨fun h => ?_, fun hle ops hops => ?_⟩, hbad⟩
  · apply Classical.byContradiction
    intro hlt
    have hops : ∀ op ∈ (.pushFront v :: (List.replicate (usizeMax - n) (.pushBack v) ++ [.len]) : List (Op α)),
        OpOk op := by
      intro op hop
      rcases List.mem_cons.mp hop with rfl | hop
      · trivial
      rcases List.mem_append.mp hop with hop | hop
      · rw [List.eq_of_mem_replicate hop]; trivial
      · rw [List.mem_singleton.mp hop]; trivial
    have hb := hbad (by omega)
    rw [h _ hops] at hb
    exact specRun_no_overflow _ (fun op ho => (hops op ho).wide) ⟨n, []⟩ (Nat.zero_le _) hb
  · obtain ⟨cb, hw', e, -⟩ := c21_zst_partial (n := n) hu hz (.inl hle) ops (fun op ho => (hops op ho).wide)
    rw [hw] at hw'; cases hw'
    exact e

end

example : (2 ^ 63 : Nat) < @usizeMax ⟨64, true, true, by decide, by decide⟩ ∧
    @isizeMax ⟨64, true, true, by decide, by decide⟩ < 2 ^ 63 ∧
    @Elem.size Unit ⟨0, fun _ => false, true⟩ = 0 ∧ @Elem.uninitOk Unit ⟨0, fun _ => false, true⟩ = true :=
  ⟨by decide, by decide, rfl, rfl⟩

end CB
