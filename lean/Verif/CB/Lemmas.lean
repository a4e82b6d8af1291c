import Verif.CB.Spec
/-!
# Representation relation and simulation lemmas
-/

set_option linter.unusedSectionVars false

open Rust
namespace CB
open Spec (Deque)

variable {α : Type}

/-- position `x` of a ring of `n` slots, for `x < 2 * n` -/
def wrap (n x : Nat) : Nat := if x < n then x else x - n

/-- The buffer `cb` represents the deque `d`: counted from `start`, the slots hold exactly the items, then
uninitialised slots. -/
structure Rep [Cfg] [Elem α] (cb : Buf α) (d : Deque α) : Prop where
  uninit_ok : Elem.uninitOk α = true
  len_buf : cb.buf.length = d.cap + 1
  cap_lt : d.cap ≤ isizeMax ∨ Wide α d.cap
  start_le : cb.start ≤ d.cap
  le_cap : d.items.length ≤ d.cap
  end_eq : cb.end_ = wrap (d.cap + 1) (cb.start + d.items.length)
  cells : ∀ i, i ≤ d.cap → cb.buf[wrap (d.cap + 1) (cb.start + i)]? = some d.items[i]?

theorem uninit_eq [Elem α] (h : Elem.uninitOk α = true) : uninit α = .ok none := by
  unfold uninit; rw [if_pos h]

theorem uninits_eq [Elem α] (h : Elem.uninitOk α = true) (k : Nat) : uninits α k = .ok (List.replicate k none) := by
  induction k with
  | zero => rfl
  | succ k ih => unfold uninits; rw [uninit_eq h, ih]; rfl

theorem uninit_refused [Elem α] (h : Elem.uninitOk α = false) : uninit α = .error .uninitRefused := by
  unfold uninit; rw [h]; rfl

theorem uninits_refused [Elem α] (h : Elem.uninitOk α = false) (k : Nat) :
    uninits α (k + 1) = .error .uninitRefused := by
  unfold uninits; rw [uninit_refused h]; rfl

section observers
variable [Cfg] [Elem α] {cb : Buf α} {d : Deque α}

theorem wrap_lt {n x : Nat} (h : x < 2 * n) : wrap n x < n := by
  unfold wrap; split <;> omega

theorem Rep.len_eq (h : Rep cb d) : cb.len = .ok d.items.length := by
  have h1 := h.len_buf; have h2 := h.cap_lt; have h3 := h.start_le; have h4 := h.le_cap
  have h5 := h.end_eq; have h6 := two_isizeMax
  unfold wrap at h5
  unfold Buf.len
  split
  · rw [usub_ok (by omega)]; congr 1; split at h5 <;> omega
  · have he : cb.end_ + (d.cap + 1) = cb.start + d.items.length := by split at h5 <;> omega
    by_cases hw : cb.buf.length + cb.end_ ≤ usizeMax
    · rw [uadd_ok hw]
      show usub _ _ = _
      rw [usub_ok (by omega)]; congr 1; omega
    · have hov : Cfg.overflowChecks = false ∧ d.cap < usizeMax := by
        rcases h2 with h2 | ⟨h2, _, h2'⟩
        · omega
        · exact ⟨h2, h2'⟩
      unfold uadd
      rw [if_neg hw, if_neg (by simp [hov.1])]
      show usub _ _ = _
      have hm : (cb.buf.length + cb.end_) % (usizeMax + 1) = cb.buf.length + cb.end_ - (usizeMax + 1) := by
        rw [Nat.mod_eq_sub_mod (by omega), Nat.mod_eq_of_lt (by omega)]
      unfold usub
      rw [hm, if_neg (by omega), if_neg (by simp [hov.1])]
      congr 1; omega

theorem Rep.capacity_eq (h : Rep cb d) : cb.capacity = .ok d.cap := by
  have h1 := h.len_buf
  unfold Buf.capacity
  rw [usub_ok (by omega)]; congr 1; omega

theorem Rep.isEmpty_eq (h : Rep cb d) : cb.isEmpty = d.items.isEmpty := by
  have h3 := h.start_le; have h4 := h.le_cap
  have h5 := h.end_eq
  unfold wrap at h5
  rw [Bool.eq_iff_iff]
  simp only [Buf.isEmpty, beq_iff_eq, List.isEmpty_iff]
  rw [← List.length_eq_zero_iff]
  split at h5 <;> omega

theorem Rep.isFull_eq (h : Rep cb d) : cb.isFull = .ok (d.items.length == d.cap) := by
  unfold Buf.isFull
  rw [h.len_eq, h.capacity_eq]; rfl

theorem Rep.internalIndex_fits (h : Rep cb d) {i : Nat} (hi : i < d.items.length)
    (hf : cb.start + i ≤ usizeMax) :
    cb.internalIndex i = .ok (wrap (d.cap + 1) (cb.start + i)) := by
  have h1 := h.len_buf; have h3 := h.start_le; have h4 := h.le_cap
  have h6 := two_isizeMax
  unfold Buf.internalIndex
  rw [h.len_eq]
  simp only [bind, Except.bind, ge_iff_le, Nat.not_le.mpr hi, if_false]
  rw [uadd_ok (by omega)]
  unfold wrap
  simp only [pure, Except.pure]
  rw [h1]
  split
  · rfl
  · rw [uadd_ok (by omega)]; simp only []
    rw [usub_ok (by omega)]; congr 1; omega

theorem Rep.internalIndex_ok (h : Rep cb d) (hc : d.cap ≤ isizeMax) {i : Nat} (hi : i < d.items.length) :
    cb.internalIndex i = .ok (wrap (d.cap + 1) (cb.start + i)) :=
  h.internalIndex_fits hi (by
    have := h.start_le; have := h.le_cap; have := two_isizeMax; omega)

/-- In any case the index is that of an item, and of the right one unless all items are the same. -/
theorem Rep.internalIndex_some (h : Rep cb d) {i : Nat} (hi : i < d.items.length) :
    ∃ j, j < d.items.length ∧ cb.internalIndex i = .ok (wrap (d.cap + 1) (cb.start + j)) ∧
      (j = i ∨ Subsingleton α) := by
  by_cases hf : cb.start + i ≤ usizeMax
  · exact ⟨i, hi, h.internalIndex_fits hi hf, .inl rfl⟩
  have h1 := h.len_buf; have h3 := h.start_le; have h4 := h.le_cap; have h6 := two_isizeMax
  rcases h.cap_lt with h2 | ⟨hov, hsub, h2⟩
  · omega
  refine ⟨i - (usizeMax - d.cap), by omega, ?_, .inr hsub⟩
  have hm : ∀ a b, a + b = cb.start + i → uadd a b = .ok (cb.start + i - (usizeMax + 1)) := by
    intro a b e
    unfold uadd
    rw [e, if_neg hf, if_neg (by simp [hov]), Nat.mod_eq_sub_mod (by omega), Nat.mod_eq_of_lt (by omega)]
  unfold Buf.internalIndex
  rw [h.len_eq]
  simp only [bind, Except.bind, ge_iff_le, Nat.not_le.mpr hi, if_false]
  rw [hm _ _ rfl]
  simp only [pure, Except.pure]
  rw [if_pos (by omega)]
  congr 1
  unfold wrap; split <;> omega

theorem Rep.item_eq {d : Deque α} {i j : Nat} (hi : i < d.items.length) (hj : j < d.items.length)
    (e : j = i ∨ Subsingleton α) : d.items[j] = d.items[i] := by
  rcases e with rfl | hs
  · rfl
  · exact Subsingleton.elim _ _

theorem Rep.set_eq {d : Deque α} {i j : Nat} (e : j = i ∨ Subsingleton α) (v : α) :
    d.items.set j v = d.items.set i v := by
  rcases e with rfl | hs
  · rfl
  · exact List.ext_getElem (by simp) (fun _ _ _ => Subsingleton.elim _ _)

theorem Rep.internalIndex_err (h : Rep cb d) {i : Nat} (hi : d.items.length ≤ i) :
    cb.internalIndex i = .error .explicit := by
  unfold Buf.internalIndex
  rw [h.len_eq]
  simp only [bind, Except.bind, ge_iff_le, hi, if_true]; rfl

theorem Rep.cell (h : Rep cb d) {i : Nat} (hi : i < d.items.length) :
    cb.buf[wrap (d.cap + 1) (cb.start + i)]? = some (some d.items[i]) := by
  have h4 := h.le_cap
  rw [h.cells i (by omega), List.getElem?_eq_getElem hi]

theorem Rep.readCell_eq (h : Rep cb d) {i : Nat} (hi : i < d.items.length) :
    readCell cb.buf (wrap (d.cap + 1) (cb.start + i)) = .ok d.items[i] := by
  unfold readCell; rw [h.cell hi]

theorem Rep.index_ok (h : Rep cb d) {i : Nat} (hi : i < d.items.length) :
    cb.index i = .ok d.items[i] := by
  unfold Buf.index
  obtain ⟨j, hj, e, hji⟩ := h.internalIndex_some hi
  rw [e]
  exact (h.readCell_eq hj).trans (congrArg _ (Rep.item_eq hi hj hji))

theorem Rep.index_err (h : Rep cb d) {i : Nat} (hi : d.items.length ≤ i) :
    cb.index i = .error .explicit := by
  unfold Buf.index
  rw [h.internalIndex_err hi]; rfl

theorem Rep.first_eq (h : Rep cb d) : cb.first = .ok d.items.head? := by
  unfold Buf.first
  rw [h.isEmpty_eq]
  cases hd : d.items with
  | nil => rfl
  | cons x xs =>
    have : 0 < d.items.length := by simp [hd]
    obtain ⟨j, hj, e, hji⟩ := h.internalIndex_some this
    rw [e]
    simp only [bind, Except.bind]
    rw [h.readCell_eq hj, Rep.item_eq this hj hji]
    simp [hd, pure, Except.pure]

theorem Rep.last_eq (h : Rep cb d) : cb.last = .ok d.items.getLast? := by
  unfold Buf.last
  rw [h.isEmpty_eq, h.len_eq]
  by_cases hd : d.items = []
  · simp [hd]
  · have hl : 0 < d.items.length := List.length_pos_iff.mpr hd
    simp only [bind, Except.bind]
    rw [usub_ok (by omega)]
    simp only []
    obtain ⟨j, hj, e, hji⟩ := h.internalIndex_some (i := d.items.length - 1) (by omega)
    rw [e]
    simp only []
    rw [h.readCell_eq hj, Rep.item_eq (i := d.items.length - 1) (by omega) hj hji]
    simp [List.isEmpty_iff, hd, pure, Except.pure, List.getLast?_eq_getElem?, List.getElem?_eq_getElem, hl]

theorem asInit_map_some (l : List α) : asInit (l.map some) = .ok l := by
  induction l with
  | nil => rfl
  | cons x xs ih => simp [asInit, ih, bind, Except.bind, pure, Except.pure]

/-- The two slices, as parts of the items. -/
theorem Rep.slices_eq (h : Rep cb d) :
    cb.slices = if cb.start ≤ cb.end_ then .ok (d.items, [])
      else .ok (d.items.take (d.cap + 1 - cb.start), d.items.drop (d.cap + 1 - cb.start)) := by
  have h1 := h.len_buf; have h3 := h.start_le; have h4 := h.le_cap
  have h5 := h.end_eq
  unfold Buf.slices
  split
  · rename_i hle
    have he : cb.end_ = cb.start + d.items.length ∧ cb.start + d.items.length < d.cap + 1 := by
      unfold wrap at h5; split at h5 <;> omega
    have hs : sliceRange cb.buf cb.start cb.end_ = .ok (d.items.map some) := by
      unfold sliceRange
      rw [if_pos (by omega)]
      congr 1
      apply List.ext_getElem?
      intro i
      rw [List.getElem?_take]
      split
      · have hc := h.cells i (by omega)
        have hw : wrap (d.cap + 1) (cb.start + i) = cb.start + i := by unfold wrap; split <;> omega
        rw [hw] at hc
        rw [List.getElem?_drop, hc, List.getElem?_map, List.getElem?_eq_getElem (by omega)]; rfl
      · rw [List.getElem?_map, List.getElem?_eq_none (by omega)]; rfl
    have hs0 : sliceRange cb.buf 0 0 = .ok [] := by simp [sliceRange]
    simp only [bind, Except.bind, hs, hs0, asInit_map_some, asInit, pure, Except.pure]
  · rename_i hle
    have he : cb.end_ + (d.cap + 1) = cb.start + d.items.length := by
      unfold wrap at h5; split at h5 <;> omega
    have hs : sliceRange cb.buf cb.start cb.buf.length
        = .ok ((d.items.take (d.cap + 1 - cb.start)).map some) := by
      unfold sliceRange
      rw [if_pos (by omega)]
      congr 1
      apply List.ext_getElem?
      intro i
      rw [List.getElem?_take]
      split
      · have hc := h.cells i (by omega)
        have hw : wrap (d.cap + 1) (cb.start + i) = cb.start + i := by unfold wrap; split <;> omega
        rw [hw] at hc
        rw [List.getElem?_drop, hc, List.getElem?_map, List.getElem?_take, if_pos (by omega),
          List.getElem?_eq_getElem (by omega)]; rfl
      · rw [List.getElem?_eq_none]; simp; omega
    have hs0 : sliceRange cb.buf 0 cb.end_
        = .ok ((d.items.drop (d.cap + 1 - cb.start)).map some) := by
      unfold sliceRange
      rw [if_pos (by omega)]
      congr 1
      apply List.ext_getElem?
      intro i
      rw [List.getElem?_take]
      split
      · have hc := h.cells (d.cap + 1 - cb.start + i) (by omega)
        have hw : wrap (d.cap + 1) (cb.start + (d.cap + 1 - cb.start + i)) = i := by
          unfold wrap; split <;> omega
        rw [hw] at hc
        rw [List.drop_zero, hc, List.getElem?_map, List.getElem?_drop,
          List.getElem?_eq_getElem (by omega)]; rfl
      · rw [List.getElem?_eq_none]; simp; omega
    simp only [bind, Except.bind, hs, hs0, asInit_map_some, pure, Except.pure]

theorem Rep.contents_eq (h : Rep cb d) : cb.contents = .ok d.items := by
  unfold Buf.contents Buf.iter
  rw [h.slices_eq]
  split
  · simp [bind, Except.bind, pure, Except.pure, Iter.collect]
  · simp [bind, Except.bind, pure, Except.pure, Iter.collect]

end observers
end CB
