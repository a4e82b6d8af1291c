import Verif.CB.ModelSlices
import Verif.CB.Props
/-!
# Lemmas for C125: storing through mutable slices
-/

open Rust
namespace CB
section
variable {α β : Type}

theorem storeRegion_get {r : Nat × Nat} {vs : List α} {b : List (Option α)} (hb : r.1 + vs.length ≤ b.length) (i : Nat) :
    (storeRegion r vs b)[i]? = if r.1 ≤ i ∧ i < r.1 + vs.length then some vs[i - r.1]? else b[i]? := by
  unfold storeRegion
  rw [List.append_assoc, List.getElem?_append, List.getElem?_append]
  simp only [List.length_take, List.length_map, List.getElem?_take, List.getElem?_map, List.getElem?_drop]
  have hm : min r.1 b.length = r.1 := by omega
  rw [hm]
  by_cases h1 : i < r.1
  · rw [if_pos h1, if_pos h1, if_neg (by omega)]
  · rw [if_neg h1]
    by_cases h2 : i - r.1 < vs.length
    · rw [if_pos h2, if_pos (by omega), List.getElem?_eq_getElem h2]; rfl
    · rw [if_neg h2, if_neg (by omega)]
      congr 1; omega

theorem storeRegion_length {r : Nat × Nat} {vs : List α} {b : List (Option α)} (hb : r.1 + vs.length ≤ b.length) :
    (storeRegion r vs b).length = b.length := by
  unfold storeRegion
  simp; omega

variable [Cfg] [Elem α]

/-- Two representations of one deque that begin at the same slot are the same buffer. -/
theorem Rep.unique {a b : Buf α} {d : Spec.Deque α} (ha : Rep a d) (hb : Rep b d) (hs : a.start = b.start) : a = b := by
  have h1 := ha.start_le
  have he : a.end_ = b.end_ := by rw [ha.end_eq, hb.end_eq, hs]
  have hbuf : a.buf = b.buf := by
    apply List.ext_getElem?
    intro i
    by_cases hi : i < d.cap + 1
    · obtain ⟨j, hj, hw⟩ : ∃ j, j ≤ d.cap ∧ wrap (d.cap + 1) (a.start + j) = i := by
        by_cases hc : a.start ≤ i
        · exact ⟨i - a.start, by omega, by unfold wrap; split <;> omega⟩
        · exact ⟨i + (d.cap + 1) - a.start, by omega, by unfold wrap; split <;> omega⟩
      have h2 := ha.cells j hj
      have h3 := hb.cells j hj
      rw [hw] at h2
      rw [← hs, hw] at h3
      rw [h2, h3]
    · rw [List.getElem?_eq_none (by rw [ha.len_buf]; omega), List.getElem?_eq_none (by rw [hb.len_buf]; omega)]
  cases a; cases b; simp_all

omit [Cfg] [Elem α] in
theorem replaceEach_start (ps : List Nat) (vs : List α) (s : St α) :
    (replaceEach ps vs s).2.cb.start = s.cb.start := by
  induction ps generalizing vs s with
  | nil => cases vs <;> rfl
  | cons p ps ih =>
    cases vs with
    | nil => rfl
    | cons v vs =>
      unfold replaceEach
      have h1 : (replacePos p v s).2.cb.start = s.cb.start := by
        unfold replacePos
        cases hr : readCell s.cb.buf p with
        | error e => rw [M.bind_error (m := self_ _) (s' := s) (e := e) (by simp [self_, M.ask, hr])]
        | ok x => rw [M.bind_ok (m := self_ _) (s' := s) (a := x) (by simp [self_, M.ask, hr])]; rfl
      rcases hr : replacePos p v s with ⟨r, s'⟩
      rw [hr] at h1
      cases r with
      | error e => rw [M.bind_error hr]; exact h1
      | ok x =>
        rw [M.bind_ok hr]
        have h2 := ih vs s'
        rcases hr2 : replaceEach ps vs s' with ⟨r2, s2⟩
        rw [hr2] at h2
        cases r2 with
        | error e => rw [M.bind_error hr2]; exact h2.trans h1
        | ok x => rw [M.bind_ok hr2]; exact h2.trans h1

/-- A buffer that represents other elements in the same slots could have been produced by `iter_mut`. -/
theorem reachable_of_rewritten {cb cb' : Buf α} {n : Nat} {xs ys : List α} (h : Reachable cb) (r : Rep cb ⟨n, xs⟩)
    (r' : Rep cb' ⟨n, ys⟩) (hl : ys.length = xs.length) (hs : cb'.start = cb.start) : Reachable cb' := by
  obtain ⟨cb2, e, r2⟩ := replaceIter_sim (s := ⟨cb, []⟩) r ys
  have h1 : (replaceIter ys ⟨cb, []⟩).2.cb.start = cb.start := by
    unfold replaceIter
    rw [self_bind _ _ r.iterMut_eq]
    exact replaceEach_start _ _ _
  rw [e] at h1
  have h2 : Rep cb2 ⟨n, ys⟩ := by
    rw [List.take_of_length_le (by simp [hl]), List.drop_eq_nil_of_le (by simp [hl]), List.append_nil] at r2
    exact r2
  have h3 : cb' = cb2 := r'.unique h2 (hs.trans h1.symm)
  have h4 := Reachable.step (.replaceIter ys) [] h trivial
  have h5 : (step (.replaceIter ys) ⟨cb, []⟩).2.cb = cb2 := by
    rw [step, M.bind_ok e]; rfl
  rw [h3, ← h5]
  exact h4

theorem readRegion_eq {cb : Buf α} {p k : Nat} {l : List α} (hl : l.length = k) (hp : p + k ≤ cb.buf.length)
    (h : ∀ i, i < k → cb.buf[p + i]? = some l[i]?) : readRegion (p, k) cb = .ok l := by
  have hm : ((cb.buf.drop p).take (p + k - p)) = l.map some := by
    apply List.ext_getElem?
    intro i
    rw [List.getElem?_take, List.getElem?_drop, List.getElem?_map]
    split
    · rw [h i (by omega), List.getElem?_eq_getElem (by omega)]; rfl
    · rw [List.getElem?_eq_none (by omega)]; rfl
  unfold readRegion sliceRange
  rw [if_pos ⟨by omega, hp⟩]
  simp only [bind, Except.bind]
  rw [hm, asInit_map_some]

/-- Storing as many elements in the same slots. -/
theorem Rep.store {cb : Buf α} {n : Nat} {xs as bs as' bs' : List α} {a b : Nat × Nat} (r : Rep cb ⟨n, xs⟩)
    (hab : cb.slicesMut = .ok (a, b)) (hs : cb.slices = .ok (as, bs)) (ha : as'.length = as.length)
    (hb : bs'.length = bs.length) :
    readRegion a cb = .ok as ∧ readRegion b cb = .ok bs ∧
      Rep { cb with buf := storeRegion b bs' (storeRegion a as' cb.buf) } ⟨n, as' ++ bs'⟩ ∧ as ++ bs = xs := by
  have h1 := r.len_buf; have h3 := r.start_le; have h4 := r.le_cap; have h5 := r.end_eq
  have hc := r.cells
  have hlt := r.end_lt
  simp only at h1 h3 h4 h5 hc hlt
  rw [r.slices_eq] at hs
  unfold Buf.slicesMut at hab
  by_cases hle : cb.start ≤ cb.end_
  · rw [if_pos hle] at hs hab
    have he : cb.end_ = cb.start + xs.length ∧ cb.start + xs.length < n + 1 := by
      unfold wrap at h5; split at h5 <;> omega
    rw [if_pos (by omega)] at hab
    cases hs; cases hab
    have hb' : bs' = [] := List.length_eq_zero_iff.mp (by simpa using hb)
    subst hb'
    refine ⟨?_, ?_, ?_, by simp⟩
    · refine readRegion_eq (by simp only; omega) (by omega) fun i hi => ?_
      have h := hc i (by omega)
      rwa [show wrap (n + 1) (cb.start + i) = cb.start + i by unfold wrap; split <;> omega] at h
    · exact readRegion_eq rfl (by omega) fun i hi => by omega
    · have hl1 : (storeRegion (cb.start, cb.end_ - cb.start) as' cb.buf).length = cb.buf.length :=
        storeRegion_length (by simp only at ha ⊢; omega)
      refine ⟨r.uninit_ok, ?_, r.cap_lt, h3, ?_, ?_, fun i hi => ?_⟩
      · rw [storeRegion_length (by simp [hl1]; omega), hl1]; exact h1
      · simp only at ha ⊢; simp; omega
      · simp only at ha ⊢; simp [ha]; exact h5
      · simp only at ha hi ⊢
        rw [storeRegion_get (by simp [hl1]; omega), if_neg (by simp),
          storeRegion_get (by simp only; omega)]
        have h := hc i hi
        by_cases hi2 : i < xs.length
        · rw [show wrap (n + 1) (cb.start + i) = cb.start + i by unfold wrap; split <;> omega,
            if_pos (by simp only; omega)]
          simp
        · rw [if_neg (by simp only; unfold wrap; split <;> omega), h]
          simp [List.getElem?_eq_none (show xs.length ≤ i by omega), List.getElem?_eq_none (show as'.length ≤ i by omega)]
  · rw [if_neg hle] at hs hab
    have he : cb.end_ + (n + 1) = cb.start + xs.length := by
      unfold wrap at h5; split at h5 <;> omega
    rw [if_pos (by omega), if_pos (by omega)] at hab
    cases hs; cases hab
    simp only [List.length_take, List.length_drop] at ha hb
    have ha' : as'.length = n + 1 - cb.start := by omega
    have hb' : bs'.length = cb.end_ := by omega
    refine ⟨?_, ?_, ?_, List.take_append_drop ..⟩
    · refine readRegion_eq (by simp only [List.length_take]; omega) (by omega) fun i hi => ?_
      have h := hc i (by omega)
      rw [show wrap (n + 1) (cb.start + i) = cb.start + i by unfold wrap; split <;> omega] at h
      rw [h, List.getElem?_take, if_pos (show i < n + 1 - cb.start by omega)]
    · refine readRegion_eq (by simp only [List.length_drop]; omega) (by omega) fun i hi => ?_
      have h := hc (n + 1 - cb.start + i) (by omega)
      rw [show wrap (n + 1) (cb.start + (n + 1 - cb.start + i)) = 0 + i by unfold wrap; split <;> omega] at h
      rw [h, List.getElem?_drop]
    · have hl1 : (storeRegion (cb.start, cb.buf.length - cb.start) as' cb.buf).length = cb.buf.length :=
        storeRegion_length (by simp only; omega)
      refine ⟨r.uninit_ok, ?_, r.cap_lt, h3, ?_, ?_, fun i hi => ?_⟩
      · rw [storeRegion_length (by simp only; omega), hl1]; exact h1
      · simp; omega
      · simp only [List.length_append]; rw [h5]; congr 1; omega
      · simp only at hi ⊢
        rw [storeRegion_get (by simp only; omega), storeRegion_get (by simp only; omega)]
        have h := hc i hi
        by_cases hi2 : i < as'.length
        · rw [show wrap (n + 1) (cb.start + i) = cb.start + i by unfold wrap; split <;> omega,
            if_neg (by simp only; omega), if_pos (by simp only; omega), List.getElem?_append_left hi2]
          simp
        · rw [List.getElem?_append_right (by omega)]
          have hw : wrap (n + 1) (cb.start + i) = i - as'.length := by unfold wrap; split <;> omega
          rw [hw] at h ⊢
          by_cases hi3 : i < xs.length
          · rw [if_pos (by simp only; omega)]; simp
          · rw [if_neg (by simp only; omega), if_neg (by simp only; omega), h,
              List.getElem?_eq_none (by omega), List.getElem?_eq_none (by omega)]

end
end CB
