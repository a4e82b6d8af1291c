import Verif.CB.Sim2
/-!
# Simulation of clear, resize, extend, linearize, swap, reverse and writes through references
-/

set_option linter.unusedSectionVars false

open Rust
namespace CB
open Spec (Deque)

variable {α : Type} [Cfg]

/-- a freshly laid out buffer -/
theorem Rep.fresh [Elem α] (hu : Elem.uninitOk α = true) {cap : Nat} {items : List α} (hc : cap ≤ isizeMax ∨ Wide α cap) (hl : items.length ≤ cap) :
    Rep ⟨items.map some ++ List.replicate (cap + 1 - items.length) none, 0, items.length⟩
      ⟨cap, items⟩ := by
  refine ⟨hu, by simp; omega, hc, by simp, hl, ?_, ?_⟩
  · simp only; unfold wrap; split <;> omega
  · intro i hi
    simp only at hi ⊢
    have hw : wrap (cap + 1) (0 + i) = i := by unfold wrap; split <;> omega
    rw [hw, List.getElem?_append]
    split
    · rename_i h; simp at h; simp [h]
    · rename_i h; simp at h
      rw [List.getElem?_eq_none (l := items) h, List.getElem?_replicate, if_pos (by simp; omega)]

section loops
variable {s : St α} {d : Deque α} [Elem α]

theorem clearLoop_sim (fuel : Nat) : ∀ {s : St α} {d : Deque α}, Rep s.cb d → d.items.length < fuel →
    ∃ cb', clearLoop fuel s
        = ((Spec.clear d).ret, ⟨cb', s.dropped ++ (Spec.clear d).dropped⟩) ∧
      Rep cb' (Spec.clear d).deque := by
  induction fuel with
  | zero => intro s d _ h; omega
  | succ fuel ih =>
    intro s d h hl
    obtain ⟨cb1, e1, r1⟩ := popBack_sim h
    unfold clearLoop
    rw [M.bind_ok e1]
    rcases List.eq_nil_or_concat d.items with hd | ⟨xs, x, hd⟩
    · refine ⟨cb1, ?_, ?_⟩
      · simp [hd, Spec.clear, Spec.dropSeq, Spec.userIf]; rfl
      · simpa [hd, Spec.clear, Spec.dropSeq] using r1
    · rw [List.concat_eq_append] at hd
      have hla : (xs ++ [x]).getLast? = some x := by simp
      have hdl : (xs ++ [x]).dropLast = xs := by simp
      rw [hd, hdl] at r1
      rw [hd] at hl
      simp only [hd, hla]
      by_cases hp : Elem.dropPanics x = true
      · rw [M.bind_error (e := .user) (s' := ⟨cb1, s.dropped ++ [x]⟩)]
        · exact ⟨cb1, by simp [Spec.clear, hd, Spec.dropSeq, hp, Spec.userIf],
            by simpa [Spec.clear, hd, Spec.dropSeq, hp] using r1⟩
        · rw [dropVal_run]; simp [Spec.userIf, hp]
      · rw [M.bind_ok (a := ()) (s' := ⟨cb1, s.dropped ++ [x]⟩)]
        · obtain ⟨cb2, e2, r2⟩ := ih (s := ⟨cb1, s.dropped ++ [x]⟩) r1 (by simp at hl; simpa using hl)
          exact ⟨cb2, by simpa [Spec.clear, hd, Spec.dropSeq, hp] using e2,
            by simpa [Spec.clear, hd, Spec.dropSeq, hp] using r2⟩
        · rw [dropVal_run]; simp [Spec.userIf, hp]

theorem clear_sim (h : Rep s.cb d) :
    ∃ cb', clear s = ((Spec.clear d).ret, ⟨cb', s.dropped ++ (Spec.clear d).dropped⟩) ∧
      Rep cb' (Spec.clear d).deque :=
  clearLoop_sim _ h (by have := h.len_buf; have := h.le_cap; omega)

theorem skipLoop_sim (n : Nat) : ∀ {s : St α} {d : Deque α}, Rep s.cb d → n ≤ d.items.length →
    ∃ cb', skipLoop n s = (Spec.userIf (Spec.dropSeq (d.items.take n)).2.2,
        ⟨cb', s.dropped ++ (Spec.dropSeq (d.items.take n)).1⟩) ∧
      Rep cb' { d with items := (Spec.dropSeq (d.items.take n)).2.1 ++ d.items.drop n } := by
  induction n with
  | zero =>
    intro s d h _
    exact ⟨s.cb, by simp [Spec.dropSeq, skipLoop, Spec.userIf]; rfl, by simpa [Spec.dropSeq] using h⟩
  | succ n ih =>
    intro s d h hl
    obtain ⟨cb1, e1, r1⟩ := popFront_sim h
    unfold skipLoop
    rw [M.bind_ok e1]
    cases hd : d.items with
    | nil => simp [hd] at hl
    | cons x xs =>
      simp only [hd, List.tail_cons, List.head?_cons, List.take_succ_cons, List.drop_succ_cons] at r1 hl ⊢
      by_cases hp : Elem.dropPanics x = true
      · rw [M.bind_error (e := .user) (s' := ⟨cb1, s.dropped ++ [x]⟩)]
        · exact ⟨cb1, by simp [Spec.dropSeq, hp, Spec.userIf],
            by simpa [Spec.dropSeq, hp] using r1⟩
        · rw [dropVal_run]; simp [Spec.userIf, hp]
      · rw [M.bind_ok (a := ()) (s' := ⟨cb1, s.dropped ++ [x]⟩)]
        · obtain ⟨cb2, e2, r2⟩ := ih (s := ⟨cb1, s.dropped ++ [x]⟩) r1 (by simp at hl; simpa using hl)
          exact ⟨cb2, by simpa [Spec.dropSeq, hp] using e2, by simpa [Spec.dropSeq, hp] using r2⟩
        · rw [dropVal_run]; simp [Spec.userIf, hp]

theorem collectLoop_sim (fuel : Nat) : ∀ {s : St α} {d : Deque α}, Rep s.cb d → d.items.length < fuel →
    ∃ cb', collectLoop fuel s = (.ok d.items, ⟨cb', s.dropped⟩) ∧ Rep cb' { d with items := [] } := by
  induction fuel with
  | zero => intro s d _ h; omega
  | succ fuel ih =>
    intro s d h hl
    obtain ⟨cb1, e1, r1⟩ := popFront_sim h
    unfold collectLoop
    rw [M.bind_ok e1]
    cases hd : d.items with
    | nil => exact ⟨cb1, rfl, by simpa [hd] using r1⟩
    | cons x xs =>
      simp only [hd, List.tail_cons, List.head?_cons] at r1 hl ⊢
      obtain ⟨cb2, e2, r2⟩ := ih (s := ⟨cb1, s.dropped⟩) r1 (by simp at hl; simpa using hl)
      exact ⟨cb2, by rw [M.bind_ok e2]; rfl, by simpa using r2⟩

theorem dropSeq_noPanic : ∀ (l : List α), (Spec.dropSeq l).2.2 = false → (Spec.dropSeq l).2.1 = []
  | [], _ => rfl
  | x :: xs, h => by
    unfold Spec.dropSeq at h ⊢
    by_cases hp : Elem.dropPanics x = true
    · simp [hp] at h
    · simp only [hp, Bool.false_eq_true, if_false] at h ⊢
      exact dropSeq_noPanic xs h

theorem resize_sim (h : Rep s.cb d) (n : Nat)
    (hn : (n ≤ isizeMax ∨ (0 < Elem.size α ∧ n < usizeMax)) ∨ Wide α n) :
    ∃ cb', resize n s = ((Spec.resize d n).ret, ⟨cb', s.dropped ++ (Spec.resize d n).dropped⟩) ∧
      Rep cb' (Spec.resize d n).deque := by
  have h6 := two_isizeMax
  have h1 := h.len_buf; have h4 := h.le_cap
  have hu : n < usizeMax := by
    rcases hn with (hn | ⟨_, hn⟩) | ⟨_, _, hn⟩ <;> omega
  unfold resize Spec.resize
  rw [uadd_ok (by omega), lift_bind _ rfl]
  by_cases hs : (n + 1) * Elem.size α > isizeMax
  · rw [M.bind_error (e := .capacityOverflow) (s' := s)]
    · exact ⟨s.cb, by simp [hs], by simpa [hs] using h⟩
    · unfold allocCheck; rw [if_neg (by omega)]; rfl
  · have hlt : n ≤ isizeMax ∨ Wide α n := by
      rcases hn with (hn | ⟨hz, _⟩) | hn
      · exact .inl hn
      · have : (n + 1) * 1 ≤ (n + 1) * Elem.size α := Nat.mul_le_mul_left _ hz
        exact .inl (by omega)
      · exact .inr hn
    rw [lift_bind _ (b := ()) (by unfold allocCheck; rw [if_pos (by omega)]),
      self_bind _ _ h.len_eq,
      lift_bind _ (b := d.items.length - n) (by
        split
        · rw [usub_ok (by omega)]
        · have : d.items.length - n = 0 := by omega
          rw [this])]
    obtain ⟨cb1, e1, r1⟩ := skipLoop_sim (d.items.length - n) h (by omega)
    simp only [hs, if_false]
    cases hp : (Spec.dropSeq (d.items.take (d.items.length - n))).2.2 with
    | true =>
      rw [hp] at e1
      rw [M.bind_error e1]
      exact ⟨cb1, by simp [Spec.userIf], by simpa using r1⟩
    | false =>
      have hrest := dropSeq_noPanic _ hp
      rw [hp] at e1
      rw [hrest] at r1
      simp only [List.nil_append] at r1
      rw [M.bind_ok e1, selfp_bind]
      have hb1 : cb1.buf.length = d.cap + 1 := r1.len_buf
      have hl1 : (d.items.drop (d.items.length - n)).length ≤ n := by simp; omega
      obtain ⟨cb2, e2, r2⟩ := collectLoop_sim (cb1.buf.length + 1)
        (s := ⟨cb1, s.dropped ++ (Spec.dropSeq (d.items.take (d.items.length - n))).1⟩) r1
        (by simp; omega)
      rw [M.bind_ok e2]
      have he : uadd (n - (d.items.drop (d.items.length - n)).length) 1
          = .ok (n + 1 - (d.items.drop (d.items.length - n)).length) := by
        rw [uadd_ok (by omega)]; congr 1; omega
      rw [lift_bind _ (b := n + 1 - (d.items.drop (d.items.length - n)).length) (by
        rw [usub_ok hl1]; exact he),
        lift_bind _ (uninits_eq h.uninit_ok _),
        lift_bind _ (b := ()) (by
          unfold allocCheck
          rw [show (d.items.drop (d.items.length - n)).length
            + (n + 1 - (d.items.drop (d.items.length - n)).length) = n + 1 by omega,
            if_pos (by omega)]), setBuf_run]
      exact ⟨_, rfl, by simpa using Rep.fresh h.uninit_ok hlt hl1⟩

theorem extend_sim : ∀ (vs : List α) (p : Bool) {s : St α} {d : Deque α}, Rep s.cb d →
    ∃ cb', extend vs p s
        = ((Spec.extend d vs p).ret, ⟨cb', s.dropped ++ (Spec.extend d vs p).dropped⟩) ∧
      Rep cb' (Spec.extend d vs p).deque
  | [], p, s, d, h => by
    refine ⟨s.cb, ?_, h⟩
    unfold extend Spec.extend Spec.userIf
    cases p <;> simp <;> rfl
  | v :: vs, p, s, d, h => by
    obtain ⟨cb1, e1, r1⟩ := pushBack_sim h v
    unfold extend Spec.extend
    cases hr : (Spec.pushBack d v).ret with
    | error e =>
      rw [hr] at e1
      rw [M.bind_error e1]
      exact ⟨cb1, by simp only [hr], by simp only [hr]; exact r1⟩
    | ok u =>
      rw [hr] at e1
      rw [M.bind_ok e1]
      obtain ⟨cb2, e2, r2⟩ := extend_sim vs p (s := ⟨cb1, s.dropped ++ (Spec.pushBack d v).dropped⟩) r1
      exact ⟨cb2, by simp only [hr]; simpa using e2, by simp only [hr]; exact r2⟩

end loops

section places
variable {s : St α} {d : Deque α} [Elem α]

theorem Rep.rotated {cb : Buf α} (h : Rep cb d) :
    cb.buf.drop cb.start ++ cb.buf.take cb.start
      = d.items.map some ++ List.replicate (d.cap + 1 - d.items.length) none := by
  have h1 := h.len_buf; have h3 := h.start_le; have h4 := h.le_cap
  have hf := (Rep.fresh h.uninit_ok h.cap_lt h4)
  apply List.ext_getElem?
  intro i
  by_cases hi : i ≤ d.cap
  · have e1 := hf.cells i hi
    have hw : wrap (d.cap + 1) (0 + i) = i := by unfold wrap; split <;> omega
    simp only [hw] at e1
    rw [e1, ← h.cells i hi, List.getElem?_append]
    unfold wrap
    simp only [List.length_drop, h1]
    by_cases hc : i < d.cap + 1 - cb.start
    · rw [if_pos hc, if_pos (by omega), List.getElem?_drop]
    · rw [if_neg hc, if_neg (by omega), List.getElem?_take, if_pos (by omega)]
      congr 1; omega
  · rw [List.getElem?_eq_none (by simp; omega), List.getElem?_eq_none (by simp; omega)]

theorem linearize_sim (h : Rep s.cb d) :
    ∃ cb', linearize s = (.ok d.items, ⟨cb', s.dropped⟩) ∧ Rep cb' d ∧ cb'.start = 0 := by
  have h1 := h.len_buf; have h3 := h.start_le; have h4 := h.le_cap
  unfold linearize
  rw [self_bind _ _ (b := s.cb.buf.drop s.cb.start ++ s.cb.buf.take s.cb.start)
    (by unfold rotateLeft; rw [if_pos (by omega)]), setBuf_bind, h.rotated,
    self_bind _ _ (b := d.items.length) (by
      have := h.len_eq
      simp only [Buf.len, List.length_append, List.length_map, List.length_replicate] at this ⊢
      rw [← this, h1, show d.items.length + (d.cap + 1 - d.items.length) = d.cap + 1 by omega]),
    setBuf_bind, setBuf_bind]
  refine ⟨_, ?_, Rep.fresh h.uninit_ok h.cap_lt h4, rfl⟩
  rw [self_run]
  simp only [sliceRange, List.drop_zero, Nat.sub_zero]
  rw [if_pos (by simp)]
  simp only [bind, Except.bind]
  rw [List.take_left' (by simp), asInit_map_some]

/-- exchanging two logical positions -/
theorem swapAt_sim {cb : Buf α} (h : Rep cb d) {a b : Nat} (ha : a < d.items.length) (hb : b < d.items.length) :
    ∃ buf', (do
        let i ← cb.internalIndex a
        let j ← cb.internalIndex b
        sliceSwap cb.buf i j) = .ok buf' ∧
    Rep (Buf.mk buf' cb.start cb.end_)
      { d with items := (d.items.set a d.items[b]).set b d.items[a] } := by
  obtain ⟨i, hi, ei, hai⟩ := h.internalIndex_some ha
  obtain ⟨j, hj, ej, hbj⟩ := h.internalIndex_some hb
  refine ⟨(cb.buf.set (wrap (d.cap + 1) (cb.start + i)) (some d.items[j])).set
    (wrap (d.cap + 1) (cb.start + j)) (some d.items[i]), ?_, ?_⟩
  · rw [ei, ej]
    simp only [bind, Except.bind]
    unfold sliceSwap
    rw [h.cell hi, h.cell hj]
  · have := (h.set_item hi d.items[j]).set_item (k := j) (by simpa using hj) d.items[i]
    rw [Rep.item_eq ha hi hai, Rep.item_eq hb hj hbj] at this ⊢
    rw [← Rep.set_eq hai, ← Rep.set_eq (d := { d with items := d.items.set i d.items[b] }) hbj]
    exact this

theorem swap_sim (h : Rep s.cb d) (a b : Nat) :
    ∃ cb', swap a b s
        = (match d.items[a]?, d.items[b]? with
            | some _, some _ => .ok ()
            | _, _ => .error .explicit, ⟨cb', s.dropped⟩) ∧
      Rep cb' (match d.items[a]?, d.items[b]? with
        | some x, some y => { d with items := (d.items.set a y).set b x }
        | _, _ => d) := by
  unfold swap
  by_cases ha : a < d.items.length
  · by_cases hb : b < d.items.length
    · obtain ⟨_, e, r⟩ := swapAt_sim h ha hb
      rw [self_bind _ _ e, List.getElem?_eq_getElem ha, List.getElem?_eq_getElem hb]
      exact ⟨_, rfl, r⟩
    · rw [M.bind_error (e := .explicit) (s' := s), List.getElem?_eq_none (i := b) (by omega)]
      · exact ⟨s.cb, by split <;> simp_all, by split <;> simp_all⟩
      · obtain ⟨_, _, ei, _⟩ := h.internalIndex_some ha
        rw [self_run, ei, h.internalIndex_err (by omega)]; rfl
  · rw [M.bind_error (e := .explicit) (s' := s), List.getElem?_eq_none (i := a) (by omega)]
    · exact ⟨s.cb, rfl, h⟩
    · rw [self_run, h.internalIndex_err (by omega)]; rfl

theorem reverseLoop_sim (orig : List α) (m : Nat) : ∀ (k : Nat) {s : St α} {d : Deque α}, Rep s.cb d →
    k + m = orig.length / 2 → d.items.length = orig.length →
    (∀ i, d.items[i]? = if i < k ∨ orig.length - k ≤ i then orig.reverse[i]? else orig[i]?) →
    ∃ cb', reverseLoop (List.range' k m) s = (.ok (), ⟨cb', s.dropped⟩) ∧
      Rep cb' { d with items := orig.reverse } := by
  induction m with
  | zero =>
    intro k s d h hk hl hv
    refine ⟨s.cb, rfl, ?_⟩
    have : d.items = orig.reverse := by
      apply List.ext_getElem?
      intro i
      rw [hv i]
      split
      · rfl
      · have : i < orig.length := by omega
        rw [List.getElem?_reverse this]; congr 1; omega
    rw [← this]; exact h
  | succ m ih =>
    intro k s d h hk hl hv
    rw [List.range'_succ]
    unfold reverseLoop
    have hkl : k < d.items.length := by omega
    have hbl : d.items.length - k - 1 < d.items.length := by omega
    rw [self_bind _ _ (b := d.items.length - k - 1) (by
      rw [h.len_eq]
      simp only [bind, Except.bind]
      rw [usub_ok (by omega)]
      simp only []
      rw [usub_ok (by omega)])]
    obtain ⟨_, e, r⟩ := swapAt_sim h hkl hbl
    rw [self_bind _ _ e, setBuf_bind]
    have := ih (k + 1) (s := ⟨_, s.dropped⟩) r (by omega) (by simpa using hl) (by
      intro i
      rw [List.getElem?_set, List.getElem?_set]
      simp only [List.length_set]
      by_cases hib : d.items.length - k - 1 = i
      · subst hib
        rw [if_pos rfl, if_pos hbl, if_pos (by omega), ← List.getElem?_eq_getElem hkl, hv k,
          if_neg (by omega), List.getElem?_reverse (by omega)]
        congr 1; omega
      · rw [if_neg hib]
        by_cases hia : k = i
        · subst hia
          rw [if_pos rfl, if_pos hkl, if_pos (by omega), ← List.getElem?_eq_getElem hbl, hv,
            if_neg (by omega), List.getElem?_reverse (by omega)]
          congr 1; omega
        · rw [if_neg hia, hv i]
          by_cases hc : i < k ∨ orig.length - k ≤ i
          · rw [if_pos hc, if_pos (by omega)]
          · rw [if_neg hc, if_neg (by omega)])
    exact this

theorem reverse_sim (h : Rep s.cb d) :
    ∃ cb', reverse s = (.ok (), ⟨cb', s.dropped⟩) ∧ Rep cb' { d with items := d.items.reverse } := by
  unfold reverse
  rw [self_bind _ _ h.len_eq, List.range_eq_range']
  exact reverseLoop_sim d.items _ 0 h (by omega) rfl (by
    intro i
    by_cases hi : i < 0 ∨ d.items.length - 0 ≤ i
    · rw [if_pos hi, List.getElem?_eq_none (by omega), List.getElem?_eq_none (by simp; omega)]
    · rw [if_neg hi])

theorem replacePos_sim (h : Rep s.cb d) {i : Nat} (hi : i < d.items.length) (v : α) :
    ∃ cb', replacePos (wrap (d.cap + 1) (s.cb.start + i)) v s = (.ok d.items[i], ⟨cb', s.dropped⟩) ∧
      Rep cb' { d with items := d.items.set i v } ∧ cb'.start = s.cb.start :=
  ⟨_, replacePos_run v (h.cell hi), h.set_item hi v, rfl⟩

theorem replaceAt_sim (h : Rep s.cb d) (i : Nat) (v : α) :
    ∃ cb', replaceAt i v s
        = (match d.items[i]? with
            | some x => .ok x
            | none => .error .explicit, ⟨cb', s.dropped⟩) ∧
      Rep cb' { d with items := d.items.set i v } := by
  unfold replaceAt
  by_cases hi : i < d.items.length
  · obtain ⟨j, hj, ej, hji⟩ := h.internalIndex_some hi
    rw [self_bind _ _ ej, List.getElem?_eq_getElem hi, ← Rep.item_eq hi hj hji, ← Rep.set_eq hji]
    obtain ⟨cb', e, r, _⟩ := replacePos_sim h hj v
    exact ⟨cb', e, r⟩
  · rw [M.bind_error (e := .explicit) (s' := s), List.getElem?_eq_none (by omega)]
    · refine ⟨s.cb, rfl, ?_⟩
      rw [List.set_eq_of_length_le (by omega)]; exact h
    · rw [self_run, h.internalIndex_err (by omega)]

theorem replaceFirst_sim (h : Rep s.cb d) (v : α) :
    ∃ cb', replaceFirst v s = (.ok d.items.head?, ⟨cb', s.dropped⟩) ∧
      Rep cb' { d with items := d.items.set 0 v } := by
  unfold replaceFirst
  rw [selfp_bind, h.isEmpty_eq]
  by_cases hd : d.items = []
  · refine ⟨s.cb, by simp [hd]; rfl, by
      have : ({ d with items := [] } : Deque α) = d := by cases d; simp_all
      simpa [hd, this] using h⟩
  · have hl : 0 < d.items.length := List.length_pos_iff.mpr hd
    obtain ⟨j, hj, ej, hji⟩ := h.internalIndex_some hl
    rw [if_neg (by simpa using hd), self_bind _ _ ej, ← Rep.set_eq hji]
    obtain ⟨cb', e, r, _⟩ := replacePos_sim h hj v
    rw [M.bind_ok e]
    exact ⟨cb', by rw [List.head?_eq_getElem?, List.getElem?_eq_getElem hl, ← Rep.item_eq hl hj hji]; rfl, r⟩

theorem replaceLast_sim (h : Rep s.cb d) (v : α) :
    ∃ cb', replaceLast v s = (.ok d.items.getLast?, ⟨cb', s.dropped⟩) ∧
      Rep cb' { d with items := d.items.set (d.items.length - 1) v } := by
  unfold replaceLast
  rw [selfp_bind, h.isEmpty_eq]
  by_cases hd : d.items = []
  · refine ⟨s.cb, by simp [hd]; rfl, by
      have : ({ d with items := [] } : Deque α) = d := by cases d; simp_all
      simpa [hd, this] using h⟩
  · have hl : 0 < d.items.length := List.length_pos_iff.mpr hd
    have hl' : d.items.length - 1 < d.items.length := by omega
    obtain ⟨j, hj, ej, hji⟩ := h.internalIndex_some hl'
    rw [if_neg (by simpa using hd), self_bind _ _ (b := wrap (d.cap + 1) (s.cb.start + j)) (by
      rw [h.len_eq]
      simp only [bind, Except.bind]
      rw [usub_ok (by omega)]
      exact ej), ← Rep.set_eq hji]
    obtain ⟨cb', e, r, _⟩ := replacePos_sim h hj v
    rw [M.bind_ok e]
    exact ⟨cb', by rw [List.getLast?_eq_getElem?, List.getElem?_eq_getElem hl', ← Rep.item_eq hl' hj hji]; rfl, r⟩

/-- `iter_mut` visits the places of the items, in order. -/
theorem Rep.iterMut_eq {cb : Buf α} (h : Rep cb d) :
    cb.iterMut = .ok ((List.range d.items.length).map fun i => wrap (d.cap + 1) (cb.start + i)) := by
  have h1 := h.len_buf; have h3 := h.start_le; have h4 := h.le_cap; have h5 := h.end_eq
  have hlt := h.end_lt
  unfold Buf.iterMut Buf.slicesMut
  split
  · rename_i hle
    have he : cb.end_ = cb.start + d.items.length ∧ cb.start + d.items.length < d.cap + 1 := by
      unfold wrap at h5; split at h5 <;> omega
    rw [if_pos (by omega)]
    simp only [bind, Except.bind, pure, Except.pure, Buf.regionPositions, List.range_zero, List.map_nil, List.append_nil]
    rw [show cb.end_ - cb.start = d.items.length by omega]
    congr 1
    apply List.map_congr_left
    intro i hi
    rw [List.mem_range] at hi
    unfold wrap; split <;> omega
  · rename_i hle
    have he : cb.end_ + (d.cap + 1) = cb.start + d.items.length := by
      unfold wrap at h5; split at h5 <;> omega
    rw [if_pos (by omega), if_pos (by omega)]
    simp only [bind, Except.bind, pure, Except.pure, Buf.regionPositions, Nat.zero_add, List.map_id']
    congr 1
    apply List.ext_getElem (by simp; omega)
    intro i hi1 hi2
    simp only [List.getElem_append, List.length_map, List.length_range, List.getElem_map, List.getElem_range]
    unfold wrap; split <;> split <;> omega

theorem replaceEach_sim (st cap : Nat) (m : Nat) : ∀ (k : Nat) (vs : List α) {s : St α} {d : Deque α},
    Rep s.cb d → s.cb.start = st → d.cap = cap → k + m = d.items.length →
    ∃ cb', replaceEach ((List.range' k m).map fun i => wrap (cap + 1) (st + i)) vs s
        = (.ok ((d.items.drop k).take vs.length), ⟨cb', s.dropped⟩) ∧
      Rep cb' { d with items := d.items.take k ++ (vs.take m ++ (d.items.drop k).drop vs.length) } := by
  induction m with
  | zero =>
    intro k vs s d h hs hc hk
    refine ⟨s.cb, ?_, ?_⟩
    · simp [replaceEach]; rw [List.drop_eq_nil_of_le (by omega)]; simp; rfl
    · have : d.items.take k ++ (vs.take 0 ++ (d.items.drop k).drop vs.length) = d.items := by
        rw [List.drop_eq_nil_of_le (as := d.items) (i := k) (by omega), List.take_of_length_le (by omega)]; simp
      rw [this]; exact h
  | succ m ih =>
    intro k vs s d h hs hc hk
    rw [List.range'_succ, List.map_cons]
    cases vs with
    | nil =>
      refine ⟨s.cb, ?_, ?_⟩
      · simp [replaceEach]; rfl
      · simpa using h
    | cons v vs =>
      unfold replaceEach
      have hkl : k < d.items.length := by omega
      obtain ⟨cb1, e1, r1, hs1⟩ := replacePos_sim h hkl v
      rw [hs, hc] at e1
      rw [M.bind_ok e1]
      obtain ⟨cb2, e2, r2⟩ := ih (k + 1) vs (s := ⟨cb1, s.dropped⟩) r1 (by simpa [hs] using hs1) hc (by simp; omega)
      rw [M.bind_ok e2]
      refine ⟨cb2, ?_, ?_⟩
      · rw [List.drop_eq_getElem_cons hkl, List.drop_set_of_lt (by omega)]; rfl
      · have : d.items.take k ++ (List.take (m + 1) (v :: vs) ++ (d.items.drop k).drop (v :: vs).length)
            = (d.items.set k v).take (k + 1) ++ (vs.take m ++ ((d.items.set k v).drop (k + 1)).drop vs.length) := by
          rw [List.drop_set_of_lt (by omega), List.drop_eq_getElem_cons hkl,
            List.take_add_one (l := d.items.set k v), List.getElem?_set_self hkl,
            List.take_set_of_le (by omega)]
          simp; omega
        rw [this]; exact r2

theorem replaceIter_sim (h : Rep s.cb d) (vs : List α) :
    ∃ cb', replaceIter vs s = (.ok (d.items.take vs.length), ⟨cb', s.dropped⟩) ∧
      Rep cb' { d with items := vs.take d.items.length ++ d.items.drop vs.length } := by
  unfold replaceIter
  rw [self_bind _ _ h.iterMut_eq, List.range_eq_range']
  obtain ⟨cb', e, r⟩ := replaceEach_sim s.cb.start d.cap d.items.length 0 vs h rfl rfl (by omega)
  exact ⟨cb', by simpa using e, by simpa using r⟩

end places
end CB
