import Verif.Client.SpecRate
import Verif.CB.Props
import Mathlib.Order.Nat
/-!
# Lemmas for C136
-/

open Rust CB
namespace Client

/-! ## events and windows -/

/-- each event comes a window later than the one `c` events before -/
def Gaps (c w : Nat) (l : List Nat) : Prop := ∀ i a b : Nat, l[i]? = some a → l[i + c]? = some b → a + w ≤ b

theorem sorted_get {l : List Nat} (hs : l.Pairwise (· ≤ ·)) {i j a b : Nat} (hij : i ≤ j) (ha : l[i]? = some a)
    (hb : l[j]? = some b) : a ≤ b := by
  obtain ⟨h1, rfl⟩ := List.getElem?_eq_some_iff.mp ha
  obtain ⟨h2, rfl⟩ := List.getElem?_eq_some_iff.mp hb
  rcases Nat.lt_or_eq_of_le hij with h | rfl
  · exact List.pairwise_iff_getElem.mp hs i j h1 h2 h
  · exact Nat.le_refl _

theorem atMost_of_gaps {c w : Nat} (hc : 0 < c) {l : List Nat} (hs : l.Pairwise (· ≤ ·)) (hg : Gaps c w l) : AtMost c w l := by
  intro t
  induction l with
  | nil => exact Nat.zero_le _
  | cons x l ih =>
    have hp := List.pairwise_cons.mp hs
    have ht : Gaps c w l := fun i a b ha hb => hg (i + 1) a b (by simpa using ha) (by
      rw [show i + 1 + c = i + c + 1 by omega]; simpa using hb)
    by_cases hx : t ≤ x ∧ x < t + w
    · rw [List.countP_cons_of_pos (by simpa using hx), ← List.take_append_drop (c - 1) l, List.countP_append]
      have h1 : (l.take (c - 1)).countP (fun x => decide (t ≤ x ∧ x < t + w)) ≤ c - 1 :=
        List.countP_le_length.trans (by rw [List.length_take]; omega)
      have h2 : (l.drop (c - 1)).countP (fun x => decide (t ≤ x ∧ x < t + w)) = 0 := by
        rw [List.countP_eq_zero]
        intro y hy
        obtain ⟨j, hj, rfl⟩ := List.mem_drop_iff_getElem.mp hy
        have hlt : c - 1 < l.length := by omega
        have g := hg 0 x (l[c - 1]) rfl (by
          rw [show 0 + c = c - 1 + 1 by omega, List.getElem?_cons_succ, List.getElem?_eq_getElem hlt])
        have := sorted_get hp.2 (show c - 1 ≤ c - 1 + j by omega) (List.getElem?_eq_getElem hlt)
          (List.getElem?_eq_getElem (by omega))
        simp only [decide_eq_true_eq]
        omega
      omega
    · rw [List.countP_cons_of_neg (by simpa using hx)]
      exact ih hp.2 ht

theorem gaps_of_atMost {c w : Nat} {l : List Nat} (hs : l.Pairwise (· ≤ ·)) (hw : AtMost c w l) : Gaps c w l := by
  intro i a b ha hb
  by_contra hlt
  have hi := (List.getElem?_eq_some_iff.mp hb).1
  have hsub : ((l.drop i).take (c + 1)).Sublist l := (List.take_sublist _ _).trans (List.drop_sublist _ _)
  have hall : ((l.drop i).take (c + 1)).countP (fun x => decide (a ≤ x ∧ x < a + w)) = c + 1 := by
    rw [List.countP_eq_length.mpr, List.length_take, List.length_drop]
    · omega
    · intro y hy
      obtain ⟨j, hj, rfl⟩ := List.mem_take_iff_getElem.mp hy
      rw [List.getElem_drop, decide_eq_true_eq]
      rw [List.length_drop] at hj
      have h1 := sorted_get hs (show i ≤ i + j by omega) ha (List.getElem?_eq_getElem (by omega))
      have h2 := sorted_get hs (show i + j ≤ i + c by omega) (List.getElem?_eq_getElem (by omega)) hb
      omega
  have := hsub.countP_le (p := fun x => decide (a ≤ x ∧ x < a + w))
  have := hw a
  omega

/-! ## the greedy choice -/

/-- whether an event is refused after the admitted ones -/
def refuses (c w : Nat) (acc : List Nat) (now : Nat) : Bool :=
  decide (c ≤ acc.length) && match acc[acc.length - c]? with
    | none => true
    | some oldest => decide (now - oldest < w)

/-- what the client answers -/
def greedy (c w : Nat) : List Nat → List Nat → List Bool
  | _, [] => []
  | acc, now :: times => if refuses c w acc now then false :: greedy c w acc times else true :: greedy c w (acc ++ [now]) times

theorem greedy_length (c w : Nat) (times : List Nat) : ∀ acc, (greedy c w acc times).length = times.length := by
  induction times with
  | nil => intro _; rfl
  | cons now times ih =>
    intro acc
    unfold greedy
    split <;> simp [ih]

theorem admitted_false {now : Nat} {times : List Nat} {flags : List Bool} :
    admitted (now :: times) (false :: flags) = admitted times flags := by simp [admitted]
theorem admitted_true {now : Nat} {times : List Nat} {flags : List Bool} :
    admitted (now :: times) (true :: flags) = now :: admitted times flags := by simp [admitted]

theorem admitted_sublist (times : List Nat) : ∀ flags : List Bool, (admitted times flags).Sublist times := by
  induction times with
  | nil => intro flags; simp [admitted]
  | cons now times ih =>
    intro flags
    cases flags with
    | nil => simp [admitted]
    | cons b flags =>
      cases b
      · rw [admitted_false]; exact (ih flags).cons now
      · rw [admitted_true]; exact (ih flags).cons_cons now

/-- an event may be added exactly if it is not refused -/
theorem refuses_iff {c w : Nat} (hc : 0 < c) {acc : List Nat} {now : Nat} (hs : (acc ++ [now]).Pairwise (· ≤ ·))
    (hg : Gaps c w acc) : refuses c w acc now = false ↔ Gaps c w (acc ++ [now]) := by
  have hle : ∀ x ∈ acc, x ≤ now := fun x hx => (List.pairwise_append.mp hs).2.2 x hx now (by simp)
  unfold refuses
  by_cases hl : c ≤ acc.length
  · have hlt : acc.length - c < acc.length := by omega
    rw [decide_eq_true hl, List.getElem?_eq_getElem hlt]
    simp only [Bool.true_and, decide_eq_false_iff_not, not_lt]
    have hm := hle _ (List.getElem_mem hlt)
    constructor
    · intro h i a b ha hb
      by_cases hi : i + c < acc.length
      · rw [List.getElem?_append_left (by omega)] at ha
        rw [List.getElem?_append_left hi] at hb
        exact hg i a b ha hb
      · have hi' := (List.getElem?_eq_some_iff.mp hb).1
        rw [List.length_append, List.length_singleton] at hi'
        have : i = acc.length - c := by omega
        subst this
        rw [List.getElem?_append_left hlt, List.getElem?_eq_getElem hlt] at ha
        rw [List.getElem?_append_right (by omega), show acc.length - c + c - acc.length = 0 by omega] at hb
        cases ha; cases hb
        omega
    · intro h
      have := h (acc.length - c) (acc[acc.length - c]) now (by
        rw [List.getElem?_append_left hlt, List.getElem?_eq_getElem hlt]) (by
        rw [List.getElem?_append_right (by omega), show acc.length - c + c - acc.length = 0 by omega]; rfl)
      omega
  · rw [decide_eq_false hl, Bool.false_and]
    refine ⟨fun _ i a b ha hb => ?_, fun _ => rfl⟩
    have := (List.getElem?_eq_some_iff.mp hb).1
    rw [List.length_append, List.length_singleton] at this
    omega

theorem greedy_gaps {c w : Nat} (hc : 0 < c) (times : List Nat) : ∀ acc, (acc ++ times).Pairwise (· ≤ ·) → Gaps c w acc →
    Gaps c w (acc ++ admitted times (greedy c w acc times)) := by
  induction times with
  | nil => intro acc _ h; simpa [greedy, admitted] using h
  | cons now times ih =>
    intro acc hs hg
    have hs1 : (acc ++ [now]).Pairwise (· ≤ ·) := hs.sublist (by simp)
    unfold greedy
    by_cases hr : refuses c w acc now = true
    · rw [if_pos hr, admitted_false]
      exact ih acc (hs.sublist (by simp)) hg
    · rw [if_neg hr, admitted_true]
      have := ih (acc ++ [now]) (by simpa using hs) ((refuses_iff hc hs1 hg).mp (by simpa using hr))
      simpa using this

theorem greedy_refused {c w : Nat} (hc : 0 < c) (times : List Nat) : ∀ acc, (acc ++ times).Pairwise (· ≤ ·) → Gaps c w acc →
    ∀ i now : Nat, times[i]? = some now → (greedy c w acc times)[i]? = some false →
      ¬ Gaps c w (acc ++ admitted (times.take i) ((greedy c w acc times).take i) ++ [now]) := by
  induction times with
  | nil => intro acc _ _ i now h; cases h
  | cons x times ih =>
    intro acc hs hg i now hi hf
    have hs1 : (acc ++ [x]).Pairwise (· ≤ ·) := hs.sublist (by simp)
    unfold greedy at hf ⊢
    by_cases hr : refuses c w acc x = true
    · rw [if_pos hr] at hf ⊢
      cases i with
      | zero =>
        cases hi
        simp only [List.take_zero, admitted, List.zip_nil_left, List.filter_nil, List.map_nil, List.append_nil]
        rw [← refuses_iff hc hs1 hg, hr]
        exact Bool.noConfusion
      | succ i =>
        rw [List.take_succ_cons, List.take_succ_cons, admitted_false]
        exact ih acc (hs.sublist (by simp)) hg i now (by simpa using hi) (by simpa using hf)
    · rw [if_neg hr] at hf ⊢
      cases i with
      | zero => cases hf
      | succ i =>
        rw [List.take_succ_cons, List.take_succ_cons, admitted_true]
        have := ih (acc ++ [x]) (by simpa using hs) ((refuses_iff hc hs1 hg).mp (by simpa using hr)) i now (by simpa using hi)
          (by simpa using hf)
        simpa using this

/-- the greedy choice stays ahead of every other choice -/
theorem greedy_best {c w : Nat} (hc : 0 < c) (times : List Nat) : ∀ acc other m : List Nat, (acc ++ times).Pairwise (· ≤ ·) →
    m.Sublist times → Gaps c w (other ++ m) → other.length ≤ acc.length →
    (∀ i a b : Nat, acc[i]? = some a → other[i]? = some b → a ≤ b) →
    (other ++ m).length ≤ (acc ++ admitted times (greedy c w acc times)).length := by
  induction times with
  | nil =>
    intro acc other m _ hm _ hl _
    rw [List.sublist_nil.mp hm]
    simpa [greedy, admitted] using hl
  | cons now times ih =>
    intro acc other m hs hm hg hl hahead
    have hle : ∀ x ∈ acc, x ≤ now := fun x hx => (List.pairwise_append.mp hs).2.2 x hx now (by simp)
    unfold greedy
    rcases List.sublist_cons_iff.mp hm with hm' | ⟨m', rfl, hm'⟩
    · by_cases hr : refuses c w acc now = true
      · rw [if_pos hr, admitted_false]
        exact ih acc other m (hs.sublist (by simp)) hm' hg hl hahead
      · rw [if_neg hr, admitted_true]
        have := ih (acc ++ [now]) other m (by simpa using hs) hm' hg (by simp; omega) (fun i a b ha hb => by
          have := (List.getElem?_eq_some_iff.mp hb).1
          rw [List.getElem?_append_left (by omega)] at ha
          exact hahead i a b ha hb)
        simpa using this
    · have hg' : Gaps c w (other ++ [now] ++ m') := by simpa using hg
      by_cases hr : refuses c w acc now = true
      · rw [if_pos hr, admitted_false]
        have hlt : other.length + 1 ≤ acc.length := by
          by_contra hn
          have he : other.length = acc.length := by omega
          unfold refuses at hr
          rw [Bool.and_eq_true, decide_eq_true_eq] at hr
          obtain ⟨hr1, hr2⟩ := hr
          have h1 : acc.length - c < acc.length := by omega
          rw [List.getElem?_eq_getElem h1] at hr2
          simp only [decide_eq_true_eq] at hr2
          have h2 : acc.length - c < other.length := by omega
          have g := hg' (acc.length - c) (other[acc.length - c]) now (by
            rw [List.append_assoc, List.getElem?_append_left h2, List.getElem?_eq_getElem h2]) (by
            rw [show acc.length - c + c = other.length by omega, List.append_assoc,
              List.getElem?_append_right (Nat.le_refl _), Nat.sub_self]; rfl)
          have := hahead (acc.length - c) _ _ (List.getElem?_eq_getElem h1) (List.getElem?_eq_getElem h2)
          omega
        have := ih acc (other ++ [now]) m' (hs.sublist (by simp)) hm' hg' (by simp; omega) (fun i a b ha hb => by
          by_cases hi : i < other.length
          · rw [List.getElem?_append_left hi] at hb
            exact hahead i a b ha hb
          · rw [List.getElem?_append_right (by omega)] at hb
            have := (List.getElem?_eq_some_iff.mp hb).1
            rw [List.length_singleton] at this
            rw [show i - other.length = 0 by omega] at hb
            cases hb
            exact hle a (List.mem_of_getElem? ha))
        simpa using this
      · rw [if_neg hr, admitted_true]
        have := ih (acc ++ [now]) (other ++ [now]) m' (by simpa using hs) hm' hg' (by simp; omega) (fun i a b ha hb => by
          by_cases hi : i < other.length
          · rw [List.getElem?_append_left (by omega)] at ha
            rw [List.getElem?_append_left hi] at hb
            exact hahead i a b ha hb
          · rw [List.getElem?_append_right (by omega)] at hb
            have := (List.getElem?_eq_some_iff.mp hb).1
            rw [List.length_singleton] at this
            rw [show i - other.length = 0 by omega] at hb
            cases hb
            rcases List.mem_append.mp (List.mem_of_getElem? ha) with h | h
            · exact hle a h
            · rw [List.mem_singleton.mp h])
        simpa using this

/-! ## the buffer -/

theorem lastN_push (c : Nat) (acc : List Nat) (now : Nat) : lastN c (lastN c acc ++ [now]) = lastN c (acc ++ [now]) := by
  unfold lastN
  rw [List.length_append, List.length_drop, List.length_append, List.length_singleton]
  by_cases h : acc.length ≤ c
  · rw [show acc.length - c = 0 by omega, List.drop_zero, Nat.sub_zero]
  · have h1 : acc.length - (acc.length - c) + 1 - c = 1 := by omega
    rw [h1]
    by_cases h0 : c = 0
    · subst h0
      simp [List.drop_eq_nil_of_le]
    · rw [List.drop_append_of_le_length (by rw [List.length_drop]; omega), List.drop_append_of_le_length (by omega),
        List.drop_drop, show acc.length - c + 1 = acc.length + 1 - c by omega]

section
variable [Cfg] [Elem Nat] {c w : Nat}

theorem push_ok (hd : ∀ n : Nat, Elem.dropPanics n = false) {acc : List Nat} {s : St Nat} (hr : Rep s.cb ⟨c, lastN c acc⟩)
    (now : Nat) : ∃ cb dr, pushBack now s = (.ok (), ⟨cb, s.dropped ++ dr⟩) ∧ Rep cb ⟨c, lastN c (acc ++ [now])⟩ := by
  obtain ⟨cb, h1, h2⟩ := pushBack_sim (s := s) hr now
  rw [pushBack_calm hr.le_cap fun e _ => hd e] at h1 h2
  simp only [lastN_push] at h2
  exact ⟨cb, _, h1, h2⟩

theorem admit_ok (hd : ∀ n : Nat, Elem.dropPanics n = false) {acc : List Nat} {s : St Nat} (hr : Rep s.cb ⟨c, lastN c acc⟩)
    {now : Nat} (hle : ∀ x ∈ acc, x ≤ now) :
    ∃ cb dr, admit w now s = (.ok (!refuses c w acc now), ⟨cb, s.dropped ++ dr⟩) ∧
      Rep cb ⟨c, lastN c (if refuses c w acc now then acc else acc ++ [now])⟩ := by
  have hfull : (self_ Buf.isFull : M (St Nat) _) s = (.ok (decide (c ≤ acc.length)), s) := by
    show (s.cb.isFull, s) = _
    rw [hr.isFull_eq]
    have : ((lastN c acc).length == c) = decide (c ≤ acc.length) := by
      rw [Bool.eq_iff_iff, beq_iff_eq, decide_eq_true_eq, lastN, List.length_drop]
      omega
    rw [this]
  have hfirst : (self_ Buf.first : M (St Nat) _) s = (.ok acc[acc.length - c]?, s) := by
    show (s.cb.first, s) = _
    rw [hr.first_eq, lastN, List.head?_drop]
  obtain ⟨cb, dr, p1, p2⟩ := push_ok hd hr now
  unfold admit
  rw [M.bind_ok hfull]
  by_cases hl : c ≤ acc.length
  · simp only [decide_eq_true hl, if_true]
    rw [M.bind_ok hfirst]
    unfold refuses
    rw [decide_eq_true hl]
    cases ho : acc[acc.length - c]? with
    | none => exact ⟨s.cb, [], by simp [M.pure_run], by simpa using hr⟩
    | some oldest =>
      have hm := hle oldest (List.mem_of_getElem? ho)
      have hsub : (M.lift (usub now oldest) : M (St Nat) _) s = (.ok (now - oldest), s) := by
        rw [usub_ok hm]; rfl
      simp only [Bool.true_and]
      rw [M.bind_ok hsub]
      by_cases hw : now - oldest < w
      · simp only [hw, if_true, decide_true]
        exact ⟨s.cb, [], by simp [M.pure_run], hr⟩
      · simp only [hw, if_false, decide_false]
        rw [M.bind_ok p1]
        exact ⟨cb, dr, by simp [M.pure_run], p2⟩
  · unfold refuses
    simp only [decide_eq_false hl, Bool.false_and]
    simp only [Bool.false_eq_true, if_false]
    rw [M.bind_ok p1]
    exact ⟨cb, dr, by simp [M.pure_run], p2⟩

theorem admitAll_ok (hd : ∀ n : Nat, Elem.dropPanics n = false) (times : List Nat) : ∀ (acc : List Nat) (s : St Nat),
    Rep s.cb ⟨c, lastN c acc⟩ → (acc ++ times).Pairwise (· ≤ ·) →
    ∃ cb dr, admitAll w times s = (.ok (greedy c w acc times), ⟨cb, s.dropped ++ dr⟩) ∧
      Rep cb ⟨c, lastN c (acc ++ admitted times (greedy c w acc times))⟩ := by
  induction times with
  | nil => intro acc s hr _; exact ⟨s.cb, [], by simp [admitAll, greedy, M.pure_run], by simpa [greedy, admitted] using hr⟩
  | cons now times ih =>
    intro acc s hr hs
    obtain ⟨cb, dr, e1, r1⟩ := admit_ok (w := w) hd hr (now := now)
      fun x hx => (List.pairwise_append.mp hs).2.2 x hx now (by simp)
    unfold admitAll greedy
    rw [M.bind_ok e1]
    cases hf : refuses c w acc now
    · simp only [hf, Bool.false_eq_true, if_false] at r1 ⊢
      obtain ⟨cb2, dr2, e2, r2⟩ := ih (acc ++ [now]) ⟨cb, s.dropped ++ dr⟩ r1 (by simpa using hs)
      rw [M.bind_ok e2, admitted_true]
      exact ⟨cb2, dr ++ dr2, by simp [M.pure_run], by simpa using r2⟩
    · simp only [hf, if_true] at r1 ⊢
      obtain ⟨cb2, dr2, e2, r2⟩ := ih acc ⟨cb, s.dropped ++ dr⟩ r1 (hs.sublist (by simp))
      rw [M.bind_ok e2, admitted_false]
      exact ⟨cb2, dr ++ dr2, by simp [M.pure_run], r2⟩

end
end Client
