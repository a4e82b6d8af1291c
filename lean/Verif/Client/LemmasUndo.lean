import Verif.Client.SpecUndo
import Verif.CB.Props
import Mathlib.Order.Nat
/-!
# Lemmas for C138
-/

open Rust CB
namespace Client

variable {α : Type}

theorem onPast_ok {β : Type} {m : M (St α) β} {p f : Buf α} {x : α} {dr : List α} {b : β} {t : St α}
    (h : m ⟨p, dr⟩ = (.ok b, t)) : onPast m ⟨p, x, f, dr⟩ = (.ok b, ⟨t.cb, x, f, t.dropped⟩) := by
  unfold onPast; rw [h]
theorem onFuture_ok {β : Type} {m : M (St α) β} {p f : Buf α} {x : α} {dr : List α} {b : β} {t : St α}
    (h : m ⟨f, dr⟩ = (.ok b, t)) : onFuture m ⟨p, x, f, dr⟩ = (.ok b, ⟨p, x, t.cb, t.dropped⟩) := by
  unfold onFuture; rw [h]
theorem replaceNow_ok (v : α) (p : Buf α) (x : α) (f : Buf α) (dr : List α) :
    replaceNow v ⟨p, x, f, dr⟩ = (.ok x, ⟨p, v, f, dr⟩) := rfl

theorem take_next {l : List α} {i : Nat} {x : α} (h : l[i]? = some x) : l.take (i + 1) = l.take i ++ [x] := by
  obtain ⟨hi, rfl⟩ := List.getElem?_eq_some_iff.mp h
  exact List.take_succ_eq_append_getElem hi

theorem drop_next {l : List α} {i : Nat} {x : α} (h : l[i]? = some x) : l.drop i = x :: l.drop (i + 1) := by
  obtain ⟨hi, rfl⟩ := List.getElem?_eq_some_iff.mp h
  exact List.drop_eq_getElem_cons hi

theorem lastN_all {n : Nat} {l : List α} (h : l.length ≤ n) : lastN n l = l := by
  rw [lastN, Nat.sub_eq_zero_of_le h, List.drop_zero]

section
variable [Cfg] [Elem α] {c : Nat}

/-- the editor stands at the place of the line -/
structure Stands (c : Nat) (e : Editor α) (t : Timeline α) : Prop where
  short : t.versions.length ≤ c + 1
  now : t.versions[t.place]? = some e.now
  past : Rep e.past ⟨c, t.versions.take t.place⟩
  future : Rep e.future ⟨c, (t.versions.drop (t.place + 1)).reverse⟩

theorem Stands.lt {e : Editor α} {t : Timeline α} (h : Stands c e t) : t.place < t.versions.length :=
  (List.getElem?_eq_some_iff.mp h.now).1

/-- `push_back` as the client sees it -/
theorem push_calm (hd : ∀ x : α, Elem.dropPanics x = false) {s : St α} {l : List α} (r : Rep s.cb ⟨c, l⟩) (v : α) :
    ∃ cb, pushBack v s = (.ok (), ⟨cb, s.dropped ++ (l ++ [v]).take ((l ++ [v]).length - c)⟩) ∧
      Rep cb ⟨c, lastN c (l ++ [v])⟩ := by
  obtain ⟨cb, h1, h2⟩ := pushBack_sim r v
  rw [pushBack_calm r.le_cap fun x _ => hd x] at h1 h2
  exact ⟨cb, h1, h2⟩

theorem clears_calm (hd : ∀ x : α, Elem.dropPanics x = false) {s : St α} {l : List α} (r : Rep s.cb ⟨c, l⟩) :
    ∃ cb, clear s = (.ok (), ⟨cb, s.dropped ++ l.reverse⟩) ∧ Rep cb ⟨c, []⟩ := by
  obtain ⟨cb, h1, h2⟩ := clear_sim r
  rw [clear_calm fun x _ => hd x] at h1 h2
  exact ⟨cb, h1, h2⟩

theorem act_ok (hd : ∀ x : α, Elem.dropPanics x = false) {e : Editor α} {t : Timeline α} (h : Stands c e t) (cmd : Cmd α) :
    ∃ e', act cmd e = (.ok (t.act c cmd).1, e') ∧ Stands c e' (t.act c cmd).2 ∧
      (e'.dropped ++ (t.act c cmd).2.versions).Perm (e.dropped ++ t.versions ++ brought [cmd]) := by
  obtain ⟨ep, x, ef, dr⟩ := e
  have hlt := h.lt
  have hnow : t.versions[t.place]? = some x := h.now
  have hlen := h.short
  cases cmd with
  | edit v =>
    have hall := take_next hnow
    obtain ⟨p1, g1, r1⟩ := push_calm hd (s := ⟨ep, dr⟩) h.past x
    rw [← hall] at g1 r1
    obtain ⟨p2, g2, r2⟩ := clears_calm hd (s := ⟨ef, dr ++
      (t.versions.take (t.place + 1)).take ((t.versions.take (t.place + 1)).length - c)⟩) h.future
    rw [List.reverse_reverse] at g2
    have hA : (t.versions.take (t.place + 1)).length = t.place + 1 := by rw [List.length_take]; omega
    have hB : (t.versions.take (t.place + 1) ++ [v]).length = t.place + 2 := by
      rw [List.length_append, hA]; rfl
    have hl : lastN (c + 1) (t.versions.take (t.place + 1) ++ [v]) = lastN c (t.versions.take (t.place + 1)) ++ [v] := by
      unfold lastN
      rw [hB, hA, show t.place + 2 - (c + 1) = t.place + 1 - c by omega,
        List.drop_append_of_le_length (by rw [hA]; omega)]
    have hn : (lastN c (t.versions.take (t.place + 1))).length = min c (t.place + 1) := by rw [lastN_length, hA]
    have hpl : min (c + 1) (t.versions.take (t.place + 1) ++ [v]).length - 1 = min c (t.place + 1) := by
      rw [hB]; omega
    refine ⟨⟨p1, v, p2, dr ++ (t.versions.take (t.place + 1)).take ((t.versions.take (t.place + 1)).length - c) ++
      t.versions.drop (t.place + 1)⟩, ?_, ⟨?_, ?_, ?_, ?_⟩, ?_⟩
    · unfold act
      dsimp only
      rw [M.bind_ok (replaceNow_ok v _ _ _ _), M.bind_ok (onPast_ok g1), M.bind_ok (onFuture_ok g2)]
      rfl
    · simp only [Timeline.act]
      rw [lastN_length]; omega
    · simp only [Timeline.act]
      rw [hl, hpl, ← hn, List.getElem?_append_right (Nat.le_refl _), Nat.sub_self]
      rfl
    · simp only [Timeline.act]
      rw [hl, hpl, ← hn, List.take_append_of_le_length (Nat.le_refl _), List.take_length]
      exact r1
    · simp only [Timeline.act]
      rw [hl, hpl, List.drop_eq_nil_of_le (by rw [List.length_append, hn]; exact Nat.le_refl _)]
      exact r2
    · simp only [Timeline.act, brought]
      rw [hl]
      have e1 : t.versions = (t.versions.take (t.place + 1)).take ((t.versions.take (t.place + 1)).length - c) ++
          (lastN c (t.versions.take (t.place + 1)) ++ t.versions.drop (t.place + 1)) := by
        unfold lastN
        rw [← List.append_assoc, List.take_append_drop, List.take_append_drop]
      generalize (t.versions.take (t.place + 1)).take ((t.versions.take (t.place + 1)).length - c) = A at e1 ⊢
      generalize lastN c (t.versions.take (t.place + 1)) = B at e1 ⊢
      generalize t.versions.drop (t.place + 1) = C at e1 ⊢
      rw [e1]
      simp only [List.append_assoc]
      refine List.Perm.append_left _ (List.Perm.append_left _ ?_)
      rw [← List.append_assoc, ← List.append_assoc B C]
      exact List.perm_append_comm.append_right _
  | undo =>
    obtain ⟨p1, g1, r1⟩ := popBack_sim (s := ⟨ep, dr⟩) h.past
    by_cases h0 : 0 < t.place
    · have hi : t.place - 1 < t.versions.length := by omega
      obtain ⟨y, hy⟩ : ∃ y, t.versions[t.place - 1]? = some y := ⟨_, List.getElem?_eq_getElem hi⟩
      have htk := take_next hy
      rw [Nat.sub_add_cancel h0] at htk
      have hfut := drop_next hnow
      rw [htk, List.getLast?_concat] at g1
      simp only [htk, List.dropLast_concat] at r1
      obtain ⟨p2, g2, r2⟩ := push_calm hd (s := ⟨ef, dr⟩) h.future x
      have hL : ((t.versions.drop (t.place + 1)).reverse ++ [x]).length ≤ c := by
        rw [List.length_append, List.length_reverse, List.length_drop]
        show _ + 1 ≤ c
        omega
      rw [Nat.sub_eq_zero_of_le hL, List.take_zero, List.append_nil] at g2
      rw [lastN_all hL, ← List.reverse_cons, ← hfut] at r2
      refine ⟨⟨p1, y, p2, dr⟩, ?_, ⟨?_, ?_, ?_, ?_⟩, ?_⟩
      · unfold act
        dsimp only
        rw [M.bind_ok (onPast_ok g1)]
        dsimp only
        rw [M.bind_ok (replaceNow_ok _ _ _ _ _), M.bind_ok (onFuture_ok g2)]
        simp only [Timeline.act, h0, if_true]
        rfl
      · simpa only [Timeline.act, h0, if_true] using hlen
      · simpa only [Timeline.act, h0, if_true] using hy
      · simpa only [Timeline.act, h0, if_true] using r1
      · simp only [Timeline.act, h0, if_true]
        rw [Nat.sub_add_cancel h0]
        exact r2
      · simp [Timeline.act, h0, brought]
    · have hz : t.place = 0 := by omega
      rw [hz, List.take_zero] at g1 r1
      refine ⟨⟨p1, x, ef, dr⟩, ?_, ⟨?_, ?_, ?_, ?_⟩, ?_⟩
      · unfold act
        dsimp only
        rw [M.bind_ok (onPast_ok g1)]
        simp only [Timeline.act, h0, if_false]
        rfl
      · simpa only [Timeline.act, h0, if_false] using hlen
      · simpa only [Timeline.act, h0, if_false] using hnow
      · simp only [Timeline.act, h0, if_false]
        rw [hz, List.take_zero]
        exact r1
      · simpa only [Timeline.act, h0, if_false] using h.future
      · simp [Timeline.act, h0, brought]
  | redo =>
    obtain ⟨p1, g1, r1⟩ := popBack_sim (s := ⟨ef, dr⟩) h.future
    by_cases h0 : t.place + 1 < t.versions.length
    · obtain ⟨y, hy⟩ : ∃ y, t.versions[t.place + 1]? = some y := ⟨_, List.getElem?_eq_getElem h0⟩
      have hfut := drop_next hy
      have htk := take_next hnow
      rw [hfut, List.reverse_cons, List.getLast?_concat] at g1
      simp only [hfut, List.reverse_cons, List.dropLast_concat] at r1
      obtain ⟨p2, g2, r2⟩ := push_calm hd (s := ⟨ep, dr⟩) h.past x
      rw [← htk] at g2 r2
      have hL : (t.versions.take (t.place + 1)).length ≤ c := by
        rw [List.length_take]; omega
      rw [Nat.sub_eq_zero_of_le hL, List.take_zero, List.append_nil] at g2
      rw [lastN_all hL] at r2
      refine ⟨⟨p2, y, p1, dr⟩, ?_, ⟨?_, ?_, ?_, ?_⟩, ?_⟩
      · unfold act
        dsimp only
        rw [M.bind_ok (onFuture_ok g1)]
        dsimp only
        rw [M.bind_ok (replaceNow_ok _ _ _ _ _), M.bind_ok (onPast_ok g2)]
        simp only [Timeline.act, h0, if_true]
        rfl
      · simpa only [Timeline.act, h0, if_true] using hlen
      · simpa only [Timeline.act, h0, if_true] using hy
      · simpa only [Timeline.act, h0, if_true] using r2
      · simpa only [Timeline.act, h0, if_true] using r1
      · simp [Timeline.act, h0, brought]
    · have hz : t.versions.drop (t.place + 1) = [] := List.drop_eq_nil_of_le (by omega)
      rw [hz] at g1 r1
      refine ⟨⟨ep, x, p1, dr⟩, ?_, ⟨?_, ?_, ?_, ?_⟩, ?_⟩
      · unfold act
        dsimp only
        rw [M.bind_ok (onFuture_ok g1)]
        simp only [Timeline.act, h0, if_false]
        rfl
      · simpa only [Timeline.act, h0, if_false] using hlen
      · simpa only [Timeline.act, h0, if_false] using hnow
      · simpa only [Timeline.act, h0, if_false] using h.past
      · simp only [Timeline.act, h0, if_false]
        rw [hz]
        exact r1
      · simp [Timeline.act, h0, brought]

omit [Cfg] [Elem α] in
theorem brought_cons (cmd : Cmd α) (cs : List (Cmd α)) : brought (cmd :: cs) = brought [cmd] ++ brought cs := by
  cases cmd <;> rfl

theorem actAll_ok (hd : ∀ x : α, Elem.dropPanics x = false) (cs : List (Cmd α)) : ∀ {e : Editor α} {t : Timeline α}, Stands c e t →
    ∃ e', actAll cs e = (.ok (t.actAll c cs).1, e') ∧ Stands c e' (t.actAll c cs).2 ∧
      (e'.dropped ++ (t.actAll c cs).2.versions).Perm (e.dropped ++ t.versions ++ brought cs) := by
  induction cs with
  | nil => intro e t h; exact ⟨e, rfl, h, by simp [Timeline.actAll, brought]⟩
  | cons cmd cs ih =>
    intro e t h
    obtain ⟨e1, g1, h1, q1⟩ := act_ok hd h cmd
    obtain ⟨e2, g2, h2, q2⟩ := ih h1
    refine ⟨e2, ?_, h2, ?_⟩
    · unfold actAll
      rw [M.bind_ok g1, M.bind_ok g2]
      rfl
    · rw [brought_cons, ← List.append_assoc]
      exact q2.trans (q1.append_right _)

end

/-! ## the line of versions -/

theorem Timeline.actAll_append (c : Nat) (xs ys : List (Cmd α)) : ∀ t : Timeline α,
    t.actAll c (xs ++ ys) = ((t.actAll c xs).1 ++ ((t.actAll c xs).2.actAll c ys).1, ((t.actAll c xs).2.actAll c ys).2) := by
  induction xs with
  | nil => intro t; rfl
  | cons x xs ih => intro t; simp only [List.cons_append, Timeline.actAll, ih]

theorem Timeline.undos (c : Nat) (vs : List α) : ∀ (k p : Nat), k ≤ p →
    (⟨vs, p⟩ : Timeline α).actAll c (List.replicate k .undo) = (List.replicate k true, ⟨vs, p - k⟩) := by
  intro k
  induction k with
  | zero => intro p _; rfl
  | succ k ih =>
    intro p h
    simp only [List.replicate_succ, Timeline.actAll, Timeline.act, show 0 < p by omega, if_true]
    rw [ih (p - 1) (by omega)]
    simp only [show p - 1 - k = p - (k + 1) by omega]

theorem Timeline.redos (c : Nat) (vs : List α) : ∀ (k p : Nat), p + k < vs.length →
    (⟨vs, p⟩ : Timeline α).actAll c (List.replicate k .redo) = (List.replicate k true, ⟨vs, p + k⟩) := by
  intro k
  induction k with
  | zero => intro p _; rfl
  | succ k ih =>
    intro p h
    simp only [List.replicate_succ, Timeline.actAll, Timeline.act, show p + 1 < vs.length by omega, if_true]
    rw [ih (p + 1) (by omega)]
    simp only [show p + 1 + k = p + (k + 1) by omega]

/-- the versions up to the present one, after some edits -/
theorem Timeline.edits [Cfg] [Elem α] (c : Nat) (ws : List α) : ∀ t : Timeline α, t.place < t.versions.length → t.versions.length ≤ c + 1 →
    (t.actAll c (ws.map .edit)).1 = List.replicate ws.length true ∧
    (t.actAll c (ws.map .edit)).2.place < (t.actAll c (ws.map .edit)).2.versions.length ∧
    (t.actAll c (ws.map .edit)).2.versions.length ≤ c + 1 ∧
    (t.actAll c (ws.map .edit)).2.versions.take ((t.actAll c (ws.map .edit)).2.place + 1) =
      lastN (c + 1) (t.versions.take (t.place + 1) ++ ws) := by
  induction ws with
  | nil =>
    intro t h1 h2
    refine ⟨rfl, h1, h2, ?_⟩
    simp only [List.map_nil, Timeline.actAll, List.append_nil]
    rw [lastN_all (by rw [List.length_take]; omega)]
  | cons w ws ih =>
    intro t h1 h2
    have hB : (t.versions.take (t.place + 1) ++ [w]).length = t.place + 2 := by
      rw [List.length_append, List.length_take]
      show _ + 1 = _
      omega
    have hl : (lastN (c + 1) (t.versions.take (t.place + 1) ++ [w])).length = min (c + 1) (t.place + 2) := by
      rw [lastN_length, hB]
    obtain ⟨a1, a2, a3, a4⟩ := ih (t.act c (.edit w)).2 (by
      simp only [Timeline.act]; rw [hl, hB]; omega) (by simp only [Timeline.act]; rw [hl]; omega)
    refine ⟨?_, a2, a3, ?_⟩
    · simp only [List.map_cons, Timeline.actAll, List.length_cons, List.replicate_succ]
      rw [a1]
      rfl
    · simp only [List.map_cons, Timeline.actAll]
      rw [a4]
      simp only [Timeline.act]
      rw [List.take_of_length_le (by rw [hl, hB]; omega), lastN_append_lastN, List.append_assoc]
      rfl

end Client
