import Verif.CB.SpecTurn
import Verif.CB.Misc
import Mathlib.Data.List.Rotate
/-!
# C128: editing a buffer in place by turning it round
-/

open Rust
namespace CB
section
variable {α : Type} [Cfg] [Elem α] {cb : Buf α} {xs : List α}

/-- a buffer that other calls can produce, showing a list within a capacity -/
def Fit (cb : Buf α) (n : Nat) (xs : List α) : Prop := Reachable cb ∧ Rep cb ⟨n, xs⟩

theorem step_popFront (s : St α) : (step .popFront s).2 = (popFront s).2 := by
  change (((do return .opt (← popFront)) : M (St α) (Out α)) s).2 = _
  cases h : popFront s with
  | mk r t =>
    cases r with
    | ok v => rw [M.bind_ok h]; rfl
    | error e => rw [M.bind_error h]

theorem step_pushBack (v : α) (s : St α) : (step (.pushBack v) s).2 = (pushBack v s).2 := by
  change (((do pushBack v; return .unit) : M (St α) (Out α)) s).2 = _
  cases h : pushBack v s with
  | mk r t =>
    cases r with
    | ok v => rw [M.bind_ok h]; rfl
    | error e => rw [M.bind_error h]

theorem Fit.pop {n : Nat} {x : α} (h : Fit cb n (x :: xs)) (dr : List α) :
    ∃ cb', popFront ⟨cb, dr⟩ = (.ok (some x), ⟨cb', dr⟩) ∧ Fit cb' n xs := by
  obtain ⟨cb', e, r⟩ := popFront_sim (s := ⟨cb, dr⟩) h.2
  refine ⟨cb', e, ?_, r⟩
  have g := Reachable.step .popFront dr h.1 trivial
  rw [step_popFront, e] at g
  exact g

theorem Fit.pop_nil {n : Nat} (h : Fit cb n ([] : List α)) (dr : List α) :
    ∃ cb', popFront ⟨cb, dr⟩ = (.ok none, ⟨cb', dr⟩) ∧ Fit cb' n [] := by
  obtain ⟨cb', e, r⟩ := popFront_sim (s := ⟨cb, dr⟩) h.2
  refine ⟨cb', e, ?_, r⟩
  have g := Reachable.step .popFront dr h.1 trivial
  rw [step_popFront, e] at g
  exact g

theorem Fit.push {n : Nat} (h : Fit cb n xs) (hl : xs.length < n) (v : α) (dr : List α) :
    ∃ cb', pushBack v ⟨cb, dr⟩ = (.ok (), ⟨cb', dr⟩) ∧ Fit cb' n (xs ++ [v]) := by
  obtain ⟨cb', e, r⟩ := pushBack_sim (s := ⟨cb, dr⟩) h.2 v
  have hs : Spec.pushBack ⟨n, xs⟩ v = ⟨.ok (), ⟨n, xs ++ [v]⟩, []⟩ := by
    unfold Spec.pushBack
    rw [if_neg (show ¬ n = 0 by omega), if_pos (show xs.length < n by omega)]
  rw [hs] at e r
  rw [List.append_nil] at e
  refine ⟨cb', e, ?_, r⟩
  have g := Reachable.step (.pushBack v) dr h.1 trivial
  rw [step_pushBack, e] at g
  exact g

theorem turn_sim {n : Nat} (dr : List α) : ∀ (k : Nat) {cb : Buf α} {xs : List α}, Fit cb n xs →
    ∃ cb', turn k ⟨cb, dr⟩ = (.ok (), ⟨cb', dr⟩) ∧ Fit cb' n (xs.rotate k)
  | 0, cb, xs, h => ⟨cb, rfl, by simpa using h⟩
  | k + 1, cb, [], h => by
    obtain ⟨cb1, e1, h1⟩ := h.pop_nil dr
    obtain ⟨cb2, e2, h2⟩ := turn_sim dr k h1
    refine ⟨cb2, ?_, by simpa using h2⟩
    unfold turn
    rw [M.bind_ok e1]
    exact e2
  | k + 1, cb, x :: xs, h => by
    have hl : (x :: xs).length ≤ n := h.2.le_cap
    obtain ⟨cb1, e1, h1⟩ := h.pop dr
    obtain ⟨cb2, e2, h2⟩ := h1.push (by rw [List.length_cons] at hl; omega) x dr
    obtain ⟨cb3, e3, h3⟩ := turn_sim dr k h2
    refine ⟨cb3, ?_, by simpa using h3⟩
    unfold turn
    rw [M.bind_ok e1]
    dsimp only
    rw [M.bind_ok e2]
    exact e3

theorem retainLoop_sim {n : Nat} {keep : α → Except Fault Bool} {p : α → Bool} : ∀ (as : List α) {cb : Buf α}
    {done : List α} (dr : List α), Fit cb n (as ++ done) → (∀ x ∈ as, keep x = .ok (p x)) →
    (∀ x ∈ as, p x = false → Elem.dropPanics x = false) →
    ∃ cb', (∀ m, retainLoop keep (as.length + m) ⟨cb, dr⟩
      = retainLoop keep m ⟨cb', dr ++ as.filter (!p ·)⟩) ∧ Fit cb' n (done ++ as.filter p)
  | [], cb, done, dr, h, _, _ => ⟨cb, fun m => by simp, by simpa using h⟩
  | x :: as, cb, done, dr, h, hk, hd => by
    have hl : (x :: (as ++ done)).length ≤ n := h.2.le_cap
    obtain ⟨cb1, e1, h1⟩ := h.pop (xs := as ++ done) dr
    have ek : owning x (M.lift (keep x)) (⟨cb1, dr⟩ : St α) = (.ok (p x), ⟨cb1, dr⟩) := by
      rw [hk x (by simp)]; rfl
    cases hp : p x with
    | true =>
      obtain ⟨cb2, e2, h2⟩ := h1.push (by simp only [List.length_cons, List.length_append] at hl ⊢; omega) x dr
      rw [List.append_assoc] at h2
      obtain ⟨cb3, e3, h3⟩ := retainLoop_sim as dr h2 (fun y hy => hk y (by simp [hy])) (fun y hy => hd y (by simp [hy]))
      refine ⟨cb3, fun m => ?_, by simpa [hp] using h3⟩
      rw [List.filter_cons_of_neg (by simp [hp]), ← e3 m, show (x :: as).length + m = as.length + m + 1 by simp; omega]
      conv => lhs; unfold retainLoop
      rw [M.bind_ok e1]
      dsimp only
      rw [M.bind_ok ek, hp, if_pos rfl, M.bind_ok e2]
    | false =>
      have hd1 : dropVal x (⟨cb1, dr⟩ : St α) = (.ok (), ⟨cb1, dr ++ [x]⟩) := by
        unfold dropVal; rw [hd x (by simp) hp]; rfl
      obtain ⟨cb3, e3, h3⟩ := retainLoop_sim as (dr ++ [x]) h1 (fun y hy => hk y (by simp [hy]))
        (fun y hy => hd y (by simp [hy]))
      refine ⟨cb3, fun m => ?_, by simpa [hp] using h3⟩
      rw [List.filter_cons_of_pos (by simp [hp]), show dr ++ x :: as.filter (!p ·) = dr ++ [x] ++ as.filter (!p ·) by simp,
        ← e3 m, show (x :: as).length + m = as.length + m + 1 by simp; omega]
      conv => lhs; unfold retainLoop
      rw [M.bind_ok e1]
      dsimp only
      rw [M.bind_ok ek, hp, if_neg (by simp), M.bind_ok hd1]

/-- **C128 (turning).** Taking `k` elements out at the front and putting each back in at the end turns the content round by
`k` places, also several times round; nothing is dropped, and an empty buffer stays as it is. -/
theorem c128_turn (h : Reachable cb) (hx : cb.contents = .ok xs) (k : Nat) (dr : List α) :
    ∃ cb', turn k ⟨cb, dr⟩ = (.ok (), ⟨cb', dr⟩) ∧
      cb'.contents = .ok (xs.drop (k % xs.length) ++ xs.take (k % xs.length)) ∧
      cb'.capacity = cb.capacity ∧ Reachable cb' := by
  obtain ⟨xs', n, hx', hn, hl, r⟩ := h.shows
  rw [hx] at hx'; cases hx'
  obtain ⟨cb', e, h1, h2⟩ := turn_sim dr k ⟨h, r⟩
  exact ⟨cb', e, by rw [h2.contents_eq, List.rotate_eq_drop_append_take_mod], by rw [h2.capacity_eq, hn], h1⟩

/-- **C128 (`retain`).** One round over the buffer keeps exactly the elements the client wants, in order, and drops the
others, in order; the capacity stays and nothing is overwritten, also in a full buffer. -/
theorem c128_retain (h : Reachable cb) (hx : cb.contents = .ok xs) {keep : α → Except Fault Bool} {p : α → Bool}
    (hk : ∀ x ∈ xs, keep x = .ok (p x)) (hd : ∀ x ∈ xs, p x = false → Elem.dropPanics x = false) (dr : List α) :
    ∃ cb', retain keep ⟨cb, dr⟩ = (.ok (), ⟨cb', dr ++ xs.filter (!p ·)⟩) ∧ cb'.contents = .ok (xs.filter p) ∧
      cb'.capacity = cb.capacity ∧ Reachable cb' := by
  obtain ⟨xs', n, hx', hn, hl, r⟩ := h.shows
  rw [hx] at hx'; cases hx'
  obtain ⟨cb', e, h1, h2⟩ := retainLoop_sim (cb := cb) (done := []) xs dr (by simpa using ⟨h, r⟩) hk hd
  refine ⟨cb', ?_, by simpa using h2.contents_eq, by rw [h2.capacity_eq, hn], h1⟩
  unfold retain
  rw [self_bind _ _ r.len_eq]
  exact e 0

/-- **C128 (`retain`, panics).** If the client's predicate panics on an element, or the destructor of an element that is not
to be kept does, that element is gone, dropped once; the elements not yet looked at and, behind them, those already kept are
still there. -/
theorem c128_retain_panics (h : Reachable cb) {pre post : List α} {x : α} (hx : cb.contents = .ok (pre ++ x :: post))
    {keep : α → Except Fault Bool} {p : α → Bool} (hk : ∀ y ∈ pre, keep y = .ok (p y))
    (hd : ∀ y ∈ pre, p y = false → Elem.dropPanics y = false)
    (hf : (∃ e, keep x = .error e) ∨ keep x = .ok false ∧ Elem.dropPanics x = true) (dr : List α) :
    ∃ e cb', retain keep ⟨cb, dr⟩ = (.error e, ⟨cb', dr ++ pre.filter (!p ·) ++ [x]⟩) ∧
      cb'.contents = .ok (post ++ pre.filter p) ∧ cb'.capacity = cb.capacity ∧ Reachable cb' ∧
      (e = .abort ↔ Elem.dropPanics x = true ∧ (∃ e', keep x = .error e') ∨ keep x = .error .abort) := by
  obtain ⟨xs', n, hx', hn, hl, r⟩ := h.shows
  rw [hx] at hx'; cases hx'
  obtain ⟨cb1, e, hf1⟩ := retainLoop_sim (cb := cb) (done := x :: post) pre dr ⟨h, r⟩ hk hd
  obtain ⟨cb2, e2, h2, r2⟩ := Fit.pop (x := x) (xs := post ++ pre.filter p) (by simpa using hf1) (dr ++ pre.filter (!p ·))
  have run : retain keep ⟨cb, dr⟩ = retainLoop keep (post.length + 1) ⟨cb1, dr ++ pre.filter (!p ·)⟩ := by
    unfold retain
    rw [self_bind _ _ r.len_eq, ← e]
    simp
  rw [run]
  conv in retainLoop _ _ => unfold retainLoop
  rw [M.bind_ok e2]
  dsimp only
  rcases hf with ⟨e', he⟩ | ⟨he, hp⟩
  · refine ⟨if Elem.dropPanics x then .abort else e', cb2, ?_, r2.contents_eq, by rw [r2.capacity_eq, hn], h2, ?_⟩
    · rw [M.bind_error (e := if Elem.dropPanics x then .abort else e') (s' := ⟨cb2, dr ++ pre.filter (!p ·) ++ [x]⟩)]
      unfold owning
      rw [he]
      rfl
    · rw [he]
      cases Elem.dropPanics x <;> simp
  · refine ⟨.user, cb2, ?_, r2.contents_eq, by rw [r2.capacity_eq, hn], h2, by simp [he]⟩
    rw [M.bind_ok (a := false) (s' := ⟨cb2, dr ++ pre.filter (!p ·)⟩) (by unfold owning; rw [he]; rfl), if_neg (by simp),
      M.bind_error (e := .user) (s' := ⟨cb2, dr ++ pre.filter (!p ·) ++ [x]⟩)]
    unfold dropVal
    rw [hp]; rfl

/-- **C128 (insert).** In a buffer that is not full, turning to a position, pushing and turning the rest puts the new element
at that position and moves nothing else. -/
theorem c128_insert (h : Reachable cb) {as bs : List α} {n : Nat} (hx : cb.contents = .ok (as ++ bs))
    (hc : cb.capacity = .ok n) (hn : (as ++ bs).length < n) (v : α) (dr : List α) :
    ∃ cb', insertAt as.length v ⟨cb, dr⟩ = (.ok (), ⟨cb', dr⟩) ∧ cb'.contents = .ok (as ++ v :: bs) ∧
      cb'.capacity = cb.capacity ∧ Reachable cb' := by
  obtain ⟨xs', n', hx', hn', hl, r⟩ := h.shows
  rw [hx] at hx'; cases hx'
  rw [hc] at hn'; cases hn'
  obtain ⟨cb1, e1, h1⟩ := turn_sim dr as.length ⟨h, r⟩
  rw [List.rotate_append_length_eq] at h1
  obtain ⟨cb2, e2, h2⟩ := h1.push (by simp only [List.length_append] at hn ⊢; omega) v dr
  obtain ⟨cb3, e3, h3, r3⟩ := turn_sim dr bs.length h2
  rw [List.append_assoc, List.rotate_append_length_eq, List.append_assoc, List.singleton_append] at r3
  refine ⟨cb3, ?_, r3.contents_eq, by rw [r3.capacity_eq, hc], h3⟩
  unfold insertAt
  rw [self_bind _ _ r.len_eq, M.bind_ok e1, M.bind_ok e2]
  simpa using e3

/-- **C128 (remove).** Turning to a position, popping and turning the rest takes out exactly the element at that position. -/
theorem c128_remove (h : Reachable cb) {as bs : List α} {x : α} (hx : cb.contents = .ok (as ++ x :: bs)) (dr : List α) :
    ∃ cb', removeAt as.length ⟨cb, dr⟩ = (.ok (some x), ⟨cb', dr⟩) ∧ cb'.contents = .ok (as ++ bs) ∧
      cb'.capacity = cb.capacity ∧ Reachable cb' := by
  obtain ⟨xs', n, hx', hn, hl, r⟩ := h.shows
  rw [hx] at hx'; cases hx'
  obtain ⟨cb1, e1, h1⟩ := turn_sim dr as.length ⟨h, r⟩
  rw [List.rotate_append_length_eq] at h1
  obtain ⟨cb2, e2, h2⟩ := Fit.pop (x := x) (xs := bs ++ as) h1 dr
  obtain ⟨cb3, e3, h3, r3⟩ := turn_sim dr bs.length h2
  rw [List.rotate_append_length_eq] at r3
  refine ⟨cb3, ?_, r3.contents_eq, by rw [r3.capacity_eq, hn], h3⟩
  unfold removeAt
  rw [self_bind _ _ r.len_eq, M.bind_ok e1, M.bind_ok e2, M.bind_ok (s' := ⟨cb3, dr⟩) (a := ())]
  · rfl
  · rw [← e3]; congr 1; simp

end

open Demo in
example : Reachable Demo.buf ∧ Demo.buf.contents = .ok [3, 4, 5] ∧
    (turn 4 ⟨Demo.buf, []⟩).2.cb.contents = .ok [4, 5, 3] ∧
    (retain (fun v => .ok (v != 4)) ⟨Demo.buf, []⟩).2.cb.contents = .ok [3, 5] ∧
    (retain (fun v => .ok (v != 4)) ⟨Demo.buf, []⟩).2.dropped = [4] :=
  ⟨buf_reachable, buf_contents, by decide +kernel, by decide +kernel, by decide +kernel⟩
open Demo in
example : Reachable Demo.buf ∧ Demo.buf.contents = .ok ([3] ++ 4 :: [5]) ∧
    (retain (fun v => if v = 4 then .error .user else .ok true) ⟨Demo.buf, []⟩).2.cb.contents = .ok [5, 3] ∧
    (removeAt 1 ⟨Demo.buf, []⟩).2.cb.contents = .ok [3, 5] :=
  ⟨buf_reachable, buf_contents, by decide +kernel, by decide +kernel⟩
open Demo in
example : Reachable (step .popFront ⟨Demo.buf, []⟩).2.cb ∧
    (step .popFront ⟨Demo.buf, []⟩).2.cb.contents = .ok ([4] ++ [5]) ∧
    (step .popFront ⟨Demo.buf, []⟩).2.cb.capacity = .ok 3 ∧ ([4] ++ [5]).length < 3 ∧
    (insertAt 1 7 (step .popFront ⟨Demo.buf, []⟩).2).2.cb.contents = .ok [4, 7, 5] :=
  ⟨.step _ _ buf_reachable trivial, by decide +kernel, by decide +kernel, by decide, by decide +kernel⟩

end CB
