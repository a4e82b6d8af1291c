import Verif.CB.SpecIter
import Verif.CB.Props
/-!
# C124: iterator methods beyond `next` and `next_back`
-/

open Rust
namespace CB

section
variable {β : Type}

/-! ## helper lemmas -/

theorem chain_next (c : Chain β) : c.next.1 = c.fold[0]? ∧ c.next.2.fold = c.fold.drop 1 := by
  obtain ⟨a, b⟩ := c
  rcases a with _ | _ | ⟨x, a⟩ <;> rcases b with _ | _ | ⟨y, b⟩ <;> simp [Chain.next, Chain.fold]

theorem chain_nextBack (c : Chain β) :
    c.nextBack.1 = c.fold.reverse[0]? ∧ c.nextBack.2.fold = (c.fold.reverse.drop 1).reverse := by
  obtain ⟨a, b⟩ := c
  have e : ∀ l : Option (List β), l = none ∨ l = some [] ∨ ∃ k x, l = some (k ++ [x]) := by
    intro l
    rcases l with _ | l
    · exact .inl rfl
    · rcases List.eq_nil_or_concat l with rfl | ⟨k, x, rfl⟩
      · exact .inr (.inl rfl)
      · exact .inr (.inr ⟨k, x, by simp⟩)
  rcases e a with rfl | rfl | ⟨k, x, rfl⟩ <;> rcases e b with rfl | rfl | ⟨m, y, rfl⟩ <;>
    simp [Chain.nextBack, Chain.fold]

theorem sliceNth_eq (n : Nat) (l : List β) : Chain.sliceNth n l = (l[n]?, l.drop (n + 1)) := by
  unfold Chain.sliceNth
  split
  · rw [List.getElem?_eq_none (by omega), List.drop_eq_nil_of_le (by omega)]
  · rfl

theorem sliceNthBack_eq (n : Nat) (l : List β) :
    Chain.sliceNthBack n l = (l.reverse[n]?, (l.reverse.drop (n + 1)).reverse) := by
  unfold Chain.sliceNthBack
  split
  · rw [List.getElem?_eq_none (by simpa using by omega), List.drop_eq_nil_of_le (by simpa using by omega)]
    rfl
  · rw [List.getElem?_reverse (by omega), List.drop_reverse, List.reverse_reverse]
    simp only [Prod.mk.injEq, true_and]
    congr 1
    omega

theorem chain_nthB (n : Nat) (b : Option (List β)) : (Chain.nthB n ⟨none, b⟩).1 = (b.getD [])[n]? ∧
    (Chain.nthB n ⟨none, b⟩).2.fold = (b.getD []).drop (n + 1) := by
  rcases b with _ | b
  · simp [Chain.nthB, Chain.fold]
  · simp only [Chain.nthB, Chain.fold, sliceNth_eq, Option.getD]
    exact ⟨trivial, rfl⟩

theorem chain_nthBackA (n : Nat) (a : Option (List β)) : (Chain.nthBackA n ⟨a, none⟩).1 = (a.getD []).reverse[n]? ∧
    (Chain.nthBackA n ⟨a, none⟩).2.fold = ((a.getD []).reverse.drop (n + 1)).reverse := by
  rcases a with _ | a
  · simp [Chain.nthBackA, Chain.fold]
  · simp only [Chain.nthBackA, Chain.fold, sliceNthBack_eq, Option.getD, List.append_nil, and_self]

theorem chain_nth (n : Nat) (c : Chain β) : (c.nth n).1 = c.fold[n]? ∧ (c.nth n).2.fold = c.fold.drop (n + 1) := by
  obtain ⟨a, b⟩ := c
  rcases a with _ | a
  · exact chain_nthB n b
  · by_cases hn : n < a.length
    · have e : Chain.sliceAdvance n a = (0, a[n] :: a.drop (n + 1)) := by
        rw [Chain.sliceAdvance, Nat.min_eq_right (by omega), Nat.sub_self, List.drop_eq_getElem_cons hn]
      simp only [Chain.nth, e, Chain.fold, Option.getD]
      rw [List.getElem?_append_left hn, List.getElem?_eq_getElem hn, List.drop_append_of_le_length (by omega)]
      exact ⟨rfl, rfl⟩
    · have e : Chain.sliceAdvance n a = (n - a.length, []) := by
        rw [Chain.sliceAdvance, Nat.min_eq_left (by omega), List.drop_length]
      have e' : Chain.nth n ⟨some a, b⟩ = Chain.nthB (n - a.length) ⟨none, b⟩ := by
        simp only [Chain.nth, e]
        split
        · rename_i h; exact absurd (congrArg Prod.snd h) (by simp)
        · rename_i h; rw [show n - a.length = _ from congrArg Prod.fst h]
      have h := chain_nthB (n - a.length) b
      rw [e', h.1, h.2]
      change _ = (a ++ b.getD [])[n]? ∧ _ = (a ++ b.getD []).drop (n + 1)
      rw [List.getElem?_append_right (by omega), List.drop_append, List.drop_eq_nil_of_le (as := a) (by omega),
        List.nil_append, Nat.sub_add_comm (by omega)]
      exact ⟨rfl, rfl⟩

theorem chain_nthBack (n : Nat) (c : Chain β) :
    (c.nthBack n).1 = c.fold.reverse[n]? ∧ (c.nthBack n).2.fold = (c.fold.reverse.drop (n + 1)).reverse := by
  obtain ⟨a, b⟩ := c
  rcases b with _ | b
  · have h := chain_nthBackA n a
    simp only [Chain.nthBack]
    rw [h.1, h.2]
    simp [Chain.fold]
  · by_cases hn : n < b.length
    · have e : Chain.sliceAdvanceBack n b = (0, b.take (b.length - n)) := by
        rw [Chain.sliceAdvanceBack, Nat.min_eq_right (by omega), Nat.sub_self]
      have e1 : (b.take (b.length - n)).getLast? = some b[b.length - n - 1] := by
        rw [List.getLast?_eq_getElem?, List.length_take, Nat.min_eq_left (by omega), List.getElem?_take_of_lt (by omega),
          List.getElem?_eq_getElem (by omega)]
      simp only [Chain.nthBack, e, e1, Chain.fold, Option.getD, List.reverse_append]
      rw [List.getElem?_append_left (by simpa using hn), List.getElem?_reverse hn,
        List.drop_append_of_le_length (by rw [List.length_reverse]; omega),
        List.reverse_append, List.reverse_reverse, List.drop_reverse, List.reverse_reverse, List.dropLast_eq_take,
        List.take_take, List.length_take, Nat.min_eq_left (by omega), Nat.min_eq_left (by omega)]
      constructor
      · rw [List.getElem?_eq_getElem (by omega)]
        congr 2
        omega
      · rfl
    · have e : Chain.sliceAdvanceBack n b = (n - b.length, []) := by
        rw [Chain.sliceAdvanceBack, Nat.min_eq_left (by omega), Nat.sub_self, List.take_zero]
      have e' : Chain.nthBack n ⟨a, some b⟩ = Chain.nthBackA (n - b.length) ⟨a, none⟩ := by
        rcases hk : n - b.length with _ | k
        · simp only [Chain.nthBack, e, hk, List.getLast?_nil]
        · simp only [Chain.nthBack, e, hk]
      have h := chain_nthBackA (n - b.length) a
      rw [e', h.1, h.2]
      change _ = (a.getD [] ++ b).reverse[n]? ∧ _ = ((a.getD [] ++ b).reverse.drop (n + 1)).reverse
      rw [List.reverse_append, List.getElem?_append_right (by rw [List.length_reverse]; omega), List.drop_append,
        List.drop_eq_nil_of_le (as := b.reverse) (by rw [List.length_reverse]; omega), List.nil_append,
        List.length_reverse, Nat.sub_add_comm (by omega)]
      exact ⟨rfl, rfl⟩

variable [Cfg]

theorem chain_sizeHint {c : Chain β} (h : c.fold.length ≤ usizeMax) :
    c.sizeHint = (c.fold.length, some c.fold.length) := by
  obtain ⟨a, b⟩ := c
  rcases a with _ | a <;> rcases b with _ | b
  · rfl
  · rfl
  · simp [Chain.sizeHint, Chain.fold]
  · simp only [Chain.fold, Option.getD, List.length_append] at h
    simp only [Chain.sizeHint, Chain.fold, Option.getD, List.length_append, if_pos h, Nat.min_eq_left h]

theorem chain_count {c : Chain β} (h : c.fold.length ≤ usizeMax) : c.count = .ok c.fold.length := by
  obtain ⟨a, b⟩ := c
  rcases a with _ | a <;> rcases b with _ | b <;>
    (simp only [Chain.fold, Option.getD, List.length_append, List.length_nil] at h
     simp only [Chain.count, Chain.fold, Option.getD, Option.elim, List.length_append, List.length_nil]
     exact uadd_ok h)

omit [Cfg] in
theorem chain_last (c : Chain β) : c.last = c.fold.getLast? := by
  obtain ⟨a, b⟩ := c
  rcases a with _ | a <;> rcases b with _ | b <;>
    simp [Chain.last, Chain.fold, List.getLast?_append]

omit [Cfg] in
theorem chain_rfold (c : Chain β) : c.rfold = c.fold.reverse := by
  simp [Chain.rfold, Chain.fold]

theorem chain_call (k : ICall) {c : Chain β} (h : c.fold.length ≤ usizeMax) :
    (k.chain c).1 = (k.ideal c.fold).1 ∧ (k.chain c).2.fold = (k.ideal c.fold).2 := by
  cases k with
  | next => exact ⟨congrArg _ (chain_next c).1, (chain_next c).2⟩
  | nextBack => exact ⟨congrArg _ (chain_nextBack c).1, (chain_nextBack c).2⟩
  | nth n => exact ⟨congrArg _ (chain_nth n c).1, (chain_nth n c).2⟩
  | nthBack n => exact ⟨congrArg _ (chain_nthBack n c).1, (chain_nthBack n c).2⟩
  | sizeHint => simp only [ICall.chain, ICall.ideal, chain_sizeHint h, and_self]

omit [Cfg] in
theorem ideal_length (k : ICall) (l : List β) : (k.ideal l).2.length ≤ l.length := by
  cases k <;> simp [ICall.ideal]

theorem chain_calls (ks : List ICall) : ∀ {c : Chain β}, c.fold.length ≤ usizeMax →
    (callAll ICall.chain ks c).1 = (callAll ICall.ideal ks c.fold).1 ∧
    (callAll ICall.chain ks c).2.fold = (callAll ICall.ideal ks c.fold).2 ∧
    (callAll ICall.chain ks c).2.fold.length ≤ usizeMax := by
  induction ks with
  | nil => exact fun h => ⟨rfl, rfl, h⟩
  | cons k ks ih =>
    intro c h
    obtain ⟨h1, h2⟩ := chain_call k h
    obtain ⟨i1, i2, i3⟩ := ih (c := (k.chain c).2) (by rw [h2]; exact Nat.le_trans (ideal_length k _) h)
    simp only [callAll]
    rw [i1, i2, h1, h2]
    exact ⟨rfl, rfl, by rw [← h2, ← i2]; exact i3⟩

end

section
variable {α : Type} [Cfg] [Elem α] {cb : Buf α} {xs : List α} {n : Nat}

theorem content_le (h : Reachable cb) (hx : cb.contents = .ok xs) : xs.length ≤ usizeMax := by
  obtain ⟨xs', n, hx', hn, hl, r⟩ := h.shows
  rw [hx] at hx'; cases hx'
  have h1 : xs.length ≤ n := r.le_cap
  have h2 := two_isizeMax
  rcases r.cap_lt with h3 | h3
  · have : n ≤ isizeMax := h3
    omega
  · have : n < usizeMax := h3.2.2
    omega

omit [Cfg] [Elem α] in
theorem places_length {γ δ : Type} (f : γ → Except Fault δ) : ∀ (l : List γ) {r : List δ}, l.mapM f = .ok r →
    l.length = r.length
  | [], r, h => by cases h; rfl
  | x :: l, r, h => by
    rw [List.mapM_cons] at h
    cases hx : f x with
    | error e => rw [hx] at h; cases h
    | ok y =>
      rw [hx] at h
      cases hl : l.mapM f with
      | error e => simp only [hl] at h; cases h
      | ok ys =>
        simp only [hl] at h
        cases h
        simp [places_length f l hl]

open Spec in
theorem drainAdvance_calm (n : Nat) : ∀ {s : St α} {d : Deque α}, Rep s.cb d → Calm (d.items.take n) →
    ∃ cb', drainAdvance n s = (.ok (decide (n ≤ d.items.length)), ⟨cb', s.dropped ++ d.items.take n⟩) ∧
      Rep cb' { d with items := d.items.drop n } := by
  induction n with
  | zero => exact fun {s d} h _ => ⟨s.cb, by simp [drainAdvance, M.pure_run], by simpa using h⟩
  | succ n ih =>
    intro s d h hc
    obtain ⟨cb1, e1, r1⟩ := popFront_sim h
    unfold drainAdvance drainNext
    rw [M.bind_ok e1]
    cases hd : d.items with
    | nil => exact ⟨cb1, by simp [M.pure_run], by simpa [hd] using r1⟩
    | cons x xs =>
      simp only [hd, List.tail_cons, List.head?_cons, List.take_succ_cons, List.drop_succ_cons] at r1 hc ⊢
      have hp : Elem.dropPanics x = false := hc x List.mem_cons_self
      rw [M.bind_ok (a := ()) (s' := ⟨cb1, s.dropped ++ [x]⟩) (by rw [dropVal_run]; simp [Spec.userIf, hp])]
      obtain ⟨cb2, e2, r2⟩ := ih (s := ⟨cb1, s.dropped ++ [x]⟩) r1 fun y hy => hc y (List.mem_cons_of_mem _ hy)
      exact ⟨cb2, by rw [e2]; simp, r2⟩

open Spec in
theorem drainAdvance_panic {x : α} {post : List α} (hp : Elem.dropPanics x = true) : ∀ (pre : List α) {n : Nat}
    {s : St α} {c : Nat}, Rep s.cb ⟨c, pre ++ x :: post⟩ → Calm pre → pre.length < n →
    ∃ cb', drainAdvance n s = (.error .user, ⟨cb', s.dropped ++ pre ++ [x]⟩) ∧ Rep cb' ⟨c, post⟩
  | [], 0, _, _, _, _, hn => by simp at hn
  | _ :: _, 0, _, _, _, _, hn => by simp at hn
  | [], n + 1, s, c, h, _, _ => by
    obtain ⟨cb1, e1, r1⟩ := popFront_sim h
    unfold drainAdvance drainNext
    rw [M.bind_ok e1]
    exact ⟨cb1, by
      simp only [List.nil_append, List.head?_cons]
      rw [M.bind_error (e := .user) (s' := ⟨cb1, s.dropped ++ [x]⟩) (by rw [dropVal_run]; simp [Spec.userIf, hp])]
      simp, r1⟩
  | y :: pre, n + 1, s, c, h, hc, hn => by
    obtain ⟨cb1, e1, r1⟩ := popFront_sim h
    unfold drainAdvance drainNext
    rw [M.bind_ok e1]
    have hy : Elem.dropPanics y = false := hc y List.mem_cons_self
    obtain ⟨cb2, e2, r2⟩ := drainAdvance_panic hp pre (n := n) (s := ⟨cb1, s.dropped ++ [y]⟩) r1
      (fun z hz => hc z (List.mem_cons_of_mem _ hz)) (by simpa using hn)
    refine ⟨cb2, ?_, r2⟩
    simp only [List.cons_append, List.head?_cons]
    rw [M.bind_ok (a := ()) (s' := ⟨cb1, s.dropped ++ [y]⟩) (by rw [dropVal_run]; simp [Spec.userIf, hy]), e2]
    simp

open Spec in
theorem drainCountLoop_calm : ∀ (fuel k : Nat) {s : St α} {d : Deque α}, Rep s.cb d → d.items.length < fuel →
    k + d.items.length ≤ usizeMax → Calm d.items →
    ∃ cb', drainCountLoop fuel k s = (.ok (k + d.items.length), ⟨cb', s.dropped ++ d.items⟩) ∧
      Rep cb' { d with items := [] }
  | 0, _, _, _, _, hf, _, _ => by omega
  | fuel + 1, k, s, d, h, hf, hk, hc => by
    obtain ⟨cb1, e1, r1⟩ := popFront_sim h
    unfold drainCountLoop drainNext
    rw [M.bind_ok e1]
    cases hd : d.items with
    | nil => exact ⟨cb1, by simp [M.pure_run], by simpa [hd] using r1⟩
    | cons x xs =>
      simp only [hd, List.tail_cons, List.head?_cons, List.length_cons] at r1 hf hk hc ⊢
      have hp : Elem.dropPanics x = false := hc x List.mem_cons_self
      rw [M.bind_ok (a := ()) (s' := ⟨cb1, s.dropped ++ [x]⟩) (by rw [dropVal_run]; simp [Spec.userIf, hp]),
        lift_bind _ (uadd_ok (by omega))]
      obtain ⟨cb2, e2, r2⟩ := drainCountLoop_calm fuel (k + 1) (s := ⟨cb1, s.dropped ++ [x]⟩) r1 (by simpa using by omega)
        (by simpa using by omega) fun y hy => hc y (List.mem_cons_of_mem _ hy)
      refine ⟨cb2, ?_, r2⟩
      rw [e2]
      simp only [List.append_assoc, List.singleton_append, Prod.mk.injEq, and_true, Except.ok.injEq]
      omega

open Spec in
theorem drainCountLoop_panic {x : α} {post : List α} (hp : Elem.dropPanics x = true) : ∀ (pre : List α) (fuel k : Nat)
    {s : St α} {c : Nat}, Rep s.cb ⟨c, pre ++ x :: post⟩ → Calm pre → pre.length < fuel →
    k + pre.length ≤ usizeMax →
    ∃ cb', drainCountLoop fuel k s = (.error .user, ⟨cb', s.dropped ++ pre ++ [x]⟩) ∧ Rep cb' ⟨c, post⟩
  | [], 0, _, _, _, _, _, hn, _ => by simp at hn
  | _ :: _, 0, _, _, _, _, _, hn, _ => by simp at hn
  | [], n + 1, k, s, c, h, _, _, _ => by
    obtain ⟨cb1, e1, r1⟩ := popFront_sim h
    unfold drainCountLoop drainNext
    rw [M.bind_ok e1]
    exact ⟨cb1, by
      simp only [List.nil_append, List.head?_cons]
      rw [M.bind_error (e := .user) (s' := ⟨cb1, s.dropped ++ [x]⟩) (by rw [dropVal_run]; simp [Spec.userIf, hp])]
      simp, r1⟩
  | y :: pre, n + 1, k, s, c, h, hc, hn, hk => by
    obtain ⟨cb1, e1, r1⟩ := popFront_sim h
    unfold drainCountLoop drainNext
    rw [M.bind_ok e1]
    have hy : Elem.dropPanics y = false := hc y List.mem_cons_self
    rw [List.length_cons] at hn hk
    obtain ⟨cb2, e2, r2⟩ := drainCountLoop_panic hp pre n (k + 1) (s := ⟨cb1, s.dropped ++ [y]⟩) r1
      (fun z hz => hc z (List.mem_cons_of_mem _ hz)) (by omega) (by omega)
    refine ⟨cb2, ?_, r2⟩
    simp only [List.cons_append, List.head?_cons]
    rw [M.bind_ok (a := ()) (s' := ⟨cb1, s.dropped ++ [y]⟩) (by rw [dropVal_run]; simp [Spec.userIf, hy]),
      lift_bind _ (uadd_ok (by omega)), e2]
    simp

open Spec in
theorem drainLastLoop_calm : ∀ (fuel : Nat) (last : Option α) {s : St α} {d : Deque α}, Rep s.cb d →
    d.items.length < fuel → Calm (last.toList ++ d.items) →
    ∃ cb', drainLastLoop fuel last s = (.ok (last.toList ++ d.items).getLast?,
        ⟨cb', s.dropped ++ (last.toList ++ d.items).dropLast⟩) ∧
      Rep cb' { d with items := [] }
  | 0, _, _, _, _, hf, _ => by omega
  | fuel + 1, last, s, d, h, hf, hc => by
    obtain ⟨cb1, e1, r1⟩ := popFront_sim h
    unfold drainLastLoop drainNext
    rw [M.bind_ok e1]
    cases hd : d.items with
    | nil => exact ⟨cb1, by cases last <;> simp [M.pure_run], by simpa [hd] using r1⟩
    | cons x xs =>
      simp only [hd, List.tail_cons, List.head?_cons, List.length_cons] at r1 hf hc ⊢
      obtain ⟨cb2, e2, r2⟩ := drainLastLoop_calm fuel (some x) (s := ⟨cb1, s.dropped ++ last.toList⟩) r1
        (by simpa using by omega) fun y hy => hc y (List.mem_append_right _ hy)
      refine ⟨cb2, ?_, r2⟩
      rw [M.bind_ok (a := ()) (s' := ⟨cb1, s.dropped ++ last.toList⟩), e2]
      · cases last <;> simp
      · cases last with
        | none => simp [dropOpt, M.pure_run]
        | some y =>
          have hy : Elem.dropPanics y = false := hc y (by simp)
          simp only [dropOpt]
          rw [dropVal_run]
          simp [Spec.userIf, hy]

open Spec in
theorem drainForLoop_sim (f : List α → α → Except Fault Bool) : ∀ (fuel : Nat) {s : St α × List α} {d : Deque α},
    Rep s.1.cb d → d.items.length < fuel →
    ∃ k cb' r, drainForLoop f fuel s = (r, (⟨cb', s.1.dropped⟩, s.2 ++ d.items.take k)) ∧
      Rep cb' { d with items := d.items.drop k } ∧
      (∀ i v, i + 1 < k → d.items[i]? = some v → f (s.2 ++ d.items.take i) v = .ok true) ∧
      (k = d.items.length ∧ r = .ok () ∧ (∀ i v, d.items[i]? = some v → f (s.2 ++ d.items.take i) v = .ok true) ∨
        ∃ i v, k = i + 1 ∧ d.items[i]? = some v ∧ (f (s.2 ++ d.items.take i) v = .ok false ∧ r = .ok () ∨
          ∃ e, f (s.2 ++ d.items.take i) v = .error e ∧ r = .error e))
  | 0, _, _, _, hf => by omega
  | fuel + 1, s, d, h, hf => by
    obtain ⟨cb1, e1, r1⟩ := popFront_sim h
    have e0 : onBuffer drainNext s = (.ok d.items.head?, (⟨cb1, s.1.dropped⟩, s.2)) := by
      unfold onBuffer drainNext
      rw [e1]
    unfold drainForLoop
    rw [M.bind_ok e0]
    cases hd : d.items with
    | nil => exact ⟨0, cb1, .ok (), by simp [M.pure_run], by simpa [hd] using r1, by simp, .inl (by simp)⟩
    | cons x xs =>
      simp only [hd, List.tail_cons, List.head?_cons, List.length_cons] at r1 hf ⊢
      rw [M.bind_ok (m := M.get) (s := ((⟨cb1, s.1.dropped⟩ : St α), s.2)) rfl,
        M.bind_ok (m := M.modify _) (s := ((⟨cb1, s.1.dropped⟩ : St α), s.2)) rfl]
      cases hx : f s.2 x with
      | error e =>
        refine ⟨1, cb1, .error e, ?_, r1, fun i v hi => by omega,
          .inr ⟨0, x, rfl, rfl, .inr ⟨e, by simpa using hx, rfl⟩⟩⟩
        rw [M.bind_error (m := M.lift (Except.error e)) rfl]
        rfl
      | ok b =>
        rw [M.bind_ok (m := M.lift (Except.ok b)) rfl]
        cases b with
        | false =>
          exact ⟨1, cb1, .ok (), rfl, r1, fun i v hi => by omega,
            .inr ⟨0, x, rfl, rfl, .inl ⟨by simpa using hx, rfl⟩⟩⟩
        | true =>
          obtain ⟨k, cb2, r, g1, g2, g3, g4⟩ := drainForLoop_sim f fuel (s := (⟨cb1, s.1.dropped⟩, s.2 ++ [x])) r1
            (by simpa using by omega)
          have push : ∀ i, s.2 ++ [x] ++ xs.take i = s.2 ++ (x :: xs).take (i + 1) := by simp
          refine ⟨k + 1, cb2, r, by simp only [if_true]; rw [g1, push], g2, ?_, ?_⟩
          · intro i v hi hv
            cases i with
            | zero =>
              obtain rfl : x = v := by simpa using hv
              simpa using hx
            | succ i => rw [← push]; exact g3 i v (by omega) (by simpa using hv)
          · rcases g4 with ⟨g4, g5, g6⟩ | ⟨i, v, g4, g5, g6⟩
            · refine .inl ⟨by simpa using g4, g5, fun i v hv => ?_⟩
              cases i with
              | zero =>
                obtain rfl : x = v := by simpa using hv
                simpa using hx
              | succ i => rw [← push]; exact g6 i v (by simpa using hv)
            · refine .inr ⟨i + 1, v, by omega, by simpa using g5, ?_⟩
              rw [← push]
              exact g6

/-! ## the property -/

/-- **C124 (`iter`).** Whatever is called on `iter()`, one after the other (`next`, `next_back`, `nth`, `nth_back`,
`size_hint`), it behaves like an iterator over the content front to back, although it is made of two slices: `size_hint` is
exact, and afterwards `count`, `last`, `fold` and `rfold` see exactly what is left. -/
theorem c124_iter (h : Reachable cb) (hx : cb.contents = .ok xs) (ks : List ICall) :
    ∃ c, cb.chain = .ok c ∧ (callAll ICall.chain ks c).1 = (callAll ICall.ideal ks xs).1 ∧
      (callAll ICall.chain ks c).2.count = .ok (callAll ICall.ideal ks xs).2.length ∧
      (callAll ICall.chain ks c).2.last = (callAll ICall.ideal ks xs).2.getLast? ∧
      (callAll ICall.chain ks c).2.fold = (callAll ICall.ideal ks xs).2 ∧
      (callAll ICall.chain ks c).2.rfold = (callAll ICall.ideal ks xs).2.reverse := by
  obtain ⟨it, hit, hc⟩ := iter_collect h hx
  have e : cb.chain = .ok ⟨some it.a, some it.b⟩ := by
    unfold Buf.iter at hit
    unfold Buf.chain
    cases hs : cb.slices with
    | error e => rw [hs] at hit; cases hit
    | ok p =>
      rw [hs] at hit
      cases hit
      rfl
  have hf : (⟨some it.a, some it.b⟩ : Chain α).fold = xs := hc
  obtain ⟨h1, h2, h3⟩ := chain_calls ks (c := ⟨some it.a, some it.b⟩) (by rw [hf]; exact content_le h hx)
  rw [hf] at h1 h2
  refine ⟨_, e, h1, ?_, ?_, h2, ?_⟩
  · rw [chain_count h3, h2]
  · rw [chain_last, h2]
  · rw [chain_rfold, h2]

/-- **C124 (`iter_mut`).** The same for `iter_mut()`: the places it works on are distinct and hold the content front to
back. -/
theorem c124_iter_mut (h : Reachable cb) (hx : cb.contents = .ok xs) (ks : List ICall) :
    ∃ c places, cb.chainMut = .ok c ∧ places.Nodup ∧ readAll cb places = .ok xs ∧
      (callAll ICall.chain ks c).1 = (callAll ICall.ideal ks places).1 ∧
      (callAll ICall.chain ks c).2.count = .ok (callAll ICall.ideal ks places).2.length ∧
      (callAll ICall.chain ks c).2.last = (callAll ICall.ideal ks places).2.getLast? ∧
      (callAll ICall.chain ks c).2.fold = (callAll ICall.ideal ks places).2 ∧
      (callAll ICall.chain ks c).2.rfold = (callAll ICall.ideal ks places).2.reverse := by
  obtain ⟨a, b, h1, h2, h3⟩ := (c10_views_agree h hx).2.1
  have e : cb.chainMut = .ok ⟨some (Buf.regionPositions a), some (Buf.regionPositions b)⟩ := by
    unfold Buf.chainMut
    rw [h1]
    rfl
  have hl := places_length _ _ h2
  obtain ⟨g1, g2, g3⟩ := chain_calls ks (c := ⟨some (Buf.regionPositions a), some (Buf.regionPositions b)⟩)
    (by change (Buf.regionPositions a ++ Buf.regionPositions b).length ≤ _; rw [hl]; exact content_le h hx)
  refine ⟨_, Buf.regionPositions a ++ Buf.regionPositions b, e, h3, h2, g1, ?_, ?_, g2, ?_⟩
  · rw [chain_count g3, g2]; rfl
  · rw [chain_last, g2]; rfl
  · rw [chain_rfold, g2]; rfl

/-- **C124 (`drain().nth(n)`).** It drops the first `n` elements and returns the next one, if there is one; the others
stay. -/
theorem c124_drain_nth (h : Reachable cb) (hx : cb.contents = .ok xs) (k : Nat) (hc : Calm (xs.take k)) (dr : List α) :
    ∃ cb', drainNth k ⟨cb, dr⟩ = (.ok xs[k]?, ⟨cb', dr ++ xs.take k⟩) ∧ cb'.contents = .ok (xs.drop (k + 1)) ∧
      cb'.capacity = cb.capacity := by
  obtain ⟨xs', n, hx', hn, hl, r⟩ := h.shows
  rw [hx] at hx'; cases hx'
  obtain ⟨cb1, e1, r1⟩ := drainAdvance_calm k (s := ⟨cb, dr⟩) r hc
  unfold drainNth
  rw [M.bind_ok e1]
  by_cases hk : k ≤ xs.length
  · obtain ⟨cb2, e2, r2⟩ := popFront_sim (s := ⟨cb1, dr ++ xs.take k⟩) r1
    refine ⟨cb2, ?_, ?_, by rw [r2.capacity_eq, hn]⟩
    · rw [decide_eq_true hk, if_pos rfl, drainNext, e2, List.head?_drop]
    · rw [r2.contents_eq, List.tail_drop]
  · refine ⟨cb1, ?_, ?_, by rw [r1.capacity_eq, hn]⟩
    · rw [decide_eq_false hk, if_neg (by simp), List.getElem?_eq_none (by omega)]
      rfl
    · rw [r1.contents_eq]
      change Except.ok (xs.drop k) = _
      rw [List.drop_eq_nil_of_le (by omega), List.drop_eq_nil_of_le (by omega)]

/-- **C124 (`drain().nth(n)`, destructors that panic).** If the destructor of one of the elements to be skipped panics, the
elements behind it stay. -/
theorem c124_drain_nth_panics (h : Reachable cb) {pre post : List α} {x : α} (hx : cb.contents = .ok (pre ++ x :: post))
    (hc : Calm pre) (hp : Elem.dropPanics x = true) {k : Nat} (hk : pre.length < k) (dr : List α) :
    ∃ cb', drainNth k ⟨cb, dr⟩ = (.error .user, ⟨cb', dr ++ pre ++ [x]⟩) ∧ cb'.contents = .ok post ∧
      cb'.capacity = cb.capacity := by
  obtain ⟨xs', n, hx', hn, hl, r⟩ := h.shows
  rw [hx] at hx'; cases hx'
  obtain ⟨cb1, e1, r1⟩ := drainAdvance_panic hp pre (s := ⟨cb, dr⟩) r hc hk
  exact ⟨cb1, by unfold drainNth; rw [M.bind_error e1], r1.contents_eq, by rw [r1.capacity_eq, hn]⟩

/-- **C124 (`drain().count()`).** It returns the number of elements and drops all of them. -/
theorem c124_drain_count (h : Reachable cb) (hx : cb.contents = .ok xs) (hc : Calm xs) (dr : List α) :
    ∃ cb', drainCount ⟨cb, dr⟩ = (.ok xs.length, ⟨cb', dr ++ xs⟩) ∧ cb'.contents = .ok [] ∧
      cb'.capacity = cb.capacity := by
  have hu := content_le h hx
  obtain ⟨xs', n, hx', hn, hl, r⟩ := h.shows
  rw [hx] at hx'; cases hx'
  have h1 : cb.buf.length = n + 1 := r.len_buf
  have h2 : xs.length ≤ n := r.le_cap
  obtain ⟨cb1, e1, r1⟩ := drainCountLoop_calm (cb.buf.length + 1) 0 (s := ⟨cb, dr⟩) r (by simpa using by omega)
    (by simpa using hu) hc
  exact ⟨cb1, by unfold drainCount; rw [e1]; simp, r1.contents_eq, by rw [r1.capacity_eq, hn]⟩

/-- **C124 (`drain().count()`, destructors that panic).** If a destructor panics, the elements behind it stay. -/
theorem c124_drain_count_panics (h : Reachable cb) {pre post : List α} {x : α}
    (hx : cb.contents = .ok (pre ++ x :: post)) (hc : Calm pre) (hp : Elem.dropPanics x = true) (dr : List α) :
    ∃ cb', drainCount ⟨cb, dr⟩ = (.error .user, ⟨cb', dr ++ pre ++ [x]⟩) ∧ cb'.contents = .ok post ∧
      cb'.capacity = cb.capacity := by
  have hu := content_le h hx
  obtain ⟨xs', n, hx', hn, hl, r⟩ := h.shows
  rw [hx] at hx'; cases hx'
  have h1 : cb.buf.length = n + 1 := r.len_buf
  have h2 : (pre ++ x :: post).length ≤ n := r.le_cap
  rw [List.length_append] at hu h2
  obtain ⟨cb1, e1, r1⟩ := drainCountLoop_panic hp pre (cb.buf.length + 1) 0 (s := ⟨cb, dr⟩) r hc (by simpa using by omega)
    (by omega)
  exact ⟨cb1, e1, r1.contents_eq, by rw [r1.capacity_eq, hn]⟩

/-- **C124 (`drain().last()`).** It returns the newest element and drops the others. -/
theorem c124_drain_last (h : Reachable cb) (hx : cb.contents = .ok xs) (hc : Calm xs) (dr : List α) :
    ∃ cb', drainLast ⟨cb, dr⟩ = (.ok xs.getLast?, ⟨cb', dr ++ xs.dropLast⟩) ∧ cb'.contents = .ok [] ∧
      cb'.capacity = cb.capacity := by
  obtain ⟨xs', n, hx', hn, hl, r⟩ := h.shows
  rw [hx] at hx'; cases hx'
  have h1 : cb.buf.length = n + 1 := r.len_buf
  have h2 : xs.length ≤ n := r.le_cap
  obtain ⟨cb1, e1, r1⟩ := drainLastLoop_calm (cb.buf.length + 1) none (s := ⟨cb, dr⟩) r (by simpa using by omega) hc
  exact ⟨cb1, e1, r1.contents_eq, by rw [r1.capacity_eq, hn]⟩

/-- **C124 (a loop over `drain()`).** The body of a `for` loop over `drain()` gets the first elements one after the other,
up to the first for which it leaves the loop or panics. Those are gone, all behind them stay, in order, and the buffer drops
nothing. -/
theorem c124_drain_for (h : Reachable cb) (hx : cb.contents = .ok xs) (f : List α → α → Except Fault Bool) (dr : List α) :
    ∃ k cb' r, drainFor f (⟨cb, dr⟩, []) = (r, (⟨cb', dr⟩, xs.take k)) ∧ cb'.contents = .ok (xs.drop k) ∧
      cb'.capacity = cb.capacity ∧
      (∀ i v, i + 1 < k → xs[i]? = some v → f (xs.take i) v = .ok true) ∧
      (k = xs.length ∧ r = .ok () ∧ (∀ i v, xs[i]? = some v → f (xs.take i) v = .ok true) ∨
        ∃ i v, k = i + 1 ∧ xs[i]? = some v ∧ (f (xs.take i) v = .ok false ∧ r = .ok () ∨
          ∃ e, f (xs.take i) v = .error e ∧ r = .error e)) := by
  obtain ⟨xs', n, hx', hn, hl, r⟩ := h.shows
  rw [hx] at hx'; cases hx'
  have h1 : cb.buf.length = n + 1 := r.len_buf
  have h2 : xs.length ≤ n := r.le_cap
  obtain ⟨k, cb1, r', g1, g2, g3, g4⟩ := drainForLoop_sim f (cb.buf.length + 1) (s := (⟨cb, dr⟩, [])) r
    (by simpa using by omega)
  exact ⟨k, cb1, r', by unfold drainFor; rw [g1]; rfl, g2.contents_eq, by rw [g2.capacity_eq, hn], g3, g4⟩

end

open Demo in
example : Reachable Demo.buf ∧ Demo.buf.contents = .ok [3, 4, 5] ∧ Calm [3, 4, 5] ∧
    Demo.buf.slices = .ok ([3, 4], [5]) ∧
    (callAll ICall.ideal [.nthBack 0, .sizeHint, .nth 1, .next] [3, 4, 5]).1
      = [.item (some 5), .hint 2 (some 2), .item (some 4), .item none] :=
  ⟨buf_reachable, buf_contents, by unfold Calm; decide, rfl, rfl⟩
open Demo in
example : Reachable bomb ∧ bomb.contents = .ok ([] ++ 13 :: [4, 5]) ∧ Elem.dropPanics 13 = true :=
  ⟨bomb_reachable, bomb_contents, rfl⟩
open Demo in
example : (drainFor (fun _ v => .ok (v != 4)) (⟨Demo.buf, []⟩, [])).2.2 = [3, 4] ∧
    (drainFor (fun _ v => .ok (v != 4)) (⟨Demo.buf, []⟩, [])).2.1.cb.contents = .ok [5] := ⟨rfl, rfl⟩

end CB
