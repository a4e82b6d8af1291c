import Verif.CB.Ledger
/-!
# Helper lemmas: iterators, comparison, repeated calls; a demo buffer
-/

set_option linter.unusedSectionVars false

open Rust
namespace CB
open Spec (Deque)

variable {α : Type}

/-! ## Double-ended iteration -/

/-- One call on a double-ended iterator: `next` or `next_back`. -/
inductive End where
  | front
  | back
deriving DecidableEq, Repr

/-- Runs calls on an iterator, returning what each call returned and the iterator left. -/
def Iter.calls {β : Type} : List End → Iter β → List (Option β) × Iter β
  | [], it => ([], it)
  | .front :: es, it => let (r, it') := it.next; let (rs, it'') := Iter.calls es it'; (r :: rs, it'')
  | .back :: es, it => let (r, it') := it.nextBack; let (rs, it'') := Iter.calls es it'; (r :: rs, it'')

/-- What the calls at one end yielded, in order. -/
def yielded {β : Type} (e : End) : List End → List (Option β) → List β
  | e' :: es, some v :: rs => if e' = e then v :: yielded e es rs else yielded e es rs
  | _ :: es, none :: rs => yielded e es rs
  | _, _ => []

theorem Iter.next_collect {β : Type} (it : Iter β) :
    it.next.1 = it.collect.head? ∧ it.next.2.collect = it.collect.tail := by
  rcases it with ⟨a, b⟩
  cases a with
  | cons x xs => simp [Iter.next, Iter.collect]
  | nil => cases b <;> simp [Iter.next, Iter.collect]

theorem Iter.nextBack_collect {β : Type} (it : Iter β) :
    it.nextBack.1 = it.collect.getLast? ∧ it.nextBack.2.collect = it.collect.dropLast := by
  rcases it with ⟨a, b⟩
  rcases List.eq_nil_or_concat b with hb | ⟨ys, y, hb⟩
  · subst hb
    rcases List.eq_nil_or_concat a with ha | ⟨xs, x, ha⟩
    · subst ha; simp [Iter.nextBack, Iter.collect]
    · rw [List.concat_eq_append] at ha; subst ha; simp [Iter.nextBack, Iter.collect]
  · rw [List.concat_eq_append] at hb; subst hb
    simp [Iter.nextBack, Iter.collect, ← List.append_assoc]

theorem Iter.calls_spec {β : Type} (es : List End) : ∀ (it : Iter β),
    yielded .front es (it.calls es).1 ++ (it.calls es).2.collect ++
        (yielded .back es (it.calls es).1).reverse = it.collect ∧
    (it.calls es).1.length = es.length ∧
    (none ∈ (it.calls es).1 → (it.calls es).2.collect = []) := by
  induction es with
  | nil => intro it; simp [Iter.calls, yielded]
  | cons e es ih =>
    intro it
    cases e with
    | front =>
      obtain ⟨h1, h2⟩ := it.next_collect
      obtain ⟨i1, i2, i3⟩ := ih it.next.2
      simp only [Iter.calls]
      rw [h1] 
      cases hc : it.collect with
      | nil =>
        rw [h2, hc] at i1
        simp only [List.tail_nil, List.append_eq_nil_iff] at i1
        simp [yielded, i1, i2]
      | cons x xs =>
        rw [h2, hc] at i1
        simp only [List.tail_cons, List.append_assoc] at i1
        refine ⟨?_, by simp [i2], ?_⟩
        · simp [yielded, i1]
        · intro hn; simp at hn; exact i3 hn
    | back =>
      obtain ⟨h1, h2⟩ := it.nextBack_collect
      obtain ⟨i1, i2, i3⟩ := ih it.nextBack.2
      simp only [Iter.calls]
      rw [h1]
      rcases List.eq_nil_or_concat it.collect with hc | ⟨xs, x, hc⟩
      · rw [h2, hc] at i1
        simp only [List.dropLast_nil, List.append_eq_nil_iff] at i1
        rw [hc]
        simp [yielded, i1, i2]
      · rw [List.concat_eq_append] at hc
        rw [h2, hc] at i1
        have hla : (xs ++ [x]).getLast? = some x := by simp
        rw [hc, hla]
        simp only [List.dropLast_concat] at i1
        refine ⟨?_, by simp [i2], ?_⟩
        · simp only [yielded, reduceCtorEq, if_false, if_true, List.reverse_cons]
          rw [← List.append_assoc, i1]
        · intro hn; simp at hn; exact i3 hn

/-! ## Comparison -/

/-- Two sequences of the same length whose elements are related pairwise. -/
def Pairwise2 {β : Type} (R : α → β → Prop) (xs : List α) (ys : List β) : Prop :=
  xs.length = ys.length ∧ ∀ (i : Nat) x y, xs[i]? = some x → ys[i]? = some y → R x y

theorem Pairwise2.nil {β : Type} {R : α → β → Prop} : Pairwise2 R [] [] := ⟨rfl, by simp⟩

theorem Pairwise2.cons_iff {β : Type} {R : α → β → Prop} {x : α} {xs : List α} {y : β} {ys : List β} :
    Pairwise2 R (x :: xs) (y :: ys) ↔ R x y ∧ Pairwise2 R xs ys := by
  unfold Pairwise2
  constructor
  · rintro ⟨h1, h2⟩
    exact ⟨h2 0 x y rfl rfl, by simpa using h1, fun i a b ha hb => h2 (i + 1) a b (by simpa using ha) (by simpa using hb)⟩
  · rintro ⟨h1, h2, h3⟩
    refine ⟨by simpa using h2, ?_⟩
    intro i a b ha hb
    cases i with
    | zero => simp at ha hb; subst ha; subst hb; exact h1
    | succ i => exact h3 i a b (by simpa using ha) (by simpa using hb)

theorem Pairwise2.cons_nil {β : Type} {R : α → β → Prop} {x : α} {xs : List α} :
    ¬ Pairwise2 R (x :: xs) ([] : List β) := by rintro ⟨h, _⟩; simp at h
theorem Pairwise2.nil_cons {β : Type} {R : α → β → Prop} {y : β} {ys : List β} :
    ¬ Pairwise2 R ([] : List α) (y :: ys) := by rintro ⟨h, _⟩; simp at h

theorem iterEq_iff {β : Type} (e : α → β → Bool) : ∀ (xs : List α) (ys : List β),
    iterEq e xs ys = true ↔ Pairwise2 (fun x y => e x y = true) xs ys
  | [], [] => by simp [iterEq, Pairwise2.nil]
  | [], y :: ys => by simp [iterEq, Pairwise2.nil_cons]
  | x :: xs, [] => by simp [iterEq, Pairwise2.cons_nil]
  | x :: xs, y :: ys => by
    rw [Pairwise2.cons_iff, ← iterEq_iff e xs ys]
    rw [iterEq]
    cases e x y <;> simp

/-- Lexicographic comparison: at the first position where the elements do not compare equal the outcome
is `o`, or one sequence is a proper prefix of the other and `o` says so. -/
def LexOutcome {γ : Type} (c : α → α → γ) (eq lt gt o : γ) (xs ys : List α) : Prop :=
  (∃ p q x y r s, xs = p ++ x :: r ∧ ys = q ++ y :: s ∧ Pairwise2 (fun a b => c a b = eq) p q ∧
    c x y = o ∧ o ≠ eq) ∨
  (∃ q y s, ys = q ++ y :: s ∧ Pairwise2 (fun a b => c a b = eq) xs q ∧ o = lt) ∨
  (∃ p x r, xs = p ++ x :: r ∧ Pairwise2 (fun a b => c a b = eq) p ys ∧ o = gt) ∨
  (Pairwise2 (fun a b => c a b = eq) xs ys ∧ o = eq)

theorem lexOutcome_nil_nil {γ : Type} {c : α → α → γ} {eq lt gt o : γ} :
    LexOutcome c eq lt gt o [] [] ↔ o = eq := by
  constructor
  · rintro (⟨p, q, x, y, r, s, h, _⟩ | ⟨q, y, s, h, _⟩ | ⟨p, x, r, h, _⟩ | ⟨_, h⟩)
    · simp at h
    · simp at h
    · simp at h
    · exact h
  · intro h; exact Or.inr (Or.inr (Or.inr ⟨Pairwise2.nil, h⟩))

theorem lexOutcome_nil_cons {γ : Type} {c : α → α → γ} {eq lt gt o : γ} {y : α} {ys : List α} :
    LexOutcome c eq lt gt o [] (y :: ys) ↔ o = lt := by
  constructor
  · rintro (⟨p, q, x, y, r, s, h, _⟩ | ⟨q, y, s, _, _, h⟩ | ⟨p, x, r, h, _⟩ | ⟨h, _⟩)
    · simp at h
    · exact h
    · simp at h
    · exact absurd h Pairwise2.nil_cons
  · intro h; exact Or.inr (Or.inl ⟨[], y, ys, rfl, Pairwise2.nil, h⟩)

theorem lexOutcome_cons_nil {γ : Type} {c : α → α → γ} {eq lt gt o : γ} {x : α} {xs : List α} :
    LexOutcome c eq lt gt o (x :: xs) [] ↔ o = gt := by
  constructor
  · rintro (⟨p, q, x, y, r, s, _, h, _⟩ | ⟨q, y, s, h, _, _⟩ | ⟨p, x, r, _, _, h⟩ | ⟨h, _⟩)
    · simp at h
    · simp at h
    · exact h
    · exact absurd h Pairwise2.cons_nil
  · intro h; exact Or.inr (Or.inr (Or.inl ⟨[], x, xs, rfl, Pairwise2.nil, h⟩))

theorem lexOutcome_cons_cons {γ : Type} {c : α → α → γ} {eq lt gt o : γ} {x y : α} {xs ys : List α} :
    LexOutcome c eq lt gt o (x :: xs) (y :: ys) ↔
      (c x y = eq ∧ LexOutcome c eq lt gt o xs ys) ∨ (c x y ≠ eq ∧ c x y = o) := by
  constructor
  · rintro (⟨p, q, x', y', r, s, h1, h2, hp, ho, hne⟩ | ⟨q, y', s, h2, hp, ho⟩ | ⟨p, x', r, h1, hp, ho⟩ | ⟨hp, ho⟩)
    · cases p with
      | nil =>
        cases q with
        | nil => simp at h1 h2; obtain ⟨rfl, rfl⟩ := h1; obtain ⟨rfl, rfl⟩ := h2
                 exact Or.inr ⟨by rw [ho]; exact hne, ho⟩
        | cons => exact absurd hp Pairwise2.nil_cons
      | cons a p =>
        cases q with
        | nil => exact absurd hp Pairwise2.cons_nil
        | cons b q =>
          simp at h1 h2; obtain ⟨rfl, rfl⟩ := h1; obtain ⟨rfl, rfl⟩ := h2
          rw [Pairwise2.cons_iff] at hp
          exact Or.inl ⟨hp.1, Or.inl ⟨p, q, x', y', r, s, rfl, rfl, hp.2, ho, hne⟩⟩
    · cases q with
      | nil => exact absurd hp Pairwise2.cons_nil
      | cons b q =>
        simp at h2; obtain ⟨rfl, rfl⟩ := h2
        rw [Pairwise2.cons_iff] at hp
        exact Or.inl ⟨hp.1, Or.inr (Or.inl ⟨q, y', s, rfl, hp.2, ho⟩)⟩
    · cases p with
      | nil => exact absurd hp Pairwise2.nil_cons
      | cons b p =>
        simp at h1; obtain ⟨rfl, rfl⟩ := h1
        rw [Pairwise2.cons_iff] at hp
        exact Or.inl ⟨hp.1, Or.inr (Or.inr (Or.inl ⟨p, x', r, rfl, hp.2, ho⟩))⟩
    · rw [Pairwise2.cons_iff] at hp
      exact Or.inl ⟨hp.1, Or.inr (Or.inr (Or.inr ⟨hp.2, ho⟩))⟩
  · rintro (⟨he, h⟩ | ⟨hne, ho⟩)
    · rcases h with ⟨p, q, x', y', r, s, h1, h2, hp, ho, hne⟩ | ⟨q, y', s, h2, hp, ho⟩ | ⟨p, x', r, h1, hp, ho⟩ | ⟨hp, ho⟩
      · exact Or.inl ⟨x :: p, y :: q, x', y', r, s, by simp [h1], by simp [h2], Pairwise2.cons_iff.mpr ⟨he, hp⟩, ho, hne⟩
      · exact Or.inr (Or.inl ⟨y :: q, y', s, by simp [h2], Pairwise2.cons_iff.mpr ⟨he, hp⟩, ho⟩)
      · exact Or.inr (Or.inr (Or.inl ⟨x :: p, x', r, by simp [h1], Pairwise2.cons_iff.mpr ⟨he, hp⟩, ho⟩))
      · exact Or.inr (Or.inr (Or.inr ⟨Pairwise2.cons_iff.mpr ⟨he, hp⟩, ho⟩))
    · exact Or.inl ⟨[], [], x, y, xs, ys, rfl, rfl, Pairwise2.nil, ho, by rw [← ho]; exact hne⟩

theorem iterPartialCmp_iff (pc : α → α → Option Ordering) (o : Option Ordering) : ∀ (xs ys : List α),
    iterPartialCmp pc xs ys = o ↔ LexOutcome pc (some .eq) (some .lt) (some .gt) o xs ys
  | [], [] => by rw [lexOutcome_nil_nil]; simp [iterPartialCmp]; exact eq_comm
  | [], y :: ys => by rw [lexOutcome_nil_cons]; simp [iterPartialCmp]; exact eq_comm
  | x :: xs, [] => by rw [lexOutcome_cons_nil]; simp [iterPartialCmp]; exact eq_comm
  | x :: xs, y :: ys => by
    rw [lexOutcome_cons_cons, ← iterPartialCmp_iff pc o xs ys]
    rw [iterPartialCmp]
    cases hc : pc x y with
    | none => simp
    | some r => cases r <;> simp

theorem iterCmp_iff (c : α → α → Ordering) (o : Ordering) : ∀ (xs ys : List α),
    iterCmp c xs ys = o ↔ LexOutcome c .eq .lt .gt o xs ys
  | [], [] => by rw [lexOutcome_nil_nil]; simp [iterCmp]; exact eq_comm
  | [], y :: ys => by rw [lexOutcome_nil_cons]; simp [iterCmp]; exact eq_comm
  | x :: xs, [] => by rw [lexOutcome_cons_nil]; simp [iterCmp]; exact eq_comm
  | x :: xs, y :: ys => by
    rw [lexOutcome_cons_cons, ← iterCmp_iff c o xs ys]
    rw [iterCmp]
    cases hc : c x y <;> simp

theorem iterCmp_swap (c : α → α → Ordering) (h : ∀ x y, c x y = (c y x).swap) : ∀ (xs ys : List α),
    iterCmp c xs ys = (iterCmp c ys xs).swap
  | [], [] => rfl
  | [], y :: ys => rfl
  | x :: xs, [] => rfl
  | x :: xs, y :: ys => by
    unfold iterCmp
    rw [h x y, iterCmp_swap c h xs ys]
    cases c y x <;> rfl

theorem iterCmp_trans (c : α → α → Ordering) (hs : ∀ x y, c x y = (c y x).swap)
    (ht : ∀ x y z, c x y ≠ .gt → c y z ≠ .gt → c x z ≠ .gt) : ∀ (xs ys zs : List α),
    iterCmp c xs ys ≠ .gt → iterCmp c ys zs ≠ .gt → iterCmp c xs zs ≠ .gt
  | [], _, [] => by simp [iterCmp]
  | [], _, _ :: _ => by simp [iterCmp]
  | _ :: _, [], _ => by simp [iterCmp]
  | _ :: _, _ :: _, [] => by simp [iterCmp]
  | x :: xs, y :: ys, z :: zs => by
    have ih := iterCmp_trans c hs ht xs ys zs
    have t1 := ht x y z
    have t2 := ht z x y
    have t3 := ht y z x
    rw [hs z x, hs z y] at t2
    rw [hs z x, hs y x] at t3
    simp only [iterCmp]
    revert t1 t2 t3 ih
    generalize c x y = a, c y z = b, c x z = d
    generalize iterCmp c xs ys = p, iterCmp c ys zs = q, iterCmp c xs zs = r
    cases a <;> cases b <;> cases d <;> simp +contextual [Ordering.swap]

theorem iterPartialCmp_some (c : α → α → Ordering) : ∀ (xs ys : List α),
    iterPartialCmp (fun x y => some (c x y)) xs ys = some (iterCmp c xs ys)
  | [], [] => rfl
  | [], _ :: _ => rfl
  | _ :: _, [] => rfl
  | x :: xs, y :: ys => by
    unfold iterPartialCmp iterCmp
    cases hc : c x y <;> simp [hc, iterPartialCmp_some c xs ys]

/-! ## Repeated calls -/
section repeated
variable [Cfg] [Elem α]

/-- `k` calls of `next` on a `Drain` -/
def drainN : Nat → M (St α) (List (Option α))
  | 0 => return []
  | k + 1 => do
    let r ← drainNext
    return r :: (← drainN k)

theorem drainN_sim (k : Nat) : ∀ {s : St α} {d : Deque α}, Rep s.cb d →
    ∃ cb', drainN k s = (.ok ((List.range k).map (d.items[·]?)), ⟨cb', s.dropped⟩) ∧
      Rep cb' { d with items := d.items.drop k } := by
  induction k with
  | zero => intro s d h; exact ⟨s.cb, rfl, by simpa using h⟩
  | succ k ih =>
    intro s d h
    obtain ⟨cb1, e1, r1⟩ := popFront_sim h
    obtain ⟨cb2, e2, r2⟩ := ih (s := ⟨cb1, s.dropped⟩) r1
    refine ⟨cb2, ?_, by simpa [List.drop_tail] using r2⟩
    unfold drainN
    rw [M.bind_ok (show drainNext s = _ from e1), M.bind_ok e2, List.range_succ_eq_map]
    simp only [M.pure_run, List.map_cons, List.map_map]
    congr 3
    · rw [List.head?_eq_getElem?]
    · apply List.map_congr_left
      intro i _
      simp

/-- `k` calls of `next` on an `IntoIter` -/
def intoIterN : Nat → M (St α) (List (Option α))
  | 0 => return []
  | k + 1 => do
    let r ← intoIterNext
    return r :: (← intoIterN k)

theorem intoIterN_sim (k : Nat) : ∀ {s : St α} {d : Deque α}, Rep s.cb d →
    ∃ cb', intoIterN k s = (.ok ((List.range k).map (d.items[·]?)), ⟨cb', s.dropped⟩) ∧
      Rep cb' { d with items := d.items.drop k } := by
  induction k with
  | zero => intro s d h; exact ⟨s.cb, rfl, by simpa using h⟩
  | succ k ih =>
    intro s d h
    obtain ⟨cb1, e1, r1⟩ := popFront_sim h
    obtain ⟨cb2, e2, r2⟩ := ih (s := ⟨cb1, s.dropped⟩) r1
    refine ⟨cb2, ?_, by simpa [List.drop_tail] using r2⟩
    unfold intoIterN
    rw [M.bind_ok (show intoIterNext s = _ from e1), M.bind_ok e2, List.range_succ_eq_map]
    simp only [M.pure_run, List.map_cons, List.map_map]
    congr 3
    · rw [List.head?_eq_getElem?]
    · apply List.map_congr_left
      intro i _
      simp

end repeated

/-! ## A demo configuration for the non-vacuity examples -/
namespace Demo

scoped instance demoCfg : Cfg := ⟨64, true, true, by decide, by decide⟩
/-- 8-byte elements; the destructor of 13 panics -/
scoped instance demoElem : Elem Nat := ⟨8, fun n => n == 13, true⟩

/-- what a buffer of capacity 3 looks like after pushing 1..5: wrapped around -/
def buf : Buf Nat := ⟨[some 5, none, some 3, some 4], 2, 1⟩

theorem buf_reachable : Reachable buf := by
  have h0 : Reachable (⟨[none, none, none, none], 0, 0⟩ : Buf Nat) :=
    Reachable.withCapacity (n := 3) (Or.inl (by decide)) rfl
  have h1 := Reachable.step (.extend [1, 2, 3, 4, 5] false) [] h0 trivial
  have e : (step (.extend [1, 2, 3, 4, 5] false) ⟨(⟨[none, none, none, none], 0, 0⟩ : Buf Nat), []⟩).2.cb
      = buf := by decide
  rw [e] at h1; exact h1

theorem buf_contents : buf.contents = .ok [3, 4, 5] := rfl
theorem buf_capacity : buf.capacity = .ok 3 := rfl

/-- the same with a value whose destructor panics at the front -/
def bomb : Buf Nat := ⟨[some 5, none, some 13, some 4], 2, 1⟩

theorem bomb_reachable : Reachable bomb := by
  have h1 := Reachable.step (.replaceAt 0 13) [] buf_reachable trivial
  have e : (step (.replaceAt 0 13) ⟨buf, []⟩).2.cb = bomb := by decide
  rw [e] at h1; exact h1

theorem bomb_contents : bomb.contents = .ok [13, 4, 5] := rfl
theorem bomb_capacity : bomb.capacity = .ok 3 := rfl

/-- the same with that value in the middle -/
def mid : Buf Nat := ⟨[some 5, none, some 3, some 13], 2, 1⟩

theorem mid_reachable : Reachable mid := by
  have h1 := Reachable.step (.replaceAt 1 13) [] buf_reachable trivial
  have e : (step (.replaceAt 1 13) ⟨buf, []⟩).2.cb = mid := by decide
  rw [e] at h1; exact h1

theorem mid_contents : mid.contents = .ok [3, 13, 5] := rfl

end Demo
end CB
