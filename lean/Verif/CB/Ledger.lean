import Verif.CB.Reach
/-!
# Bookkeeping vocabulary for the property statements, and lemmas about it

The definitions speak only about calls, their results and lists of values.
-/

set_option linter.unusedSectionVars false

open Rust
namespace CB
open Spec (Deque)

variable {α : Type} [Cfg] [Elem α]

/-- The values a call hands back to the caller by value. -/
def returned : Op α → Except Fault (Out α) → List α
  | .popBack, .ok (.opt (some v)) => [v]
  | .popFront, .ok (.opt (some v)) => [v]
  | .replaceAt _ _, .ok (.elem v) => [v]
  | .replaceFirst _, .ok (.opt (some v)) => [v]
  | .replaceLast _, .ok (.opt (some v)) => [v]
  | .replaceIter _, .ok (.seq vs) => vs
  | .drain _, .ok (.seq vs) => vs
  | _, _ => []

/-- The values the buffer takes from the caller in a call with a given result. A replacement that found no
element leaves the value with the caller; an `extend` cut short by a panicking destructor has taken only
some of the items. Of `extend(&items)` it takes the clones. -/
def Handed : Op α → Except Fault (Out α) → List α → Prop
  | .pushBack v, _, h => h = [v]
  | .pushFront v, _, h => h = [v]
  | .extend items _, .ok _, h => h = items
  | .extend items _, .error _, h => h <+: items ∧ ((∀ x : α, Elem.dropPanics x = false) → h = items)
  | .extendRef c items _, .ok _, h => items.mapM c = .ok h
  | .extendRef c items p, .error _, h =>
      h <+: (Spec.clonePrefix c p items).1 ∧
      ((∀ x : α, Elem.dropPanics x = false) → h = (Spec.clonePrefix c p items).1)
  | .replaceAt _ v, .ok _, h => h = [v]
  | .replaceFirst v, .ok (.opt (some _)), h => h = [v]
  | .replaceLast v, .ok (.opt (some _)), h => h = [v]
  | .replaceIter vs, .ok (.seq olds), h => h = vs.take olds.length
  | _, _, h => h = []

/-- The values taken by a sequence of calls with given results. -/
inductive HandedAll : List (Op α × Except Fault (Out α)) → List α → Prop where
  | nil : HandedAll [] []
  | cons {op : Op α} {r : Except Fault (Out α)} {h hs : List α}
      {rest : List (Op α × Except Fault (Out α))} :
      Handed op r h → HandedAll rest hs → HandedAll ((op, r) :: rest) (h ++ hs)

/-- The values handed back by a sequence of calls with given results. -/
def returnedAll : List (Op α × Except Fault (Out α)) → List α
  | [] => []
  | (op, r) :: rest => returned op r ++ returnedAll rest

/-- The argument of the last successful `resize`, or the initial capacity. -/
def capAfter : Nat → List (Op α × Except Fault (Out α)) → Nat
  | n, [] => n
  | _, (.resize m, .ok _) :: rest => capAfter m rest
  | n, _ :: rest => capAfter n rest

/-- The faults a call may show on a buffer with content `xs`: the documented index panic, a refused
allocation, panics of user code, and the abort on a second panic. -/
def Allowed (xs : List α) : Op α → Fault → Prop
  | .index i, .explicit => xs.length ≤ i
  | .replaceAt i _, .explicit => xs.length ≤ i
  | .swap a b, .explicit => xs.length ≤ a ∨ xs.length ≤ b
  | .resize m, .capacityOverflow => isizeMax < (m + 1) * Elem.size α
  | .resize _, .user => ∃ x ∈ xs, Elem.dropPanics x = true
  | .clear, .user => ∃ x ∈ xs, Elem.dropPanics x = true
  | .pushBack v, .user => ∃ x ∈ xs ++ [v], Elem.dropPanics x = true
  | .pushBack v, .abort => Elem.dropPanics v = true ∧ ∃ x ∈ xs, Elem.dropPanics x = true
  | .pushFront v, .user => ∃ x ∈ xs ++ [v], Elem.dropPanics x = true
  | .pushFront v, .abort => Elem.dropPanics v = true ∧ ∃ x ∈ xs, Elem.dropPanics x = true
  | .extend items p, .user => p = true ∨ ∃ x ∈ xs ++ items, Elem.dropPanics x = true
  | .extend items _, .abort =>
      (∃ v ∈ items, Elem.dropPanics v = true) ∧ ∃ x ∈ xs ++ items, Elem.dropPanics x = true
  | .extendRef c items p, e =>
      (∃ x ∈ items, c x = .error e) ∨ (e = .user ∧ p = true) ∨
      ((e = .user ∨ e = .abort) ∧
        ∃ x ∈ xs ++ (Spec.clonePrefix c p items).1, Elem.dropPanics x = true)
  | _, _ => False

/-! ## Lemmas -/

/-- The four things `push_back` can do. -/
theorem pushBack_cases {d : Deque α} (hl : d.items.length ≤ d.cap) (v : α) :
    (d.cap = 0 ∧ d.items = [] ∧ Spec.pushBack d v = ⟨Spec.userIf (Elem.dropPanics v), d, [v]⟩) ∨
    (d.items.length < d.cap ∧ Spec.pushBack d v = ⟨.ok (), { d with items := d.items ++ [v] }, []⟩) ∨
    (∃ x xs, d.items = x :: xs ∧ d.cap = xs.length + 1 ∧ Elem.dropPanics x = true ∧
      Spec.pushBack d v = ⟨.error (if Elem.dropPanics v then .abort else .user),
        { d with items := xs }, [x, v]⟩) ∨
    (∃ x xs, d.items = x :: xs ∧ d.cap = xs.length + 1 ∧ Elem.dropPanics x = false ∧
      Spec.pushBack d v = ⟨.ok (), { d with items := xs ++ [v] }, [x]⟩) := by
  unfold Spec.pushBack
  by_cases h0 : d.cap = 0
  · exact Or.inl ⟨h0, List.length_eq_zero_iff.mp (by omega), by simp [h0]⟩
  · right
    by_cases hlt : d.items.length < d.cap
    · exact Or.inl ⟨hlt, by simp [h0, hlt]⟩
    · right
      cases hd : d.items with
      | nil => rw [hd] at hlt; simp at hlt; omega
      | cons x xs =>
        have hn : ¬ (x :: xs).length < d.cap := by rw [← hd]; exact hlt
        have hc : d.cap = xs.length + 1 := by rw [hd] at hl; simp at hl hn; omega
        by_cases hp : Elem.dropPanics x = true
        · exact Or.inl ⟨x, xs, rfl, hc, hp, by simp only [h0, hn, hp, if_false, if_true]⟩
        · exact Or.inr ⟨x, xs, rfl, hc, Bool.eq_false_iff.mpr hp, by
            simp only [h0, hn, hp, if_false]; rfl⟩

theorem pushBack_perm {d : Deque α} (hl : d.items.length ≤ d.cap) (v : α) :
    (d.items ++ [v]).Perm ((Spec.pushBack d v).dropped ++ (Spec.pushBack d v).deque.items) := by
  rcases pushBack_cases hl v with ⟨_, _, e⟩ | ⟨_, e⟩ | ⟨x, xs, hd, _, _, e⟩ | ⟨x, xs, hd, _, _, e⟩ <;> rw [e]
  · exact List.perm_append_comm
  · simp
  · rw [hd]; exact List.Perm.cons _ List.perm_append_comm
  · rw [hd]; simp

theorem pushFront_perm {d : Deque α} (hl : d.items.length ≤ d.cap) (v : α) :
    (d.items ++ [v]).Perm ((Spec.pushFront d v).dropped ++ (Spec.pushFront d v).deque.items) := by
  unfold Spec.pushFront
  by_cases h0 : d.cap = 0
  · simp only [h0, if_true]; exact List.perm_append_comm
  · by_cases hlt : d.items.length < d.cap
    · simp only [h0, hlt, if_true, if_false, List.nil_append]; exact List.perm_append_comm
    · rcases List.eq_nil_or_concat d.items with hd | ⟨xs, x, hd⟩
      · rw [hd] at hlt; simp at hlt; omega
      · rw [List.concat_eq_append] at hd
        have hla : (xs ++ [x]).getLast? = some x := by simp
        have hdl : (xs ++ [x]).dropLast = xs := by simp
        have hlt' : ¬ (xs ++ [x]).length < d.cap := by rw [← hd]; exact hlt
        simp only [hd, hla, hdl, h0, hlt', if_false]
        by_cases hp : Elem.dropPanics x = true
        · simp only [hp, if_true]
          rw [List.append_assoc]; exact List.perm_append_comm
        · simp only [hp, if_false, Bool.false_eq_true, List.cons_append, List.nil_append]
          have h1 : (xs ++ [x] ++ [v]).Perm ([x, v] ++ xs) := by
            rw [List.append_assoc]; exact List.perm_append_comm
          exact h1

theorem pushBack_length {d : Deque α} (hl : d.items.length ≤ d.cap) (v : α) :
    (Spec.pushBack d v).deque.items.length ≤ (Spec.pushBack d v).deque.cap := by
  rcases pushBack_cases hl v with ⟨_, _, e⟩ | ⟨_, e⟩ | ⟨x, xs, hd, hc, _, e⟩ | ⟨x, xs, hd, hc, _, e⟩ <;> rw [e]
  · exact hl
  · simp; omega
  · simp; omega
  · simp; omega

theorem pushBack_cap (d : Deque α) (v : α) : (Spec.pushBack d v).deque.cap = d.cap := by
  unfold Spec.pushBack
  split
  · rfl
  · split
    · rfl
    · split
      · rfl
      · split <;> rfl

theorem pushFront_cap (d : Deque α) (v : α) : (Spec.pushFront d v).deque.cap = d.cap := by
  unfold Spec.pushFront
  split
  · rfl
  · split
    · rfl
    · split
      · rfl
      · split <;> rfl

theorem extend_cap (vs : List α) (p : Bool) : ∀ d : Deque α, (Spec.extend d vs p).deque.cap = d.cap := by
  induction vs with
  | nil => intro d; rfl
  | cons v vs ih =>
    intro d
    unfold Spec.extend
    cases hr : (Spec.pushBack d v).ret with
    | error e => simp [hr, pushBack_cap]
    | ok u => simp [hr, ih, pushBack_cap]

theorem extend_length (vs : List α) (p : Bool) : ∀ d : Deque α, d.items.length ≤ d.cap →
    (Spec.extend d vs p).deque.items.length ≤ d.cap := by
  induction vs with
  | nil => intro d h; exact h
  | cons v vs ih =>
    intro d h
    have h1 := pushBack_length h v
    rw [pushBack_cap] at h1
    unfold Spec.extend
    cases hr : (Spec.pushBack d v).ret with
    | error e => simpa [hr] using h1
    | ok u =>
      have := ih (Spec.pushBack d v).deque (by rw [pushBack_cap]; exact h1)
      rw [pushBack_cap] at this
      simpa [hr] using this

theorem extend_perm (vs : List α) (p : Bool) : ∀ d : Deque α, d.items.length ≤ d.cap →
    ∃ h, h <+: vs ∧ (((Spec.extend d vs p).ret = .ok () ∨ ∀ x : α, Elem.dropPanics x = false) → h = vs) ∧
      (d.items ++ h).Perm ((Spec.extend d vs p).dropped ++ (Spec.extend d vs p).deque.items) := by
  induction vs with
  | nil => intro d _; exact ⟨[], List.prefix_refl _, fun _ => rfl, by simp [Spec.extend]⟩
  | cons v vs ih =>
    intro d hl
    have h1 := pushBack_perm hl v
    unfold Spec.extend
    cases hr : (Spec.pushBack d v).ret with
    | error e =>
      refine ⟨[v], by simp, ?_, by simpa [hr] using h1⟩
      simp only [hr]
      rintro (h | h)
      · cases h
      · exfalso
        rw [pushBack_calm hl (fun x _ => h x)] at hr
        cases hr
    | ok u =>
      obtain ⟨h, hp, hok, hperm⟩ := ih (Spec.pushBack d v).deque
        (by have := pushBack_length hl v; exact this)
      refine ⟨v :: h, by simpa using hp, ?_, ?_⟩
      · intro hh; rw [hok (by simpa [hr] using hh)]
      · simp only [hr]
        have e : d.items ++ v :: h = d.items ++ [v] ++ h := by simp
        rw [e, List.append_assoc (Spec.pushBack d v).dropped]
        exact ((h1.append_right h).trans (by rw [List.append_assoc])).trans (hperm.append_left _)

omit [Cfg] [Elem α] in
theorem set_perm {l : List α} {i : Nat} (h : i < l.length) (v : α) : (l ++ [v]).Perm (l[i] :: l.set i v) := by
  have e1 : l = l.take i ++ l[i] :: l.drop (i + 1) := by
    rw [← List.drop_eq_getElem_cons h, List.take_append_drop]
  have e2 : l.set i v = l.take i ++ v :: l.drop (i + 1) := by
    rw [List.set_eq_take_append_cons_drop, if_pos h]
  rw [e2]
  refine (List.perm_append_comm).trans ?_
  show (v :: l).Perm _
  have h1 : (v :: l).Perm (v :: (l[i] :: (l.take i ++ l.drop (i + 1)))) := by
    refine List.Perm.cons _ ?_
    conv => lhs; rw [e1]
    exact List.perm_middle
  refine h1.trans ((List.Perm.swap _ _ _).trans (List.Perm.cons _ List.perm_middle.symm))

omit [Cfg] [Elem α] in
theorem swap_perm {l : List α} {a b : Nat} (ha : a < l.length) (hb : b < l.length) :
    l.Perm ((l.set a l[b]).set b l[a]) := by
  have h1 := set_perm ha l[b]
  have hb' : b < (l.set a l[b]).length := by simpa using hb
  have h2 := set_perm hb' l[a]
  have e : (l.set a l[b])[b] = l[b] := by rw [List.getElem_set]; split <;> rfl
  rw [e] at h2
  -- l ++ [l[b]] ~ l[a] :: l.set a l[b] ~ l.set a l[b] ++ [l[a]] ~ l[b] :: result
  have h3 : (l ++ [l[b]]).Perm (l[b] :: (l.set a l[b]).set b l[a]) :=
    h1.trans ((List.perm_append_comm (l₁ := [l[a]])).trans h2)
  have h4 : (l[b] :: l).Perm (l[b] :: (l.set a l[b]).set b l[a]) :=
    (List.perm_append_comm (l₁ := [l[b]])).trans h3
  exact List.Perm.cons_inv h4

/-- `extendF` differs from `extend` only in what it returns. -/
theorem extendF_parts (d : Deque α) (vs : List α) (f : Option Fault) :
    (Spec.extendF d vs f).deque = (Spec.extend d vs false).deque ∧
    (Spec.extendF d vs f).dropped = (Spec.extend d vs false).dropped ∧
    ((Spec.extendF d vs f).ret = .ok () ↔ (Spec.extend d vs false).ret = .ok () ∧ f = none) ∧
    ∀ e, (Spec.extendF d vs f).ret = .error e →
      (Spec.extend d vs false).ret = .error e ∨ f = some e := by
  unfold Spec.extendF
  cases hr : (Spec.extend d vs false).ret with
  | error e => simp [hr]
  | ok u => cases f <;> simp [hr]

theorem clonePrefix_none {c : α → Except Fault α} {p : Bool} : ∀ {items : List α},
    (Spec.clonePrefix c p items).2 = none → items.mapM c = .ok (Spec.clonePrefix c p items).1
  | [], _ => rfl
  | x :: xs, h => by
    unfold Spec.clonePrefix at h ⊢
    cases hc : c x with
    | error e => simp [hc] at h
    | ok y =>
      simp only [hc] at h ⊢
      rw [List.mapM_cons, hc, clonePrefix_none h]
      rfl

theorem clonePrefix_some {c : α → Except Fault α} {p : Bool} {e : Fault} : ∀ {items : List α},
    (Spec.clonePrefix c p items).2 = some e → (∃ x ∈ items, c x = .error e) ∨ (e = .user ∧ p = true)
  | [], h => by
    cases p <;> simp [Spec.clonePrefix] at h
    exact Or.inr ⟨h.symm, rfl⟩
  | x :: xs, h => by
    unfold Spec.clonePrefix at h
    cases hc : c x with
    | error e' =>
      simp only [hc] at h; cases h
      exact Or.inl ⟨x, by simp, hc⟩
    | ok y =>
      simp only [hc] at h
      rcases clonePrefix_some h with ⟨z, hz, hcz⟩ | h'
      · exact Or.inl ⟨z, by simp [hz], hcz⟩
      · exact Or.inr h'

/-- One specified call conserves values. -/
theorem step_conserves {d : Deque α} (hl : d.items.length ≤ d.cap) (op : Op α) :
    ∃ h, Handed op (Spec.step d op).ret h ∧
      (d.items ++ h).Perm (returned op (Spec.step d op).ret ++ (Spec.step d op).dropped ++
        (Spec.step d op).deque.items) := by
  cases op with
  | pushBack v =>
    refine ⟨[v], rfl, ?_⟩
    simpa [Spec.step, returned] using pushBack_perm hl v
  | pushFront v =>
    refine ⟨[v], rfl, ?_⟩
    simpa [Spec.step, returned] using pushFront_perm hl v
  | popBack =>
    refine ⟨[], by simp [Handed, Spec.step], ?_⟩
    rcases List.eq_nil_or_concat d.items with hd | ⟨xs, x, hd⟩
    · simp [Spec.step, returned, hd]
    · rw [List.concat_eq_append] at hd
      simp only [Spec.step, hd, List.append_nil, List.getLast?_append, List.getLast?_singleton,
        Option.some_or, List.dropLast_concat]
      exact List.perm_append_comm
  | popFront =>
    refine ⟨[], by simp [Handed, Spec.step], ?_⟩
    cases hd : d.items with
    | nil => simp [Spec.step, returned, hd]
    | cons x xs => simp [Spec.step, returned, hd]
  | clear =>
    refine ⟨[], by simp [Handed, Spec.step], ?_⟩
    have := dropSeq_append d.items.reverse
    have h2 : d.items.Perm ((Spec.dropSeq d.items.reverse).1 ++ (Spec.dropSeq d.items.reverse).2.1) := by
      rw [this]; exact (List.reverse_perm _).symm
    simp only [Spec.step, Spec.clear, List.append_nil, returned, List.nil_append]
    exact h2.trans ((List.reverse_perm _).symm.append_left _)
  | resize n =>
    refine ⟨[], by simp [Handed, Spec.step], ?_⟩
    have h1 := dropSeq_append (d.items.take (d.items.length - n))
    simp only [Spec.step, Spec.resize, List.append_nil]
    split
    · simp [returned]
    · split
      · simp only [returned, List.nil_append]
        rw [← List.append_assoc, h1, List.take_append_drop]
      · rename_i hp
        have hrest := dropSeq_noPanic _ (Bool.eq_false_iff.mpr hp)
        rw [hrest, List.append_nil] at h1
        simp only [returned, List.nil_append]
        rw [h1, List.take_append_drop]
  | extend items p =>
    obtain ⟨h, hp, hok, hperm⟩ := extend_perm items p d hl
    refine ⟨h, ?_, ?_⟩
    · cases hr : (Spec.extend d items p).ret with
      | ok u => simp only [Spec.step, hr, Except.map, Handed]; exact hok (Or.inl hr)
      | error e => simp only [Spec.step, hr, Except.map, Handed]; exact ⟨hp, fun hh => hok (Or.inr hh)⟩
    · simpa [Spec.step, returned] using hperm
  | extendRef c items p =>
    obtain ⟨h, hp, hok, hperm⟩ := extend_perm (Spec.clonePrefix c p items).1 false d hl
    obtain ⟨e1, e2, e3, e4⟩ := extendF_parts d (Spec.clonePrefix c p items).1 (Spec.clonePrefix c p items).2
    refine ⟨h, ?_, ?_⟩
    · simp only [Spec.step]
      cases hr : (Spec.extendF d (Spec.clonePrefix c p items).1 (Spec.clonePrefix c p items).2).ret with
      | ok u =>
        obtain ⟨h1, h2⟩ := e3.mp hr
        simp only [Except.map, Handed]
        rw [hok (Or.inl h1)]
        exact clonePrefix_none h2
      | error e => simp only [Except.map, Handed]; exact ⟨hp, fun hh => hok (Or.inr hh)⟩
    · simp only [Spec.step, returned, List.nil_append, e1, e2]
      simpa using hperm
  | drain k =>
    refine ⟨[], by simp [Handed, Spec.step], ?_⟩
    simp [Spec.step, returned]
  | linearize => exact ⟨[], by simp [Handed, Spec.step], by simp [Spec.step, returned]⟩
  | swap a b =>
    refine ⟨[], ?_, ?_⟩
    · simp only [Spec.step]; split <;> simp [Handed]
    · by_cases ha : a < d.items.length
      · by_cases hb : b < d.items.length
        · simp only [Spec.step, List.getElem?_eq_getElem ha, List.getElem?_eq_getElem hb, returned]
          simpa using swap_perm ha hb
        · simp only [Spec.step, List.getElem?_eq_getElem ha, List.getElem?_eq_none (Nat.le_of_not_lt hb), returned]
          simp
      · simp only [Spec.step, List.getElem?_eq_none (Nat.le_of_not_lt ha), returned]
        simp
  | reverse =>
    exact ⟨[], by simp [Handed, Spec.step], by simpa [Spec.step, returned] using (List.reverse_perm _).symm⟩
  | replaceAt i v =>
    by_cases hi : i < d.items.length
    · refine ⟨[v], by simp [Handed, Spec.step, hi], ?_⟩
      simp only [Spec.step, List.getElem?_eq_getElem hi, returned, List.append_nil]
      exact set_perm hi v
    · refine ⟨[], by simp [Handed, Spec.step, hi], ?_⟩
      simp only [Spec.step, List.getElem?_eq_none (Nat.le_of_not_lt hi), returned]
      simp
  | replaceFirst v =>
    cases hd : d.items with
    | nil => exact ⟨[], by simp [Handed, Spec.step, hd], by simp [Spec.step, returned, hd]⟩
    | cons x xs =>
      refine ⟨[v], by simp [Handed, Spec.step, hd], ?_⟩
      have := set_perm (l := x :: xs) (i := 0) (by simp) v
      simpa [Spec.step, returned, hd] using this
  | replaceLast v =>
    by_cases hd : d.items = []
    · exact ⟨[], by simp [Handed, Spec.step, hd], by simp [Spec.step, returned, hd]⟩
    · have hpos : 0 < d.items.length := List.length_pos_iff.mpr hd
      have hla : d.items.getLast? = some (d.items[d.items.length - 1]'(by omega)) := by
        rw [List.getLast?_eq_getElem?, List.getElem?_eq_getElem (by omega)]
      refine ⟨[v], by simp only [Spec.step, hla, Handed], ?_⟩
      have := set_perm (l := d.items) (i := d.items.length - 1) (by omega) v
      simpa only [Spec.step, hla, returned, List.append_nil, List.singleton_append] using this
  | replaceIter vs =>
    refine ⟨vs.take d.items.length, ?_, ?_⟩
    · simp only [Spec.step, Handed, List.length_take]
      rcases Nat.le_total vs.length d.items.length with h | h
      · rw [Nat.min_eq_left h, List.take_of_length_le h, List.take_of_length_le (Nat.le_refl _)]
      · rw [Nat.min_eq_right h]
    · simp only [Spec.step, returned, List.append_nil]
      have e : d.items ++ vs.take d.items.length = d.items.take vs.length ++
          (d.items.drop vs.length ++ vs.take d.items.length) := by
        rw [← List.append_assoc, List.take_append_drop]
      rw [e]
      exact List.perm_append_comm.append_left _
  | len => exact ⟨[], by simp [Handed, Spec.step], by simp [Spec.step, returned]⟩
  | capacity => exact ⟨[], by simp [Handed, Spec.step], by simp [Spec.step, returned]⟩
  | isEmpty => exact ⟨[], by simp [Handed, Spec.step], by simp [Spec.step, returned]⟩
  | isFull => exact ⟨[], by simp [Handed, Spec.step], by simp [Spec.step, returned]⟩
  | first => exact ⟨[], by simp [Handed, Spec.step], by simp [Spec.step, returned]⟩
  | last => exact ⟨[], by simp [Handed, Spec.step], by simp [Spec.step, returned]⟩
  | index i =>
    refine ⟨[], ?_, ?_⟩
    · simp only [Spec.step]; split <;> simp [Handed]
    · simp only [Spec.step]; split <;> simp [returned]
  | iter => exact ⟨[], by simp [Handed, Spec.step], by simp [Spec.step, returned]⟩

theorem step_cap (d : Deque α) (op : Op α) :
    (Spec.step d op).deque.cap = capAfter d.cap [(op, (Spec.step d op).ret)] := by
  cases op with
  | resize n =>
    simp only [Spec.step, Spec.resize]
    split
    · rfl
    · split <;> rfl
  | pushBack v => simp only [Spec.step, capAfter, pushBack_cap]
  | pushFront v => simp only [Spec.step, capAfter, pushFront_cap]
  | extend items p => simp only [Spec.step, capAfter, extend_cap]
  | extendRef c items p => simp only [Spec.step, capAfter, (extendF_parts d _ _).1, extend_cap]
  | swap a b => simp only [Spec.step, capAfter]; split <;> rfl
  | replaceAt i v => simp only [Spec.step, capAfter]; split <;> rfl
  | index i => simp only [Spec.step, capAfter]; split <;> rfl
  | _ => rfl

theorem capAfter_cons (n : Nat) (c : Op α × Except Fault (Out α)) (rest) :
    capAfter n (c :: rest) = capAfter (capAfter n [c]) rest := by
  rcases c with ⟨op, r⟩
  cases op <;> cases r <;> rfl

theorem dropSeq_rest_length (l : List α) : (Spec.dropSeq l).2.1.length ≤ l.length := by
  have := congrArg List.length (dropSeq_append l)
  rw [List.length_append] at this
  exact Nat.le_trans (Nat.le_add_left _ _) (Nat.le_of_eq this)

theorem step_length {d : Deque α} (hl : d.items.length ≤ d.cap) (op : Op α) :
    (Spec.step d op).deque.items.length ≤ (Spec.step d op).deque.cap := by
  cases op with
  | pushBack v => exact pushBack_length hl v
  | extend items p => simp only [Spec.step, extend_cap]; exact extend_length items p d hl
  | extendRef c items p =>
    simp only [Spec.step, (extendF_parts d _ _).1, extend_cap]; exact extend_length _ false d hl
  | drain k => simp [Spec.step]; omega
  | pushFront v =>
    have h1 := (pushFront_perm hl v).length_eq
    simp only [Spec.step]
    unfold Spec.pushFront at *
    split
    · simpa using hl
    · split
      · simp; omega
      · split
        · simp; omega
        · split
          · simp; omega
          · simp; omega
  | popBack => simp [Spec.step]; omega
  | popFront => simp [Spec.step]; omega
  | clear =>
    have := dropSeq_rest_length d.items.reverse
    rw [List.length_reverse] at this
    simp only [Spec.step, Spec.clear, List.length_reverse]
    exact Nat.le_trans this hl
  | resize n =>
    have := dropSeq_rest_length (d.items.take (d.items.length - n))
    simp only [List.length_take] at this
    simp only [Spec.step, Spec.resize]
    split
    · exact hl
    · split
      · refine Nat.le_trans ?_ hl
        simp only [List.length_append, List.length_drop]
        exact Nat.le_trans (Nat.add_le_add_right this _) (by omega)
      · simp; omega
  | swap a b => simp only [Spec.step]; split <;> simpa using hl
  | replaceAt i v => simp only [Spec.step]; split <;> simpa using hl
  | index i => simp only [Spec.step]; split <;> simpa using hl
  | replaceIter vs => simp [Spec.step]; omega
  | _ => simpa [Spec.step] using hl

theorem run_spec_facts (ops : List (Op α)) : ∀ {d : Deque α}, d.items.length ≤ d.cap →
    (∃ hs, HandedAll (ops.zip (Spec.run ops d).1) hs ∧
      (d.items ++ hs).Perm (returnedAll (ops.zip (Spec.run ops d).1) ++ (Spec.run ops d).2.2 ++
        (Spec.run ops d).2.1.items)) ∧
    (Spec.run ops d).2.1.cap = capAfter d.cap (ops.zip (Spec.run ops d).1) := by
  induction ops with
  | nil =>
    intro d hl
    exact ⟨⟨[], HandedAll.nil, by simp [Spec.run, returnedAll]⟩, rfl⟩
  | cons op ops ih =>
    intro d hl
    obtain ⟨h, hh, hp⟩ := step_conserves hl op
    have hcap := step_cap d op
    by_cases ha : (Spec.step d op).ret = .error .abort
    · rw [specRun_cons_abort ha]
      rw [ha] at hh hp hcap
      refine ⟨⟨h ++ [], by simpa using HandedAll.cons hh HandedAll.nil, ?_⟩, ?_⟩
      · simpa [returnedAll] using hp
      · simpa using hcap
    · rw [specRun_cons ha]
      obtain ⟨⟨hs, hhs, hps⟩, hc⟩ := ih (step_length hl op)
      refine ⟨⟨h ++ hs, HandedAll.cons hh hhs, ?_⟩, ?_⟩
      · simp only [List.zip_cons_cons, returnedAll]
        generalize (Spec.step d op).deque.items = I1 at *
        generalize (Spec.step d op).dropped = D1 at *
        generalize returned op (Spec.step d op).ret = R1 at *
        generalize (Spec.run ops (Spec.step d op).deque).2.1.items = I2 at *
        generalize (Spec.run ops (Spec.step d op).deque).2.2 = D2 at *
        generalize returnedAll (ops.zip (Spec.run ops (Spec.step d op).deque).1) = R2 at *
        have e1 : (d.items ++ (h ++ hs)).Perm (R1 ++ D1 ++ (I1 ++ hs)) := by
          rw [← List.append_assoc, ← List.append_assoc]; exact hp.append_right hs
        refine (e1.trans (hps.append_left _)).trans ?_
        simp only [List.append_assoc]
        refine List.Perm.append_left R1 ?_
        rw [← List.append_assoc, ← List.append_assoc R2 D1]
        exact List.perm_append_comm.append_right _
      · simp only [List.zip_cons_cons]
        rw [capAfter_cons, ← hcap]; exact hc

/-- One specified call shows only allowed faults. -/
theorem step_allowed {d : Deque α} (hl : d.items.length ≤ d.cap) (op : Op α) {e : Fault}
    (h : (Spec.step d op).ret = .error e) : Allowed d.items op e := by
  have key : ∀ l : List α, (Spec.dropSeq l).2.2 = true → ∃ x ∈ l, Elem.dropPanics x = true := by
    intro l hl
    by_cases hc : ∃ x ∈ l, Elem.dropPanics x = true
    · exact hc
    · rw [dropSeq_calm l (fun x hx => by
        cases hx' : Elem.dropPanics x with
        | false => rfl
        | true => exact absurd ⟨x, hx, hx'⟩ hc)] at hl
      cases hl
  have pb : ∀ (d : Deque α) (v : α) (e : Fault), d.items.length ≤ d.cap → (Spec.pushBack d v).ret = .error e →
      (e = .user ∧ ∃ x ∈ d.items ++ [v], Elem.dropPanics x = true) ∨
      (e = .abort ∧ Elem.dropPanics v = true ∧ ∃ x ∈ d.items, Elem.dropPanics x = true) := by
    intro d v e hl h
    rcases pushBack_cases hl v with ⟨_, _, e'⟩ | ⟨_, e'⟩ | ⟨x, xs, hd, _, hp, e'⟩ | ⟨x, xs, hd, _, _, e'⟩ <;>
      rw [e'] at h
    · cases hv : Elem.dropPanics v with
      | true =>
        simp only [Spec.userIf, hv, if_true] at h; cases h
        exact Or.inl ⟨rfl, v, by simp, hv⟩
      | false => simp [Spec.userIf, hv] at h
    · cases h
    · by_cases hv : Elem.dropPanics v = true
      · simp only [hv, if_true] at h; cases h
        exact Or.inr ⟨rfl, hv, x, by simp [hd], hp⟩
      · simp only [hv] at h; cases h
        exact Or.inl ⟨rfl, x, by simp [hd], hp⟩
    · cases h
  have ex : ∀ (vs : List α) (p : Bool) (d : Deque α) (e : Fault), d.items.length ≤ d.cap →
      (Spec.extend d vs p).ret = .error e →
      (e = .user ∧ (p = true ∨ ∃ x ∈ d.items ++ vs, Elem.dropPanics x = true)) ∨
      (e = .abort ∧ (∃ v ∈ vs, Elem.dropPanics v = true) ∧ ∃ x ∈ d.items ++ vs, Elem.dropPanics x = true) := by
    intro vs p
    induction vs with
    | nil =>
      intro d e _ h
      cases p with
      | true => simp [Spec.extend, Spec.userIf] at h; exact Or.inl ⟨h.symm, Or.inl rfl⟩
      | false => simp [Spec.extend, Spec.userIf] at h
    | cons v vs ih =>
      intro d e hl h
      unfold Spec.extend at h
      cases hr : (Spec.pushBack d v).ret with
      | error e' =>
        simp only [hr] at h; cases h
        rcases pb d v e hl hr with ⟨rfl, x, hx, hp⟩ | ⟨rfl, hv, x, hx, hp⟩
        · refine Or.inl ⟨rfl, Or.inr ⟨x, ?_, hp⟩⟩
          simp only [List.mem_append, List.mem_cons, List.not_mem_nil, or_false] at hx ⊢
          rcases hx with h | h <;> simp [h]
        · exact Or.inr ⟨rfl, ⟨v, by simp, hv⟩, x, by simp [hx], hp⟩
      | ok u =>
        simp only [hr] at h
        have hmem : ∀ x ∈ (Spec.pushBack d v).deque.items ++ vs, x ∈ d.items ++ v :: vs := by
          intro x hx
          rw [List.mem_append] at hx
          rcases hx with hx | hx
          · have := ((pushBack_perm hl v).mem_iff (a := x)).mpr (by simp [hx])
            simp only [List.mem_append, List.mem_cons, List.not_mem_nil, or_false] at this ⊢
            rcases this with h | h <;> simp [h]
          · simp [hx]
        rcases ih (Spec.pushBack d v).deque e (pushBack_length hl v) h with
          ⟨rfl, h1 | ⟨x, hx, hp⟩⟩ | ⟨rfl, ⟨w, hw, hwp⟩, x, hx, hp⟩
        · exact Or.inl ⟨rfl, Or.inl h1⟩
        · exact Or.inl ⟨rfl, Or.inr ⟨x, hmem x hx, hp⟩⟩
        · exact Or.inr ⟨rfl, ⟨w, by simp [hw], hwp⟩, x, hmem x hx, hp⟩
  cases op with
  | pushBack v =>
    simp only [Spec.step] at h
    cases hr : (Spec.pushBack d v).ret with
    | ok u => rw [hr] at h; cases h
    | error e' =>
      rw [hr] at h; cases h
      rcases pb d v e hl hr with ⟨rfl, h⟩ | ⟨rfl, h⟩ <;> exact h
  | pushFront v =>
    simp only [Spec.step] at h
    unfold Spec.pushFront at h
    by_cases h0 : d.cap = 0
    · simp only [h0, if_true] at h
      cases hv : Elem.dropPanics v with
      | true =>
        simp only [Spec.userIf, hv, if_true] at h; cases h
        exact ⟨v, by simp, hv⟩
      | false => simp [Spec.userIf, hv, Except.map] at h
    · by_cases hlt : d.items.length < d.cap
      · simp [h0, hlt, Except.map] at h
      · simp only [h0, hlt, if_false] at h
        cases hla : d.items.getLast? with
        | none => simp [hla, Except.map] at h
        | some x =>
          have hx : x ∈ d.items := List.mem_of_getLast? hla
          simp only [hla] at h
          by_cases hp : Elem.dropPanics x = true
          · simp only [hp, if_true] at h
            by_cases hv : Elem.dropPanics v = true
            · simp only [hv, if_true] at h; cases h
              exact ⟨hv, x, hx, hp⟩
            · simp only [hv, if_false, Bool.false_eq_true] at h; cases h
              exact ⟨x, by simp [hx], hp⟩
          · simp [hp, Except.map] at h
  | clear =>
    simp only [Spec.step, Spec.clear] at h
    cases hp : (Spec.dropSeq d.items.reverse).2.2 with
    | true =>
      simp only [hp, Spec.userIf, if_true] at h; cases h
      obtain ⟨x, hx, hxp⟩ := key _ hp
      exact ⟨x, by simpa using hx, hxp⟩
    | false => simp [hp, Spec.userIf, Except.map] at h
  | resize n =>
    simp only [Spec.step, Spec.resize] at h
    split at h
    · rename_i hs; cases h; exact hs
    · split at h
      · rename_i hp; cases h
        obtain ⟨x, hx, hxp⟩ := key _ hp
        exact ⟨x, List.mem_of_mem_take hx, hxp⟩
      · cases h
  | extend items p =>
    simp only [Spec.step] at h
    cases hr : (Spec.extend d items p).ret with
    | ok u => rw [hr] at h; cases h
    | error e' =>
      rw [hr] at h; cases h
      rcases ex items p d e hl hr with ⟨rfl, h⟩ | ⟨rfl, h⟩ <;> exact h
  | extendRef c items p =>
    simp only [Spec.step] at h
    cases hr : (Spec.extendF d (Spec.clonePrefix c p items).1 (Spec.clonePrefix c p items).2).ret with
    | ok u => rw [hr] at h; cases h
    | error e' =>
      rw [hr] at h; cases h
      rcases (extendF_parts d _ _).2.2.2 e hr with h | h
      · refine Or.inr (Or.inr ?_)
        rcases ex _ false d e hl h with ⟨rfl, h | h⟩ | ⟨rfl, _, h⟩
        · cases h
        · exact ⟨Or.inl rfl, h⟩
        · exact ⟨Or.inr rfl, h⟩
      · rcases clonePrefix_some h with h | h
        · exact Or.inl h
        · exact Or.inr (Or.inl h)
  | swap a b =>
    simp only [Spec.step] at h
    by_cases ha : a < d.items.length
    · by_cases hb : b < d.items.length
      · simp [ha, hb] at h
      · simp [ha, hb] at h; subst h; exact Or.inr (Nat.le_of_not_lt hb)
    · rw [List.getElem?_eq_none (Nat.le_of_not_lt ha)] at h
      simp at h; subst h; exact Or.inl (Nat.le_of_not_lt ha)
  | replaceAt i v =>
    simp only [Spec.step] at h
    by_cases hi : i < d.items.length
    · simp [hi] at h
    · simp [hi] at h; subst h; exact Nat.le_of_not_lt hi
  | index i =>
    simp only [Spec.step] at h
    by_cases hi : i < d.items.length
    · simp [hi] at h
    · simp [hi] at h; subst h; exact Nat.le_of_not_lt hi
  | _ => simp [Spec.step] at h

/-- What `extend` leaves, also when cut short, is a contiguous part of what it worked on. -/
theorem extend_infix (vs : List α) (p : Bool) : ∀ d : Deque α, d.items.length ≤ d.cap →
    (Spec.extend d vs p).deque.items <:+: d.items ++ vs := by
  induction vs with
  | nil => intro d _; simpa [Spec.extend] using List.infix_refl d.items
  | cons v vs ih =>
    intro d hl
    have e0 : d.items ++ v :: vs = d.items ++ [v] ++ vs := by simp
    rw [e0]
    unfold Spec.extend
    have hok : (Spec.pushBack d v).ret = .ok () → (Spec.pushBack d v).deque.items <:+ d.items ++ [v] := by
      intro hr
      rcases pushBack_cases hl v with ⟨_, hd, e⟩ | ⟨_, e⟩ | ⟨x, xs, hd, _, hp, e⟩ | ⟨x, xs, hd, _, hp, e⟩
      · rw [e, hd]; exact List.nil_suffix
      · rw [e] <;> exact List.suffix_refl _
      · rw [e] at hr; cases hr
      · rw [e, hd]; exact List.suffix_cons _ _
    have hin : (Spec.pushBack d v).deque.items <:+: d.items ++ [v] := by
      rcases pushBack_cases hl v with ⟨_, hd, e⟩ | ⟨_, e⟩ | ⟨x, xs, hd, _, hp, e⟩ | ⟨x, xs, hd, _, hp, e⟩
      · rw [e]; exact (List.prefix_append _ _).isInfix
      · rw [e] <;> exact List.infix_refl _
      · rw [e, hd]; exact ⟨[x], [v], by simp⟩
      · rw [e, hd]; exact (List.suffix_cons _ _).isInfix
    cases hr : (Spec.pushBack d v).ret with
    | error e =>
      simp only [hr]
      exact hin.trans (List.prefix_append _ _).isInfix
    | ok u =>
      simp only [hr]
      refine (ih _ (pushBack_length hl v)).trans ?_
      obtain ⟨pre, hpre⟩ := hok hr
      refine ⟨pre, [], ?_⟩
      rw [← hpre]; simp

/-! ## Capacities of reachable buffers -/
section caps

theorem Reachable.rep_small {cb : Buf α} (h : Reachable cb) : ∃ d, Rep cb d ∧ d.cap ≤ isizeMax := by
  induction h with
  | @withCapacity n cb hc h =>
    refine ⟨_, withCapacity_ok hc h, ?_⟩
    have ha : allocCheck α (n + 1) = .ok () := by
      have h6 := two_isizeMax
      unfold CB.withCapacity at h
      rw [uadd_ok (by rcases hc with hc | hc <;> omega)] at h
      cases h2 : allocCheck α (n + 1) with
      | ok u => rfl
      | error e => simp only [bind, Except.bind, h2] at h; cases h
    exact (alloc_fits hc ha).1
  | @fromIter items cb hc h =>
    refine ⟨_, fromIter_ok hc h, ?_⟩
    have ha : allocCheck α (items.length + 1) = .ok () := by
      unfold CB.fromIter at h
      rw [uninit_eq (fromIter_ok hc (by unfold CB.fromIter; exact h)).uninit_ok] at h
      cases h1 : allocCheck α items.length with
      | error e => rw [h1] at h; cases h
      | ok u =>
        cases h2 : allocCheck α (items.length + 1) with
        | ok u => rfl
        | error e => rw [h1, h2] at h; cases h
    exact (alloc_fits hc ha).1
  | @fromIterRef c items cb hc h =>
    obtain ⟨xs, hx, r⟩ := fromIterRef_ok hc h
    refine ⟨_, r, ?_⟩
    have ha : allocCheck α (items.length + 1) = .ok () := by
      unfold CB.fromIterRef at h
      rw [uninit_eq r.uninit_ok] at h
      cases h2 : allocCheck α (items.length + 1) with
      | ok u => rfl
      | error e => rw [hx] at h; simp only [bind, Except.bind, mapM_length c _ _ hx, h2] at h; cases h
    exact (alloc_fits hc ha).1
  | @fromVec items cb hc h =>
    refine ⟨_, fromVec_ok hc h, ?_⟩
    have ha : allocCheck α (items.length + 1) = .ok () := by
      unfold CB.fromVec at h
      rw [uninit_eq (fromVec_ok hc (by unfold CB.fromVec; exact h)).uninit_ok] at h
      cases h2 : allocCheck α (items.length + 1) with
      | ok u => rfl
      | error e => rw [h2] at h; cases h
    exact (alloc_fits hc ha).1
  | @step cb op dr _ hop ih =>
    obtain ⟨d, r, hd⟩ := ih
    obtain ⟨cb', e, r'⟩ := step_sim (s := ⟨cb, dr⟩) r op hop
    rw [e]
    refine ⟨_, r', ?_⟩
    cases op with
    | resize n =>
      simp only [Spec.step, Spec.resize]
      split
      · exact hd
      · rename_i hs
        split
        · exact hd
        · rcases hop with hop | ⟨hz, _⟩
          · exact hop
          · have : (n + 1) * 1 ≤ (n + 1) * Elem.size α := Nat.mul_le_mul_left _ hz
            show n ≤ isizeMax
            omega
    | _ => rw [step_cap]; exact hd
  | @appendSelf a b dr _ _ ih1 ih2 =>
    obtain ⟨d, r, hd⟩ := ih1
    obtain ⟨o, r2, _⟩ := ih2
    obtain ⟨cb', cb'', e, r', _⟩ := append_sim (s := ⟨a, b, dr⟩) r r2
    rw [e]
    exact ⟨_, r', by rw [(append_eq_extend d _).2.1, extend_cap]; exact hd⟩
  | @appendOther a b dr _ _ ih1 ih2 =>
    obtain ⟨d, r, _⟩ := ih1
    obtain ⟨o, r2, ho⟩ := ih2
    obtain ⟨cb', cb'', e, _, r'⟩ := append_sim (s := ⟨a, b, dr⟩) r r2
    rw [e]; exact ⟨_, r', ho⟩
  | cloneBitwise _ ih => exact ih

theorem Reachable.cap_lt {cb : Buf α} (h : Reachable cb) {d : Deque α} (r : Rep cb d) : d.cap ≤ isizeMax := by
  obtain ⟨d', r', hd⟩ := h.rep_small
  have : d.cap = d'.cap := Except.ok.inj (r.capacity_eq.symm.trans r'.capacity_eq)
  omega

end caps
end CB
