import Verif.Itv.PropsArith
/-!
# Property theorem C93: arithmetic on intervals encloses arithmetic on their values

For element operators that keep or reverse the order but may round, saturate or panic.
-/

open Rust
namespace Itv

/-! ## vocabulary -/
section
variable {T : Type} [LinearOrder T]

/-- an operator of the element type with a fixed right operand, an assigning operator, or the negation -/
inductive Step (T : Type)
  | bin (op : T → Except Fault T)
  | assign (aop : M T Unit)
  | neg (op : T → Except Fault T)

/-- the value an assigning operator leaves behind -/
def after {σ : Type} (aop : M σ Unit) (x : σ) : Except Fault σ := (aop x).1.map fun _ => (aop x).2

/-- what it does to a value -/
def Step.onVal : Step T → T → Except Fault T
  | .bin op => op
  | .assign aop => after aop
  | .neg op => op

/-- what the crate makes of it on an interval -/
def Step.onInterval : Step T → Interval T → Except Fault (Interval T)
  | .bin op => Interval.binOp op
  | .assign aop => after (Interval.opAssign aop)
  | .neg op => Interval.neg op

/-- Whenever it returns, it keeps the order of values; or whenever it returns, it reverses it. -/
def Orderly (op : T → Except Fault T) : Prop :=
  (∀ x y x' y', op x = .ok x' → op y = .ok y' → x ≤ y → x' ≤ y') ∨
  (∀ x y x' y', op x = .ok x' → op y = .ok y' → x ≤ y → y' ≤ x')

/-- a chain of operators on a value -/
def chainVal : List (Step T) → T → Except Fault T
  | [], x => .ok x
  | s :: rest, x => do chainVal rest (← s.onVal x)

/-- the same chain on an interval -/
def chainInterval : List (Step T) → Interval T → Except Fault (Interval T)
  | [], i => .ok i
  | s :: rest, i => do chainInterval rest (← s.onInterval i)

/-! ## helper lemmas -/

theorem neg_eq_binOp (op : T → Except Fault T) (i : Interval T) : Interval.neg op i = Interval.binOp op i := by
  rcases Interval.cases2 i with rfl | ⟨l, lc, u, uc, rfl⟩
  · rfl
  cases hu : op u with
  | error e => rw [neg_err_up hu, binOp_err_up hu]
  | ok u' =>
    cases hl : op l with
    | error e => rw [neg_err_lo hu hl, binOp_err_lo hu hl]
    | ok l' =>
      rw [neg_ok hl hu, binOp_ok hl hu, Interval.fix_mk, Interval.fix_mk]
      rcases lt_trichotomy l' u' with h | rfl | h
      · rw [if_pos h, if_neg (not_lt.mpr h.le), if_neg (fun h' => h.ne h'.1)]
      · rw [if_neg (lt_irrefl _)]
        cases lc <;> cases uc <;> simp
      · rw [if_neg (not_lt.mpr h.le), if_neg (fun h' => h.ne h'.1), if_pos h]

theorem after_ok {σ : Type} {aop : M σ Unit} {x y : σ} : after aop x = .ok y ↔ aop x = (.ok (), y) := by
  unfold after
  rcases aop x with ⟨_ | ⟨⟩, z⟩ <;> simp [Except.map]

theorem after_error {σ : Type} {aop : M σ Unit} {x : σ} : (∃ e, after aop x = .error e) ↔ ∃ e y, aop x = (.error e, y) := by
  unfold after
  rcases aop x with ⟨_ | ⟨⟩, z⟩ <;> simp [Except.map]

theorem onInterval_eq (s : Step T) (i : Interval T) : (∀ j, s.onInterval i = .ok j ↔ Interval.binOp s.onVal i = .ok j) ∧
    ((∃ e, s.onInterval i = .error e) ↔ ∃ e, Interval.binOp s.onVal i = .error e) := by
  cases s with
  | bin op => exact ⟨fun _ => Iff.rfl, Iff.rfl⟩
  | neg op =>
    have h : (Step.neg op).onInterval i = Interval.binOp (Step.neg op).onVal i := neg_eq_binOp op i
    rw [h]; exact ⟨fun _ => Iff.rfl, Iff.rfl⟩
  | assign aop =>
    have h : Agrees (after aop) aop := by
      intro x
      cases h : after aop x with
      | ok r => exact after_ok.mp h
      | error e =>
        unfold after at h
        generalize aop x = r at h ⊢
        rcases r with ⟨_ | ⟨⟩, z⟩
        · cases h; exact ⟨z, rfl⟩
        · cases h
    have := c40_intervals_agree h i
    exact ⟨fun j => after_ok.trans (this.1 j).symm, after_error.trans this.2.symm⟩

theorem Orderly.chain : ∀ {ss : List (Step T)}, (∀ s ∈ ss, Orderly s.onVal) → Orderly (chainVal ss)
  | [], _ => .inl fun x y x' y' hx hy h => by cases hx; cases hy; exact h
  | s :: rest, hs => by
    have h1 := hs s (List.mem_cons_self ..)
    have h2 := Orderly.chain (ss := rest) fun t ht => hs t (List.mem_cons_of_mem _ ht)
    have split : ∀ {x z}, chainVal (s :: rest) x = .ok z → ∃ y, s.onVal x = .ok y ∧ chainVal rest y = .ok z := by
      intro x z h
      have h : (s.onVal x >>= chainVal rest) = .ok z := h
      cases hx : s.onVal x with
      | error e => rw [hx] at h; cases h
      | ok y => rw [hx] at h; exact ⟨y, rfl, h⟩
    rcases h1 with h1 | h1 <;> rcases h2 with h2 | h2
    · refine .inl fun x y x' y' hx hy h => ?_
      obtain ⟨a, ha, hx⟩ := split hx; obtain ⟨b, hb, hy⟩ := split hy
      exact h2 _ _ _ _ hx hy (h1 _ _ _ _ ha hb h)
    · refine .inr fun x y x' y' hx hy h => ?_
      obtain ⟨a, ha, hx⟩ := split hx; obtain ⟨b, hb, hy⟩ := split hy
      exact h2 _ _ _ _ hx hy (h1 _ _ _ _ ha hb h)
    · refine .inr fun x y x' y' hx hy h => ?_
      obtain ⟨a, ha, hx⟩ := split hx; obtain ⟨b, hb, hy⟩ := split hy
      exact h2 _ _ _ _ hy hx (h1 _ _ _ _ ha hb h)
    · refine .inl fun x y x' y' hx hy h => ?_
      obtain ⟨a, ha, hx⟩ := split hx; obtain ⟨b, hb, hy⟩ := split hy
      exact h2 _ _ _ _ hy hx (h1 _ _ _ _ ha hb h)

theorem Orderly.between {op : T → Except Fault T} (h : Orderly op) {l u x l' u' x' : T} (hl : op l = .ok l')
    (hu : op u = .ok u') (hx : op x = .ok x') (h1 : l ≤ x) (h2 : x ≤ u) : min l' u' ≤ x' ∧ x' ≤ max l' u' := by
  rcases h with h | h
  · have a := h _ _ _ _ hl hx h1
    have b := h _ _ _ _ hx hu h2
    exact ⟨(min_le_left ..).trans a, b.trans (le_max_right ..)⟩
  · have a := h _ _ _ _ hl hx h1
    have b := h _ _ _ _ hx hu h2
    exact ⟨(min_le_right ..).trans b, a.trans (le_max_left ..)⟩

theorem fix_closed (l u : T) : Interval.fixAfterModification (iv l true u true) = iv (min l u) true (max l u) true := by
  rw [Interval.fix_mk]
  by_cases h : u < l
  · rw [if_pos h, min_eq_right h.le, max_eq_left h.le]
  · rw [if_neg h, if_neg (by simp), min_eq_left (not_lt.mp h), max_eq_right (not_lt.mp h)]

/-- a chain on a closed interval, whatever the order of the two values -/
theorem chain_closed (ss : List (Step T)) : ∀ (l u : T),
    (∀ a b, chainVal ss l = .ok a → chainVal ss u = .ok b →
      chainInterval ss (iv (min l u) true (max l u) true) = .ok (iv (min a b) true (max a b) true)) ∧
    ((∃ e, chainVal ss l = .error e) ∨ (∃ e, chainVal ss u = .error e) →
      ∃ e, chainInterval ss (iv (min l u) true (max l u) true) = .error e) := by
  induction ss with
  | nil =>
    intro l u
    refine ⟨fun a b ha hb => ?_, ?_⟩
    · cases ha; cases hb; rfl
    · rintro (⟨e, h⟩ | ⟨e, h⟩) <;> cases h
  | cons s rest ih =>
    intro l u
    have hc : ∀ i, chainInterval (s :: rest) i = (s.onInterval i >>= chainInterval rest) := fun i => rfl
    have hv : ∀ x, chainVal (s :: rest) x = (s.onVal x >>= chainVal rest) := fun x => rfl
    have hbin : (∀ l' u', s.onVal l = .ok l' → s.onVal u = .ok u' →
          s.onInterval (iv (min l u) true (max l u) true) = .ok (iv (min l' u') true (max l' u') true)) ∧
        ((∃ e, s.onVal l = .error e) ∨ (∃ e, s.onVal u = .error e) →
          ∃ e, s.onInterval (iv (min l u) true (max l u) true) = .error e) := by
      have key : ∀ p q : T, (∀ p' q', s.onVal p = .ok p' → s.onVal q = .ok q' →
            s.onInterval (iv p true q true) = .ok (iv (min p' q') true (max p' q') true)) ∧
          ((∃ e, s.onVal p = .error e) ∨ (∃ e, s.onVal q = .error e) →
            ∃ e, s.onInterval (iv p true q true) = .error e) := by
        intro p q
        rw [(onInterval_eq s (iv p true q true)).2]
        refine ⟨fun p' q' h1 h2 => by rw [(onInterval_eq s _).1, binOp_ok h1 h2, fix_closed], ?_⟩
        cases hq : s.onVal q with
        | error e => intro _; exact ⟨e, binOp_err_up hq⟩
        | ok q' =>
          rintro (⟨e, hp⟩ | ⟨e, h⟩)
          · exact ⟨e, binOp_err_lo hq hp⟩
          · cases h
      rcases le_total l u with h | h
      · rw [min_eq_left h, max_eq_right h]; exact key l u
      · rw [min_eq_right h, max_eq_left h]
        refine ⟨fun l' u' h1 h2 => ?_, fun h' => (key u l).2 h'.symm⟩
        rw [(key u l).1 u' l' h2 h1, min_comm, max_comm]
    rw [hc, hv, hv]
    cases hl : s.onVal l with
    | error e =>
      refine ⟨fun a b ha => (by cases ha), fun _ => ?_⟩
      obtain ⟨e, he⟩ := hbin.2 (.inl ⟨e, hl⟩)
      rw [he]; exact ⟨e, rfl⟩
    | ok l' =>
      cases hu : s.onVal u with
      | error e =>
        refine ⟨fun a b _ hb => (by cases hb), fun _ => ?_⟩
        obtain ⟨e, he⟩ := hbin.2 (.inr ⟨e, hu⟩)
        rw [he]; exact ⟨e, rfl⟩
      | ok u' =>
        rw [hbin.1 l' u' hl hu]
        exact ih l' u'

end

/-! ## C93 -/
section
variable {T : Type} [LinearOrder T] {i : Interval T}

/-- C93, one operator: it panics exactly if the element operator panics on a bound. Otherwise the image of every value
of the interval is in the result, except if it is the image of an open bound. -/
theorem c93_step (s : Step T) (hs : Orderly s.onVal) :
    ((∃ e, s.onInterval i = .error e) ↔ ∃ l lc u uc, i.intoTuple = some (l, lc, u, uc) ∧
      ((∃ e, s.onVal l = .error e) ∨ ∃ e, s.onVal u = .error e)) ∧
    ∀ j, s.onInterval i = .ok j → ∀ x y, Mem i x → s.onVal x = .ok y →
      (Mem j y ↔ ∀ l lc u uc, i.intoTuple = some (l, lc, u, uc) →
        (s.onVal l = .ok y → lc = true) ∧ (s.onVal u = .ok y → uc = true)) := by
  rw [(onInterval_eq s i).2]
  simp only [(onInterval_eq s i).1]
  rcases Interval.cases2 i with rfl | ⟨l, lc, u, uc, rfl⟩
  · refine ⟨⟨?_, ?_⟩, fun j hj x y hx => absurd hx mem_none⟩
    · rintro ⟨e, h⟩; cases h
    · rintro ⟨l, lc, u, uc, h, _⟩; cases h
  constructor
  · constructor
    · rintro ⟨e, he⟩
      refine ⟨l, lc, u, uc, rfl, ?_⟩
      cases hu : s.onVal u with
      | error e => exact .inr ⟨e, rfl⟩
      | ok u' =>
        cases hl : s.onVal l with
        | error e => exact .inl ⟨e, rfl⟩
        | ok l' => rw [binOp_ok hl hu] at he; cases he
    · rintro ⟨l2, lc2, u2, uc2, ht, hor⟩
      cases ht
      cases hu : s.onVal u with
      | error e => exact ⟨e, binOp_err_up hu⟩
      | ok u' =>
        rcases hor with ⟨e, hl⟩ | ⟨e, hu'⟩
        · exact ⟨e, binOp_err_lo hu hl⟩
        · rw [hu] at hu'; cases hu'
  · intro j hj x y hx hy
    have hlu : l ≤ x ∧ x ≤ u := by rw [mem_mk] at hx; grind
    cases hu : s.onVal u with
    | error e => rw [binOp_err_up hu] at hj; cases hj
    | ok u' =>
      cases hl : s.onVal l with
      | error e => rw [binOp_err_lo hu hl] at hj; cases hj
      | ok l' =>
        rw [binOp_ok hl hu] at hj
        cases hj
        have hb := hs.between hl hu hy hlu.1 hlu.2
        have e : (∀ l2 lc2 u2 uc2, (iv l lc u uc).intoTuple = some (l2, lc2, u2, uc2) →
            (s.onVal l2 = .ok y → lc2 = true) ∧ (s.onVal u2 = .ok y → uc2 = true)) ↔
            (l' = y → lc = true) ∧ (u' = y → uc = true) := by
          constructor
          · intro h
            have := h l lc u uc rfl
            rw [hl, hu] at this
            exact ⟨fun e => this.1 (by rw [e]), fun e => this.2 (by rw [e])⟩
          · intro h l2 lc2 u2 uc2 ht
            cases ht
            rw [hl, hu]
            exact ⟨fun e => h.1 (by cases e; rfl), fun e => h.2 (by cases e; rfl)⟩
        rw [e, Interval.fix_mk]
        rcases lt_trichotomy l' u' with h | rfl | h
        · rw [if_neg (not_lt.mpr h.le), if_neg (fun h' => h.ne h'.1), mem_mk]
          rw [min_eq_left h.le, max_eq_right h.le] at hb
          grind
        · rw [min_self, max_self] at hb
          have hyl : y = l' := le_antisymm hb.2 hb.1
          subst hyl
          rw [if_neg (lt_irrefl _)]
          cases lc <;> cases uc <;> simp [mem_mk, mem_none]
        · rw [if_pos h, mem_mk]
          rw [min_eq_right h.le, max_eq_left h.le] at hb
          grind

/-- C93, chains: on a closed interval a chain of operators returns exactly if it returns on both bounds, and then gives
the closed interval between the two results, which contains the result of the chain on every value of the interval. So
nothing is lost, and no smaller interval would do. -/
theorem c93_chain {ss : List (Step T)} (hs : ∀ s ∈ ss, Orderly s.onVal) {l u : T}
    (h : Interval.closed l u = .ok i) :
    ((∃ j, chainInterval ss i = .ok j) ↔ (∃ a, chainVal ss l = .ok a) ∧ ∃ b, chainVal ss u = .ok b) ∧
    ∀ a b, chainVal ss l = .ok a → chainVal ss u = .ok b → ∃ j, chainInterval ss i = .ok j ∧
      Interval.closed (min a b) (max a b) = .ok j ∧ ∀ x y, Mem i x → chainVal ss x = .ok y → Mem j y := by
  have hlu : l ≤ u := by
    by_contra hn
    have := (c23_new l true u true).1.mpr (.inl (not_le.mp hn))
    rw [← (c23_other_constructors l u true true).2.2.1, h] at this
    cases this
  have hmk : ∀ p q : T, p ≤ q → Interval.closed p q = .ok (iv p true q true) := by
    intro p q hpq
    obtain ⟨j, hj, ht, -⟩ := (c23_new p true q true).2 (by simp [not_lt.mpr hpq])
    rw [(c23_other_constructors p q true true).2.2.1, hj]
    rcases Interval.cases2 j with rfl | ⟨l, lc, u, uc, rfl⟩
    · cases ht
    · cases ht; rfl
  rw [hmk l u hlu] at h
  cases h
  have key := chain_closed ss l u
  rw [min_eq_left hlu, max_eq_right hlu] at key
  constructor
  · constructor
    · rintro ⟨j, hj⟩
      by_contra hn
      have : (∃ e, chainVal ss l = .error e) ∨ (∃ e, chainVal ss u = .error e) := by
        cases hl : chainVal ss l with
        | error e => exact .inl ⟨e, rfl⟩
        | ok a =>
          cases hu : chainVal ss u with
          | error e => exact .inr ⟨e, rfl⟩
          | ok b => exact absurd ⟨⟨a, hl⟩, b, hu⟩ hn
      obtain ⟨e, he⟩ := key.2 this
      rw [hj] at he; cases he
    · rintro ⟨⟨a, ha⟩, b, hb⟩
      exact ⟨_, key.1 a b ha hb⟩
  · intro a b ha hb
    refine ⟨_, key.1 a b ha hb, hmk _ _ (min_le_max ..), fun x y hx hy => ?_⟩
    rw [mem_mk] at hx ⊢
    have h1 : l ≤ x ∧ x ≤ u := by grind
    have := (Orderly.chain hs).between ha hb hy h1.1 h1.2
    constructor
    · rcases this.1.lt_or_eq with h | h
      · exact .inl h
      · exact .inr ⟨rfl, h⟩
    · rcases this.2.lt_or_eq with h | h
      · exact .inl h
      · exact .inr ⟨rfl, h⟩

end

/-- the operators of a machine integer type with overflow checks -/
inductive MachineStep (t : IntTy) : Step Int → Prop
  | add (c : Int) : MachineStep t (.bin (t.add true c))
  | sub (c : Int) : MachineStep t (.bin (t.sub true c))
  | mul (c : Int) : MachineStep t (.bin (t.mul true c))
  | div (c : Int) : MachineStep t (.bin (t.div true c))
  | neg : MachineStep t (.neg (t.neg true))
  | addAssign (c : Int) : MachineStep t (.assign (assign (t.add true c)))
  | subAssign (c : Int) : MachineStep t (.assign (assign (t.sub true c)))
  | mulAssign (c : Int) : MachineStep t (.assign (assign (t.mul true c)))
  | divAssign (c : Int) : MachineStep t (.assign (assign (t.div true c)))

theorem ofIdeal_ok {t : IntTy} {x y : Int} : t.ofIdeal true x = .ok y ↔ t.InRange x ∧ y = x := by
  unfold IntTy.ofIdeal
  by_cases h : t.InRange x
  · rw [if_pos h]; simp [h, eq_comm]
  · rw [if_neg h]; simp [h]

theorem after_assign (op : Int → Except Fault Int) : after (assign op) = op := by
  funext x
  unfold after assign
  cases op x <;> rfl

/-- always panics, or computes a monotone or antitone function and panics if the result does not fit -/
def Fits (t : IntTy) (op : Int → Except Fault Int) : Prop :=
  (∀ x, ∃ e, op x = .error e) ∨ ∃ f : Int → Int, ((∀ x y, x ≤ y → f x ≤ f y) ∨ (∀ x y, x ≤ y → f y ≤ f x)) ∧
    ∀ x, op x = t.ofIdeal true (f x)

theorem fits_add (t : IntTy) (c : Int) : Fits t (t.add true c) :=
  .inr ⟨fun x => x + c, .inl fun x y h => by simp only; omega, fun x => rfl⟩

theorem fits_sub (t : IntTy) (c : Int) : Fits t (t.sub true c) :=
  .inr ⟨fun x => x - c, .inl fun x y h => by simp only; omega, fun x => rfl⟩

theorem fits_mul (t : IntTy) (c : Int) : Fits t (t.mul true c) := by
  refine .inr ⟨fun x => x * c, ?_, fun x => rfl⟩
  rcases le_total 0 c with hc | hc
  · exact .inl fun x y h => Int.mul_le_mul_of_nonneg_right h hc
  · exact .inr fun x y h => Int.mul_le_mul_of_nonpos_right h hc

theorem fits_div (t : IntTy) (c : Int) : Fits t (t.div true c) := by
  by_cases hc : c = 0
  · exact .inl fun x => ⟨.divByZero, by unfold IntTy.div; rw [if_pos hc]⟩
  · refine .inr ⟨fun x => x.tdiv c, ?_, fun x => by unfold IntTy.div; rw [if_neg hc]⟩
    rcases Int.lt_or_gt_of_ne hc with hc | hc
    · exact .inr fun x y h => tdiv_anti hc h
    · exact .inl fun x y h => tdiv_mono hc h

theorem MachineStep.map {t : IntTy} {s : Step Int} (h : MachineStep t s) : Fits t s.onVal := by
  cases h with
  | add c => exact fits_add t c
  | sub c => exact fits_sub t c
  | mul c => exact fits_mul t c
  | div c => exact fits_div t c
  | neg => exact .inr ⟨fun x => -x, .inr fun x y h => by simp only; omega, fun x => rfl⟩
  | addAssign c => simp only [Step.onVal, after_assign]; exact fits_add t c
  | subAssign c => simp only [Step.onVal, after_assign]; exact fits_sub t c
  | mulAssign c => simp only [Step.onVal, after_assign]; exact fits_mul t c
  | divAssign c => simp only [Step.onVal, after_assign]; exact fits_div t c

theorem MachineStep.orderly {t : IntTy} {s : Step Int} (h : MachineStep t s) : Orderly s.onVal := by
  rcases h.map with h | ⟨f, hf, e⟩
  · refine .inl fun x y x' y' hx => ?_
    obtain ⟨e, he⟩ := h x; rw [he] at hx; cases hx
  · rcases hf with hf | hf
    · refine .inl fun x y x' y' hx hy hxy => ?_
      rw [e, ofIdeal_ok] at hx hy
      rw [hx.2, hy.2]; exact hf _ _ hxy
    · refine .inr fun x y x' y' hx hy hxy => ?_
      rw [e, ofIdeal_ok] at hx hy
      rw [hx.2, hy.2]; exact hf _ _ hxy

theorem machine_returns {t : IntTy} (ss : List (Step Int)) (hs : ∀ s ∈ ss, MachineStep t s) : ∀ {l u x a b : Int},
    chainVal ss l = .ok a → chainVal ss u = .ok b → (l ≤ x ∧ x ≤ u ∨ u ≤ x ∧ x ≤ l) → ∃ y, chainVal ss x = .ok y := by
  induction ss with
  | nil => intro l u x a b _ _ _; exact ⟨x, rfl⟩
  | cons s rest ih =>
    intro l u x a b ha hb hx
    have ha : (s.onVal l >>= chainVal rest) = .ok a := ha
    have hb : (s.onVal u >>= chainVal rest) = .ok b := hb
    show ∃ y, (s.onVal x >>= chainVal rest) = .ok y
    rcases (hs s (List.mem_cons_self ..)).map with h | ⟨f, hf, e⟩
    · obtain ⟨e, he⟩ := h l; rw [he] at ha; cases ha
    · rw [e] at ha hb ⊢
      have hr : ∀ {x z}, (t.ofIdeal true x >>= chainVal rest) = .ok z → t.InRange x ∧ chainVal rest x = .ok z := by
        intro x z h
        cases hx : t.ofIdeal true x with
        | error e => rw [hx] at h; cases h
        | ok y =>
          rw [hx] at h
          obtain ⟨h1, rfl⟩ := ofIdeal_ok.mp hx
          exact ⟨h1, h⟩
      obtain ⟨r1, ha⟩ := hr ha
      obtain ⟨r2, hb⟩ := hr hb
      have hfx : f l ≤ f x ∧ f x ≤ f u ∨ f u ≤ f x ∧ f x ≤ f l := by
        rcases hx with hx | hx <;> rcases hf with hf | hf
        · exact .inl ⟨hf _ _ hx.1, hf _ _ hx.2⟩
        · exact .inr ⟨hf _ _ hx.2, hf _ _ hx.1⟩
        · exact .inr ⟨hf _ _ hx.1, hf _ _ hx.2⟩
        · exact .inl ⟨hf _ _ hx.2, hf _ _ hx.1⟩
      have hin : t.InRange (f x) := by
        unfold IntTy.InRange at *
        omega
      rw [ofIdeal_ok.mpr ⟨hin, rfl⟩]
      exact ih (fun s h => hs s (List.mem_cons_of_mem _ h)) ha hb hfx

/-- C93, machine integers of any width with overflow checks: if a chain of `+`, `-`, `*`, `/`, the assigning operators
and negation returns on a closed interval, it returns on every value of the interval, and the result contains all these values. -/
theorem c93_machine {t : IntTy} {ss : List (Step Int)} (hs : ∀ s ∈ ss, MachineStep t s) {l u : Int}
    {i j : Interval Int} (h : Interval.closed l u = .ok i) (hj : chainInterval ss i = .ok j) {x : Int} (hx : Mem i x) :
    ∃ y, chainVal ss x = .ok y ∧ Mem j y := by
  obtain ⟨c1, c2⟩ := c93_chain (fun s h => (hs s h).orderly) h
  obtain ⟨⟨a, ha⟩, b, hb⟩ := c1.mp ⟨j, hj⟩
  obtain ⟨j', hj', hcl, hall⟩ := c2 a b ha hb
  rw [hj] at hj'; cases hj'
  have hlu : l ≤ u := by
    by_contra hn
    have := (c23_new l true u true).1.mpr (.inl (not_le.mp hn))
    rw [← (c23_other_constructors l u true true).2.2.1, h] at this
    cases this
  have hb' : l ≤ x ∧ x ≤ u := by
    obtain ⟨k, hk, ht, -⟩ := (c23_new l true u true).2 (by simp [not_lt.mpr hlu])
    rw [← (c23_other_constructors l u true true).2.2.1, h] at hk
    cases hk
    unfold Mem at hx
    rw [ht] at hx
    unfold Spec.Above Spec.Below at hx
    omega
  obtain ⟨y, hy⟩ := machine_returns ss hs ha hb (.inl hb')
  exact ⟨y, hy, hall x y hx hy⟩

/-- C93 needs the overflow checks: with wrapping arithmetic `[100, 127] + 1` on `i8` is `[-128, 101]`, which does not
contain `110 + 1`. -/
theorem c93_wrapping_loses_points : ∃ i j : Interval Int, Interval.closed 100 127 = .ok i ∧ BoundsInRange i8 i ∧
    (Step.bin (i8.add false 1)).onInterval i = .ok j ∧ Mem i 110 ∧ i8.add false 1 110 = .ok 111 ∧ ¬ Mem j 111 := by
  refine ⟨iv 100 true 127 true, iv (-128) true 101 true, rfl, ?_, rfl, mem_mk.mpr (by decide), rfl, ?_⟩
  · intro l lc u uc h; cases h; decide
  · rw [mem_mk]; decide

/-- an operator that rounds and saturates: the image of the open bound 1 is 0, which is not in the result -/
example : Orderly (Step.bin fun x : Int => .ok (min (x / 2) 1)).onVal ∧ Obtainable demo ∧ Mem demo 3 ∧ ¬ Mem demo 1 ∧
    (Step.bin fun x : Int => .ok (min (x / 2) 1)).onInterval demo = .ok (iv 0 false 1 true) ∧
    Mem (iv 0 false 1 true) (1 : Int) := by
  refine ⟨.inl ?_, demo_ok, mem_mk.mpr (by decide), fun h => absurd (mem_mk.mp h) (by decide), rfl, mem_mk.mpr (by decide)⟩
  intro x y x' y' hx hy h
  cases hx; cases hy
  have : x / 2 ≤ y / 2 := by omega
  exact min_le_min_right _ this

example : ∃ i, Interval.closed 3 7 = .ok i ∧
    (∀ s ∈ [Step.bin (i8.mul true (-9)), Step.assign (assign (i8.div true 4)), Step.neg (i8.neg true)], MachineStep i8 s) ∧
    chainInterval [Step.bin (i8.mul true (-9)), Step.assign (assign (i8.div true 4)), Step.neg (i8.neg true)] i =
      .ok (iv 6 true 15 true) ∧ Mem i 5 ∧
    chainVal [Step.bin (i8.mul true (-9)), Step.assign (assign (i8.div true 4)), Step.neg (i8.neg true)] 5 = .ok 11 := by
  refine ⟨_, rfl, ?_, rfl, mem_mk.mpr (by decide), rfl⟩
  intro s hs
  simp only [List.mem_cons, List.not_mem_nil, or_false] at hs
  rcases hs with rfl | rfl | rfl
  · exact .mul _
  · exact .divAssign _
  · exact .neg

end Itv
