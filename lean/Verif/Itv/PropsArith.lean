import Verif.Itv.Arith
import Verif.Itv.Props
/-!
# Property theorems C36–C42: interval arithmetic

An operator on the value type is a function that may panic. For ideal arithmetic it never does:
`fun x => .ok (x + c)`. `IntTy` is the machine-integer arithmetic. By C40 everything said about the
operators also holds for the assigning operators.
-/

open Rust
namespace Itv

section
variable {T : Type} [LinearOrder T] [AddCommGroup T] [IsOrderedAddMonoid T] {i : Interval T}

/-- C36: addition and subtraction translate the interval and undo each other. -/
theorem c36_translate (h : Obtainable i) (c : T) :
    ∃ p m, Interval.binOp (fun x => .ok (x + c)) i = .ok p ∧ Interval.binOp (fun x => .ok (x - c)) i = .ok m ∧
      (∀ y, Mem p y ↔ Mem i (y - c)) ∧ (∀ y, Mem m y ↔ Mem i (y + c)) ∧
      p.isEmpty = i.isEmpty ∧ m.isEmpty = i.isEmpty ∧
      Interval.binOp (fun x => .ok (x - c)) p = .ok i ∧ Interval.binOp (fun x => .ok (x + c)) m = .ok i ∧
      p.isLowerClosed = i.isLowerClosed ∧ p.isUpperClosed = i.isUpperClosed := by
  have h1 := h.wf
  have hp : ∀ x y : T, x + c < y + c ↔ x < y := fun x y => add_lt_add_iff_right c
  have hm : ∀ x y : T, x - c < y - c ↔ x < y := fun x y => sub_lt_sub_iff_right c
  rcases Interval.cases2 i with rfl | ⟨l, lc, u, uc, rfl⟩
  · exact ⟨⟨none⟩, ⟨none⟩, rfl, rfl, fun _ => Iff.rfl, fun _ => Iff.rfl, rfl, rfl, rfl, rfl, rfl, rfl⟩
  · have e1 := binOp_mono hp h1
    have e2 := binOp_mono hm h1
    have w1 : WellFormed (iv (l + c) lc (u + c) uc) := by
      rw [wf_mk] at h1 ⊢; rw [hp]; simpa using h1
    have w2 : WellFormed (iv (l - c) lc (u - c) uc) := by
      rw [wf_mk] at h1 ⊢; rw [hm]; simpa using h1
    refine ⟨_, _, e1, e2, mem_mono hp (fun y => sub_add_cancel y c), mem_mono hm (fun y => add_sub_cancel_right y c),
      rfl, rfl, ?_, ?_, rfl, rfl⟩
    · rw [binOp_mono hm w1]; simp
    · rw [binOp_mono hp w2]; simp

/-- C39: negation mirrors the interval and is an involution. -/
theorem c39_mirror (h : Obtainable i) :
    ∃ n, Interval.neg (fun x => .ok (-x)) i = .ok n ∧ (∀ y, Mem n y ↔ Mem i (-y)) ∧
      n.isEmpty = i.isEmpty ∧ n.isLowerClosed = i.isUpperClosed ∧ n.isUpperClosed = i.isLowerClosed ∧
      Interval.neg (fun x => .ok (-x)) n = .ok i := by
  have hneg : ∀ x y : T, -x < -y ↔ y < x := fun x y => neg_lt_neg_iff
  have h1 := h.wf
  rcases Interval.cases2 i with rfl | ⟨l, lc, u, uc, rfl⟩
  · exact ⟨⟨none⟩, rfl, fun _ => Iff.rfl, rfl, rfl, rfl, rfl⟩
  · have w : WellFormed (iv (-u) uc (-l) lc) := by
      rw [wf_mk] at h1 ⊢
      rw [hneg]
      rcases h1 with h1 | ⟨rfl, rfl, rfl⟩
      · exact Or.inl h1
      · exact Or.inr ⟨rfl, rfl, rfl⟩
    have e := neg_ok (op := fun x : T => .ok (-x)) (l := l) (lc := lc) (u := u) (uc := uc) rfl rfl
    rw [Interval.fix_of_wf w] at e
    have e' := neg_ok (op := fun x : T => .ok (-x)) (l := -u) (lc := uc) (u := -l) (uc := lc) rfl rfl
    rw [neg_neg, neg_neg, Interval.fix_of_wf h1] at e'
    exact ⟨_, e, mem_anti hneg (fun y => neg_neg y), rfl, rfl, rfl, e'⟩

end

example : Obtainable demo ∧ Mem demo 2 ∧ demo.isEmpty = false ∧
    Interval.neg (fun x => .ok (-x)) demo = .ok ⟨some ⟨⟨⟨-3, true⟩⟩, ⟨⟨-1, false⟩⟩⟩⟩ :=
  ⟨demo_ok, mem_mk.mpr (by decide), rfl, rfl⟩

/-- C37 is false of the code for zero: a non-empty interval with an open bound times zero is empty. -/
theorem c37_zero_loses_points : ∃ i : Interval Int, Obtainable i ∧ Mem i 2 ∧
    Interval.binOp (fun x => .ok (x * 0)) i = .ok Interval.empty ∧ ¬ Mem (Interval.empty : Interval Int) (2 * 0) :=
  ⟨demo, demo_ok, mem_mk.mpr (by decide), rfl, mem_none⟩

section
variable {R : Type} [LinearOrder R] [Ring R] [IsStrictOrderedRing R] {i : Interval R}

/-- C37, partial, rings: for `c ≠ 0`, positive or negative, every point is carried over; for `c = 0` the
result is `[0, 0]` if both bounds are closed, and empty otherwise. Missing: for `c = 0` and an interval
with an open bound the product does not contain `0`, as `c37_zero_loses_points` shows. -/
theorem c37_ring_partial (h : Obtainable i) (c : R) :
    ∃ j, Interval.binOp (fun x => .ok (x * c)) i = .ok j ∧
      (c ≠ 0 → (∀ x, Mem i x → Mem j (x * c)) ∧ (∀ x, Mem j (x * c) → Mem i x) ∧ j.isEmpty = i.isEmpty) ∧
      (c = 0 → j = if i.isLowerClosed = some true ∧ i.isUpperClosed = some true then Interval.single 0
        else Interval.empty) := by
  have h1 := h.wf
  rcases Interval.cases2 i with rfl | ⟨l, lc, u, uc, rfl⟩
  · exact ⟨⟨none⟩, rfl, fun _ => ⟨fun x hx => absurd hx mem_none, fun x hx => absurd hx mem_none, rfl⟩,
      fun _ => rfl⟩
  · rcases lt_trichotomy c 0 with hc | hc | hc
    · have hf : ∀ x y : R, x * c < y * c ↔ y < x := fun x y => mul_lt_mul_right_of_neg hc
      refine ⟨_, binOp_anti hf h1, fun _ => ?_, fun h => absurd h hc.ne⟩
      have hi : ∀ x y : R, x * c = y * c ↔ x = y := fun x y => mul_left_inj' hc.ne
      have key : ∀ x, Mem (iv (u * c) uc (l * c) lc) (x * c) ↔ Mem (iv l lc u uc) x := by
        intro x
        rw [mem_mk, mem_mk, hf, hf, hi, hi, and_comm, eq_comm (a := u), eq_comm (a := x) (b := l)]
      exact ⟨fun x hx => (key x).mpr hx, fun x hx => (key x).mp hx, rfl⟩
    · subst hc
      refine ⟨_, binOp_ok (op := fun x : R => .ok (x * 0)) rfl rfl, fun h => absurd rfl h, fun _ => ?_⟩
      rw [mul_zero, mul_zero, Interval.fix_mk, if_neg (lt_irrefl _)]
      show _ = if some lc = some true ∧ some uc = some true then _ else _
      cases lc <;> cases uc <;> simp [Interval.empty, Interval.single, LowerBound.new, UpperBound.new, Bound.new]
    · have hf : ∀ x y : R, x * c < y * c ↔ x < y := fun x y => mul_lt_mul_iff_left₀ hc
      refine ⟨_, binOp_mono hf h1, fun _ => ?_, fun h => absurd h hc.ne'⟩
      have hi : ∀ x y : R, x * c = y * c ↔ x = y := fun x y => mul_left_inj' hc.ne'
      have key : ∀ x, Mem (iv (l * c) lc (u * c) uc) (x * c) ↔ Mem (iv l lc u uc) x := by
        intro x
        rw [mem_mk, mem_mk, hf, hf, hi, hi]
      exact ⟨fun x hx => (key x).mpr hx, fun x hx => (key x).mp hx, rfl⟩

end

section
variable {K : Type} [LinearOrder K] [Field K] [IsStrictOrderedRing K] {i : Interval K}

/-- C37, fields: multiplication by `c ≠ 0` scales the point set exactly, also for negative `c`. -/
theorem c37_field (h : Obtainable i) {c : K} (hc : c ≠ 0) :
    ∃ j, Interval.binOp (fun x => .ok (x * c)) i = .ok j ∧ (∀ y, Mem j y ↔ Mem i (y / c)) := by
  obtain ⟨j, h1, h2, _⟩ := c37_ring_partial h c
  obtain ⟨h3, h4, _⟩ := h2 hc
  refine ⟨j, h1, fun y => ⟨fun hy => h4 _ ?_, fun hy => ?_⟩⟩
  · rwa [div_mul_cancel₀ y hc]
  · have := h3 _ hy
    rwa [div_mul_cancel₀ y hc] at this

/-- C38, fields: division by `c ≠ 0` scales the point set exactly, undoing multiplication. -/
theorem c38_field (h : Obtainable i) {c : K} (hc : c ≠ 0) :
    ∃ j, Interval.binOp (fun x => .ok (x / c)) i = .ok j ∧ (∀ y, Mem j y ↔ Mem i (y * c)) ∧
      Interval.binOp (fun x => .ok (x * c)) j = .ok i := by
  have e : (fun x : K => (Except.ok (x / c) : Except Fault K)) = fun x => .ok (x * c⁻¹) := by
    funext x; rw [div_eq_mul_inv]
  obtain ⟨j, h1, h2⟩ := c37_field h (inv_ne_zero hc)
  rw [e]
  refine ⟨j, h1, fun y => by rw [h2, div_inv_eq_mul], ?_⟩
  have h0 := h.wf
  rcases Interval.cases2 i with rfl | ⟨l, lc, u, uc, rfl⟩
  · cases h1; rfl
  · rcases lt_or_gt_of_ne hc with hc' | hc'
    · have hf : ∀ x y : K, x * c < y * c ↔ y < x := fun x y => mul_lt_mul_right_of_neg hc'
      have hg : ∀ x y : K, x * c⁻¹ < y * c⁻¹ ↔ y < x := fun x y =>
        mul_lt_mul_right_of_neg (inv_lt_zero.mpr hc')
      rw [binOp_anti hg h0] at h1
      cases h1
      rw [binOp_anti hf (by
        rw [wf_mk] at h0 ⊢; rw [hg]; rcases h0 with h0 | ⟨rfl, rfl, rfl⟩
        · exact Or.inl h0
        · exact Or.inr ⟨rfl, rfl, rfl⟩)]
      simp [mul_assoc, inv_mul_cancel₀ hc]
    · have hf : ∀ x y : K, x * c < y * c ↔ x < y := fun x y => mul_lt_mul_iff_left₀ hc'
      have hg : ∀ x y : K, x * c⁻¹ < y * c⁻¹ ↔ x < y := fun x y => mul_lt_mul_iff_left₀ (inv_pos.mpr hc')
      rw [binOp_mono hg h0] at h1
      cases h1
      rw [binOp_mono hf (by
        rw [wf_mk] at h0 ⊢; rw [hg]; rcases h0 with h0 | ⟨rfl, rfl, rfl⟩
        · exact Or.inl h0
        · exact Or.inr ⟨rfl, rfl, rfl⟩)]
      simp [mul_assoc, inv_mul_cancel₀ hc]

end

example : Obtainable demoQ ∧ ((-2 : Rat) ≠ 0) ∧ Obtainable demo ∧ Mem demo 2 ∧ ((-2 : Int) ≠ 0) :=
  ⟨demoQ_ok, by decide, demo_ok, mem_mk.mpr (by decide), by decide⟩

/-- C38 is false of the code for integers: `[2, 3) / 2` is empty although `2 / 2 = 1`, and `(1, 3) / 2` is
`(0, 1)`, which does not contain `2 / 2` either. -/
theorem c38_integer_loses_points :
    (∃ i : Interval Int, Obtainable i ∧ Mem i 2 ∧ Interval.binOp (idealDiv 2) i = .ok Interval.empty) ∧
    (∃ i j : Interval Int, Obtainable i ∧ Mem i 2 ∧ Interval.binOp (idealDiv 2) i = .ok j ∧
      j.isEmpty = false ∧ ¬ Mem j (Int.tdiv 2 2)) :=
  ⟨⟨iv 2 true 3 false, Obtainable.lowerClosed (l := 2) (u := 3) rfl, mem_mk.mpr (by decide), rfl⟩,
   ⟨iv 1 false 3 false, iv 0 false 1 false, Obtainable.open (l := 1) (u := 3) rfl, mem_mk.mpr (by decide), rfl,
     rfl, by rw [mem_mk]; decide⟩⟩

/-- C38, partial, truncating division of integers: it panics iff the interval is non-empty and `c = 0`;
otherwise the points of the result are exactly the quotients of points that are not the quotient of an open
bound. In particular nothing is lost if both bounds are closed, and nothing is ever gained. Missing: points
sharing the quotient of an open bound, which are lost (`c38_integer_loses_points` has two examples). -/
theorem c38_integer_partial {i : Interval Int} (h : Obtainable i) (c : Int) :
    (i.isEmpty = false → c = 0 → Interval.binOp (idealDiv c) i = .error .divByZero) ∧
    (i.isEmpty = true ∨ c ≠ 0 → ∃ j, Interval.binOp (idealDiv c) i = .ok j ∧
      (∀ y, Mem j y ↔ (∃ x, Mem i x ∧ y = x.tdiv c) ∧
        (∀ l, i.lower = some l → y = l.val.tdiv c → l.isClosed = true) ∧
        (∀ u, i.upper = some u → y = u.val.tdiv c → u.isClosed = true)) ∧
      (i.isLowerClosed = some true → i.isUpperClosed = some true → ∀ x, Mem i x → Mem j (x.tdiv c))) := by
  have hw := h.wf
  rcases Interval.cases2 i with rfl | ⟨l, lc, u, uc, rfl⟩
  · exact ⟨fun h => (by cases h), fun _ => ⟨⟨none⟩, rfl, fun y => ⟨fun hx => absurd hx mem_none,
      fun ⟨⟨x, hx, _⟩, _⟩ => absurd hx mem_none⟩, fun _ _ x hx => absurd hx mem_none⟩⟩
  · constructor
    · rintro _ rfl
      exact binOp_err_up rfl
    · intro hc
      have hc : c ≠ 0 := hc.resolve_left (fun h => by cases h)
      have hop : ∀ x, idealDiv c x = .ok (x.tdiv c) := fun x => by unfold idealDiv; rw [if_neg hc]
      have hmono : (∀ x y : Int, x ≤ y → x.tdiv c ≤ y.tdiv c) ∨ (∀ x y : Int, x ≤ y → y.tdiv c ≤ x.tdiv c) := by
        rcases Int.lt_or_gt_of_ne hc with hc | hc
        · exact Or.inr fun x y h => tdiv_anti hc h
        · exact Or.inl fun x y h => tdiv_mono hc h
      have hback : ∀ y : Int, (y * c).tdiv c = y := fun y => Int.mul_tdiv_cancel y hc
      refine ⟨_, binOp_ok (hop l) (hop u), fun y => ⟨fun hy => ?_, ?_⟩, ?_⟩
      · obtain ⟨⟨x, h1, h2⟩, h3, h4⟩ := of_mem_fix_image (l := l) (lc := lc) (u := u) (uc := uc)
          (f := fun x => x.tdiv c) (g := fun y => y * c) hmono hback hw hy
        exact ⟨⟨x, h1, h2⟩, fun l' hl' => by cases hl'; exact h3, fun u' hu' => by cases hu'; exact h4⟩
      · rintro ⟨⟨x, hx, rfl⟩, hl, hu⟩
        have := mem_fix_image (l := l) (lc := lc) (u := u) (uc := uc) (f := fun x => x.tdiv c) hmono hx
          (hl ⟨⟨l, lc⟩⟩ rfl) (hu ⟨⟨u, uc⟩⟩ rfl)
        exact this
      · intro hl hu x hx
        have hl' : lc = true := Option.some.inj hl
        have hu' : uc = true := Option.some.inj hu
        subst hl' hu'
        have := mem_fix_image (l := l) (lc := true) (u := u) (uc := true) (f := fun x => x.tdiv c) hmono hx
          (fun _ => rfl) (fun _ => rfl)
        exact this

example : Obtainable demo ∧ Mem demo 3 ∧ demo.isEmpty = false ∧
    Interval.binOp (idealDiv 2) demo = .ok (iv 0 false 1 true) ∧ Mem (iv 0 false 1 true) (Int.tdiv 3 2) :=
  ⟨demo_ok, mem_mk.mpr (by decide), rfl, rfl, mem_mk.mpr ⟨Or.inl (by decide), Or.inr ⟨rfl, by decide⟩⟩⟩

section
variable {T : Type} [LinearOrder T]

/-- C40, intervals: if the assigning operator of the value type does what its operator does (and panics when
that panics, whatever it leaves behind), so do those of the interval. -/
theorem c40_intervals_agree {op : T → Except Fault T} {aop : M T Unit} (h : Agrees op aop) (i : Interval T) :
    (∀ j, Interval.binOp op i = .ok j ↔ Interval.opAssign aop i = (.ok (), j)) ∧
    ((∃ e, Interval.binOp op i = .error e) ↔ ∃ e s, Interval.opAssign aop i = (.error e, s)) := by
  rcases Interval.cases2 i with rfl | ⟨l, lc, u, uc, rfl⟩
  · rw [binOp_none, opAssign_none]
    simp
  · cases hl : op l with
    | error e =>
      obtain ⟨l', hl'⟩ := h.error hl
      rw [opAssign_err_lo hl']
      cases hu : op u with
      | error e' => rw [binOp_err_up hu]; simp
      | ok u' => rw [binOp_err_lo hu hl]; simp
    | ok l' =>
      cases hu : op u with
      | error e' =>
        obtain ⟨u', hu'⟩ := h.error hu
        rw [binOp_err_up hu, opAssign_err_up (h.ok hl) hu']; simp
      | ok u' => rw [binOp_ok hl hu, opAssign_ok (h.ok hl) (h.ok hu)]; simp

/-- C40, bounds: operator and assigning operator give the same result or the same panic. A panicking one
leaves the kind of the bound as it was and the value as the operator of the value type left it, so a bound
whose value was left alone is itself left alone. -/
theorem c40_bounds_agree {op : T → Except Fault T} {aop : M T Unit} (h : Agrees op aop)
    (l : LowerBound T) (u : UpperBound T) :
    (match LowerBound.binOp op l with
      | .ok r => LowerBound.opAssign aop l = (.ok (), r)
      | .error e => ∃ v, aop l.val = (.error e, v) ∧
          LowerBound.opAssign aop l = (.error e, LowerBound.new v l.isClosed) ∧
          (v = l.val → LowerBound.opAssign aop l = (.error e, l))) ∧
    (match UpperBound.binOp op u with
      | .ok r => UpperBound.opAssign aop u = (.ok (), r)
      | .error e => ∃ v, aop u.val = (.error e, v) ∧
          UpperBound.opAssign aop u = (.error e, UpperBound.new v u.isClosed) ∧
          (v = u.val → UpperBound.opAssign aop u = (.error e, u))) ∧
    (∀ v, op l.val = .ok v → LowerBound.binOp op l = .ok (LowerBound.new v l.isClosed)) ∧
    (∀ v, op u.val = .ok v → UpperBound.binOp op u = .ok (UpperBound.new v u.isClosed)) := by
  obtain ⟨⟨l, lc⟩⟩ := l
  obtain ⟨⟨u, uc⟩⟩ := u
  unfold LowerBound.binOp UpperBound.binOp Bound.binOp LowerBound.opAssign UpperBound.opAssign Bound.opAssign
    LowerBound.val UpperBound.val
  refine ⟨?_, ?_, ?_, ?_⟩
  · cases hl : op l with
    | ok r => simp only [h.ok hl]; rfl
    | error e =>
      obtain ⟨v, hv⟩ := h.error hl
      simp only [hv]
      exact ⟨v, rfl, rfl, by rintro rfl; rfl⟩
  · cases hu : op u with
    | ok r => simp only [h.ok hu]; rfl
    | error e =>
      obtain ⟨v, hv⟩ := h.error hu
      simp only [hv]
      exact ⟨v, rfl, rfl, by rintro rfl; rfl⟩
  · intro v h; simp only at h; simp only [h]; rfl
  · intro v h; simp only at h; simp only [h]; rfl

/-- An assigning operator that leaves its operand alone when it panics, as those of the primitive types do. -/
def assign (op : T → Except Fault T) : M T Unit := fun x =>
  match op x with
  | .ok r => (.ok (), r)
  | .error e => (.error e, x)

theorem agrees_assign (op : T → Except Fault T) : Agrees op (assign op) := by
  intro x
  unfold assign
  cases h : op x with
  | ok r => rfl
  | error e => exact ⟨x, rfl⟩

end

/-- `i8` -/
def i8 : IntTy := ⟨8, true, by decide⟩

example : Interval.binOp (i8.add true 1) demo = .ok (iv 2 false 4 true) ∧
    Interval.opAssign (assign (i8.add true 1)) demo = (.ok (), iv 2 false 4 true) ∧
    Interval.binOp (i8.add true 125) demo = .error .overflow ∧
    Agrees (i8.add true 1) (assign (i8.add true 1)) := ⟨rfl, rfl, rfl, agrees_assign _⟩

-- an assigning operator that leaves rubbish behind when it panics also agrees
example : Agrees (i8.add true 1) (fun x => if x = 127 then (.error .overflow, 0) else assign (i8.add true 1) x) := by
  intro x
  by_cases hx : x = 127
  · subst hx; exact ⟨0, rfl⟩
  · simp only [hx, if_false]; exact agrees_assign _ x

/-! ## C41, C42 -/

/-- Both bounds are values of the type. -/
def BoundsInRange (t : IntTy) (i : Interval Int) : Prop :=
  ∀ l lc u uc, i.intoTuple = some (l, lc, u, uc) → t.InRange l ∧ t.InRange u

/-- `f` of a bound is not a value of the type. -/
def SomeBoundOverflows (t : IntTy) (f : Int → Int) (i : Interval Int) : Prop :=
  ∃ l lc u uc, i.intoTuple = some (l, lc, u, uc) ∧ (¬ t.InRange (f l) ∨ ¬ t.InRange (f u))

theorem bounds_fix {t : IntTy} {i : Interval Int} (h : BoundsInRange t i) :
    BoundsInRange t (Interval.fixAfterModification i) := by
  rcases Interval.cases2 i with rfl | ⟨l, lc, u, uc, rfl⟩
  · exact h
  · have := h l lc u uc rfl
    rw [Interval.fix_mk]
    split
    · intro a b c d e; cases e; exact this.symm
    · split
      · intro a b c d e; cases e
      · exact h

theorem wrap_inRange (t : IntTy) (x : Int) : t.InRange (t.wrap x) := by
  have hp : (0 : Int) < 2 ^ t.bits := by exact_mod_cast Nat.pow_pos (n := t.bits) (by decide : 0 < 2)
  have h1 := Int.emod_nonneg (x - t.minVal) hp.ne'
  have h2 := Int.emod_lt_of_pos (x - t.minVal) hp
  have h3 : t.maxVal = t.minVal + (2 ^ t.bits - 1) := by
    unfold IntTy.maxVal IntTy.minVal
    obtain ⟨k, hk⟩ : ∃ k, t.bits = k + 1 := ⟨t.bits - 1, by have := t.bits_pos; omega⟩
    split
    · rw [hk, Nat.add_sub_cancel, pow_succ]; omega
    · omega
  unfold IntTy.InRange IntTy.wrap
  omega

theorem machine_op {t : IntTy} {checks : Bool} {f : Int → Int} {i : Interval Int}
    {run : (Int → Except Fault Int) → Interval Int → Except Fault (Interval Int)}
    (hrun : run = Interval.binOp ∨ run = Interval.neg) :
    (¬ SomeBoundOverflows t f i → run (fun x => t.ofIdeal checks (f x)) i = run (fun x => .ok (f x)) i) ∧
    (SomeBoundOverflows t f i → checks = true → run (fun x => t.ofIdeal checks (f x)) i = .error .overflow) ∧
    (∀ j, run (fun x => t.ofIdeal checks (f x)) i = .ok j → BoundsInRange t j) := by
  have okk : ∀ x, t.InRange (f x) → t.ofIdeal checks (f x) = .ok (f x) := fun x h => by
    unfold IntTy.ofIdeal; rw [if_pos h]
  have errr : ∀ x, ¬ t.InRange (f x) → checks = true → t.ofIdeal checks (f x) = .error .overflow := fun x h hc => by
    unfold IntTy.ofIdeal; rw [if_neg h, if_pos hc]
  have rng : ∀ x y, t.ofIdeal checks x = .ok y → t.InRange y := by
    intro x y h
    unfold IntTy.ofIdeal at h
    split at h
    · cases h; assumption
    · split at h
      · cases h
      · cases h; exact wrap_inRange t x
  rcases Interval.cases2 i with rfl | ⟨l, lc, u, uc, rfl⟩
  · refine ⟨fun _ => ?_, ?_, ?_⟩
    · rcases hrun with rfl | rfl <;> rfl
    · rintro ⟨_, _, _, _, h, _⟩; cases h
    · intro j hj a b c d hh
      rcases hrun with rfl | rfl <;> (cases hj; cases hh)
  · refine ⟨fun h => ?_, fun h hc => ?_, fun j hj => ?_⟩
    · have h1 : t.InRange (f l) := by by_contra hn; exact h ⟨l, lc, u, uc, rfl, Or.inl hn⟩
      have h2 : t.InRange (f u) := by by_contra hn; exact h ⟨l, lc, u, uc, rfl, Or.inr hn⟩
      rcases hrun with rfl | rfl
      · rw [binOp_ok (op := fun x => t.ofIdeal checks (f x)) (okk l h1) (okk u h2),
          binOp_ok (op := fun x => .ok (f x)) rfl rfl]
      · rw [neg_ok (op := fun x => t.ofIdeal checks (f x)) (okk l h1) (okk u h2),
          neg_ok (op := fun x => .ok (f x)) rfl rfl]
    · obtain ⟨_, _, _, _, h0, h⟩ := h
      cases h0
      by_cases hu : t.InRange (f u)
      · have hl : ¬ t.InRange (f l) := h.resolve_right (fun h => h hu)
        rcases hrun with rfl | rfl
        · exact binOp_err_lo (op := fun x => t.ofIdeal checks (f x)) (okk u hu) (errr l hl hc)
        · exact neg_err_lo (op := fun x => t.ofIdeal checks (f x)) (okk u hu) (errr l hl hc)
      · rcases hrun with rfl | rfl
        · exact binOp_err_up (op := fun x => t.ofIdeal checks (f x)) (errr u hu hc)
        · exact neg_err_up (op := fun x => t.ofIdeal checks (f x)) (errr u hu hc)
    · cases hl : t.ofIdeal checks (f l) with
      | error e =>
        cases hu : t.ofIdeal checks (f u) with
        | error e' =>
          rcases hrun with rfl | rfl
          · rw [binOp_err_up (op := fun x => t.ofIdeal checks (f x)) hu] at hj; cases hj
          · rw [neg_err_up (op := fun x => t.ofIdeal checks (f x)) hu] at hj; cases hj
        | ok u' =>
          rcases hrun with rfl | rfl
          · rw [binOp_err_lo (op := fun x => t.ofIdeal checks (f x)) hu hl] at hj; cases hj
          · rw [neg_err_lo (op := fun x => t.ofIdeal checks (f x)) hu hl] at hj; cases hj
      | ok l' =>
        cases hu : t.ofIdeal checks (f u) with
        | error e' =>
          rcases hrun with rfl | rfl
          · rw [binOp_err_up (op := fun x => t.ofIdeal checks (f x)) hu] at hj; cases hj
          · rw [neg_err_up (op := fun x => t.ofIdeal checks (f x)) hu] at hj; cases hj
        | ok u' =>
          have r1 := rng _ _ hl
          have r2 := rng _ _ hu
          rcases hrun with rfl | rfl
          · rw [binOp_ok (op := fun x => t.ofIdeal checks (f x)) hl hu] at hj; cases hj
            exact bounds_fix (by intro a b c d e; cases e; exact ⟨r1, r2⟩)
          · rw [neg_ok (op := fun x => t.ofIdeal checks (f x)) hl hu] at hj; cases hj
            exact bounds_fix (by intro a b c d e; cases e; exact ⟨r2, r1⟩)

/-- C41, `+`, `-`, `*` and negation: without overflow of a bound, the machine result is the ideal one, in
both builds; with overflow the checked build panics; and whatever is returned has bounds of the type. -/
theorem c41_ring_ops (t : IntTy) (checks : Bool) (i : Interval Int) (c : Int) :
    ∀ p ∈ [(t.add checks c, fun x => x + c), (t.sub checks c, fun x => x - c), (t.mul checks c, fun x => x * c)],
    (¬ SomeBoundOverflows t p.2 i → Interval.binOp p.1 i = Interval.binOp (fun x => .ok (p.2 x)) i) ∧
    (SomeBoundOverflows t p.2 i → checks = true → Interval.binOp p.1 i = .error .overflow) ∧
    (∀ j, Interval.binOp p.1 i = .ok j → BoundsInRange t j) := by
  intro p hp
  simp only [List.mem_cons, List.not_mem_nil, or_false] at hp
  rcases hp with rfl | rfl | rfl
  · exact machine_op (Or.inl rfl)
  · exact machine_op (Or.inl rfl)
  · exact machine_op (Or.inl rfl)

/-- C41, negation. -/
theorem c41_neg (t : IntTy) (checks : Bool) (i : Interval Int) :
    (¬ SomeBoundOverflows t (fun x => -x) i →
      Interval.neg (t.neg checks) i = Interval.neg (fun x => .ok (-x)) i) ∧
    (SomeBoundOverflows t (fun x => -x) i → checks = true → Interval.neg (t.neg checks) i = .error .overflow) ∧
    (∀ j, Interval.neg (t.neg checks) i = .ok j → BoundsInRange t j) :=
  machine_op (Or.inr rfl)

/-- C41, division: a zero divisor panics (for non-empty intervals); otherwise the result is the ideal one,
or a panic exactly if the quotient of a bound is not a value of the type (`MIN / -1`), in both builds. -/
theorem c41_div (t : IntTy) (checks : Bool) (i : Interval Int) (c : Int) :
    (i.isEmpty = false → c = 0 → Interval.binOp (t.div checks c) i = .error .divByZero) ∧
    (c ≠ 0 → ¬ SomeBoundOverflows t (fun x => x.tdiv c) i →
      Interval.binOp (t.div checks c) i = Interval.binOp (idealDiv c) i) ∧
    (c ≠ 0 → SomeBoundOverflows t (fun x => x.tdiv c) i →
      Interval.binOp (t.div checks c) i = .error .overflow) ∧
    (∀ j, Interval.binOp (t.div checks c) i = .ok j → BoundsInRange t j) := by
  have e : c ≠ 0 → t.div checks c = fun x => t.ofIdeal true (x.tdiv c) := fun hc => by
    funext x; unfold IntTy.div; rw [if_neg hc]
  have e' : c ≠ 0 → idealDiv c = fun x => .ok (x.tdiv c) := fun hc => by
    funext x; unfold idealDiv; rw [if_neg hc]
  have hm := machine_op (t := t) (checks := true) (f := fun x => x.tdiv c) (i := i) (Or.inl rfl)
  have hz : i.isEmpty = false → c = 0 → Interval.binOp (t.div checks c) i = .error .divByZero := by
    rintro hi rfl
    rcases Interval.cases2 i with rfl | ⟨l, lc, u, uc, rfl⟩
    · cases hi
    · exact binOp_err_up rfl
  refine ⟨hz, fun hc h => ?_, fun hc h => ?_, fun j hj => ?_⟩
  · rw [e hc, e' hc]; exact hm.1 h
  · rw [e hc]; exact hm.2.1 h rfl
  · by_cases hc : c = 0
    · rcases Interval.cases2 i with rfl | ⟨l, lc, u, uc, rfl⟩
      · rw [binOp_none] at hj; cases hj; intro a b c d e; cases e
      · rw [hz rfl hc] at hj; cases hj
    · rw [e hc] at hj; exact hm.2.2 j hj

/-- C41: `MIN / -1` is the only division that overflows. -/
theorem c41_div_overflow (t : IntTy) {c : Int} (hc : c ≠ 0) (hct : t.InRange c) {i : Interval Int}
    (hi : BoundsInRange t i) (h : SomeBoundOverflows t (fun x => x.tdiv c) i) :
    t.signed = true ∧ c = -1 ∧ ∃ l lc u uc, i.intoTuple = some (l, lc, u, uc) ∧ (l = t.minVal ∨ u = t.minVal) := by
  obtain ⟨l, lc, u, uc, h0, h⟩ := h
  obtain ⟨hl, hu⟩ := hi _ _ _ _ h0
  have key : ∀ x, t.InRange x → ¬ t.InRange (x.tdiv c) → t.signed = true ∧ c = -1 ∧ x = t.minVal := by
    intro x hx hn
    have habs : (x.tdiv c).natAbs ≤ x.natAbs := by
      rw [Int.natAbs_tdiv]; exact Nat.div_le_self _ _
    have hp : (0 : Int) < 2 ^ (t.bits - 1) := by exact_mod_cast Nat.pow_pos (n := t.bits - 1) (by decide : 0 < 2)
    unfold IntTy.InRange IntTy.minVal IntTy.maxVal at *
    cases hs : t.signed with
    | false =>
      simp only [hs, Bool.false_eq_true, if_false] at *
      have : 0 ≤ x.tdiv c := Int.tdiv_nonneg hx.1 hct.1
      omega
    | true =>
      simp only [hs, if_true] at *
      by_cases hc1 : c = -1
      · subst hc1
        rw [Int.tdiv_neg, Int.tdiv_one] at hn
        exact ⟨trivial, rfl, by omega⟩
      · exfalso
        by_cases hc1' : c = 1
        · subst hc1'; rw [Int.tdiv_one] at hn; exact hn hx
        · have h2 : 2 ≤ c.natAbs := by omega
          have h3 : (x.tdiv c).natAbs ≤ x.natAbs / 2 := by
            rw [Int.natAbs_tdiv]; exact Nat.div_le_div_left h2 (by decide)
          omega
  rcases h with h | h
  · obtain ⟨a, b, c'⟩ := key l hl h
    exact ⟨a, b, l, lc, u, uc, h0, Or.inl c'⟩
  · obtain ⟨a, b, c'⟩ := key u hu h
    exact ⟨a, b, l, lc, u, uc, h0, Or.inr c'⟩

example : BoundsInRange i8 demo ∧ ¬ SomeBoundOverflows i8 (fun x => x + 100) demo ∧
    SomeBoundOverflows i8 (fun x => x + 125) demo ∧ i8.InRange (-1) ∧
    SomeBoundOverflows i8 (fun x => x.tdiv (-1)) (Interval.single (-128)) := by
  refine ⟨?_, ?_, ⟨1, false, 3, true, rfl, by decide⟩, by decide, ⟨-128, true, -128, true, rfl, by decide⟩⟩
  · intro a b c d e; cases e; decide
  · rintro ⟨_, _, _, _, e, h⟩; cases e; revert h; decide

-- a wrapping build returns nonsense when a bound overflows: `(100, 120] + 10` on `i8`
example : Interval.binOp (i8.add false 10) (iv 100 false 120 true) = .ok (iv (-126) true 110 false) := rfl

/-- C42 is false of the code: `(126, 127) += 1` on `i8` panics while adding to the upper bound, after the
lower bound was changed; the interval left behind is `(127, 127)`, and taking its span with itself panics. -/
theorem c42_panic_leaves_ill_formed : ∃ (i : Interval Int) (e : Fault) (j : Interval Int), Obtainable i ∧
    BoundsInRange i8 i ∧ Interval.opAssign (assign (i8.add true 1)) i = (.error e, j) ∧ ¬ WellFormed j ∧
    Interval.intoSpan j j = .error .explicit := by
  refine ⟨iv 126 false 127 false, .overflow, iv 127 false 127 false, Obtainable.open (l := 126) (u := 127) rfl,
    ?_, rfl, ?_, rfl⟩
  · intro a b c d e; cases e; decide
  · rw [wf_mk]; decide

section
variable {T : Type} [LinearOrder T] {i j : Interval T}

/-- C42, partial: if the panic comes from the lower bound, the interval is as before but for what the operator
left in its lower bound; otherwise its lower bound is the new one and its upper bound what the operator left
there. If the operator leaves its operand alone when it panics, the interval is then unchanged in the first
case, and well formed in the second unless the lower bound grew (as it cannot when subtracting a non-negative
value). Missing: well-formedness in general, which `c42_panic_leaves_ill_formed` refutes. -/
theorem c42_after_panic_partial (aop : M T Unit) {e : Fault} (h : Obtainable i)
    (hp : Interval.opAssign aop i = (.error e, j)) :
    ∃ l lc u uc, i.intoTuple = some (l, lc, u, uc) ∧
      ((∃ l', aop l = (.error e, l') ∧ j.intoTuple = some (l', lc, u, uc) ∧ (l' = l → j = i) ∧
          (l' ≤ l → WellFormed j)) ∨
       ∃ l' u', aop l = (.ok (), l') ∧ aop u = (.error e, u') ∧ j.intoTuple = some (l', lc, u', uc) ∧
          (l' ≤ l → u ≤ u' → WellFormed j)) := by
  have h1 := h.wf
  rcases Interval.cases2 i with rfl | ⟨l, lc, u, uc, rfl⟩
  · cases hp
  · refine ⟨l, lc, u, uc, rfl, ?_⟩
    rcases hl : aop l with ⟨_ | _, l'⟩
    · rw [opAssign_err_lo hl] at hp
      cases hp
      refine Or.inl ⟨l', rfl, rfl, by rintro rfl; rfl, fun hle => ?_⟩
      rw [wf_mk] at h1 ⊢
      grind
    · rcases hu : aop u with ⟨_ | _, u'⟩
      · rw [opAssign_err_up hl hu] at hp
        cases hp
        refine Or.inr ⟨l', u', rfl, rfl, rfl, fun hle hle' => ?_⟩
        rw [wf_mk] at h1 ⊢
        grind
      · rw [opAssign_ok hl hu] at hp; cases hp

end

example : ∃ j, Interval.opAssign (assign (i8.add true 125)) demo = (.error .overflow, j) ∧ Obtainable demo :=
  ⟨_, rfl, demo_ok⟩

end Itv
