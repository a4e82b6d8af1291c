import Verif.Itv.Lemmas
import Mathlib.Algebra.Order.Field.Basic
import Mathlib.Algebra.Order.Ring.Unbundled.Rat
/-!
# Arithmetic on intervals: machine integers and helper lemmas

`IntTy` is a fixed-width integer type with the arithmetic of a checked or of a wrapping build. The lemmas
say what `fix_after_modification` does to the image of an interval under a monotone map.
-/

open Rust
namespace Itv

/-! ## Specification of machine integers -/

/-- A primitive integer type: `bits` bits, signed or not. -/
structure IntTy where
  bits : Nat
  signed : Bool
  bits_pos : 0 < bits

namespace IntTy

/-- `MIN` -/
def minVal (t : IntTy) : Int := if t.signed then -(2 ^ (t.bits - 1)) else 0
/-- `MAX` -/
def maxVal (t : IntTy) : Int := if t.signed then 2 ^ (t.bits - 1) - 1 else 2 ^ t.bits - 1

/-- The integer is a value of the type. -/
def InRange (t : IntTy) (x : Int) : Prop := t.minVal ≤ x ∧ x ≤ t.maxVal

instance (t : IntTy) (x : Int) : Decidable (t.InRange x) := inferInstanceAs (Decidable (_ ∧ _))

/-- The value of the type that is congruent to `x` modulo `2 ^ bits`. -/
def wrap (t : IntTy) (x : Int) : Int := (x - t.minVal) % 2 ^ t.bits + t.minVal

/-- The machine result of an operation whose mathematical result is `x`. -/
def ofIdeal (t : IntTy) (checks : Bool) (x : Int) : Except Fault Int :=
  if t.InRange x then .ok x else if checks then .error .overflow else .ok (t.wrap x)

/-- `x + c` -/
def add (t : IntTy) (checks : Bool) (c x : Int) : Except Fault Int := t.ofIdeal checks (x + c)
/-- `x - c` -/
def sub (t : IntTy) (checks : Bool) (c x : Int) : Except Fault Int := t.ofIdeal checks (x - c)
/-- `x * c` -/
def mul (t : IntTy) (checks : Bool) (c x : Int) : Except Fault Int := t.ofIdeal checks (x * c)
/-- `x / c`, truncating; division by zero panics, and so does `MIN / -1`, whatever the build. -/
def div (t : IntTy) (_checks : Bool) (c x : Int) : Except Fault Int :=
  if c = 0 then .error .divByZero else t.ofIdeal true (x.tdiv c)
/-- `-x` (signed types only) -/
def neg (t : IntTy) (checks : Bool) (x : Int) : Except Fault Int := t.ofIdeal checks (-x)

end IntTy

/-- Truncating division on unbounded integers. -/
def idealDiv (c x : Int) : Except Fault Int := if c = 0 then .error .divByZero else .ok (x.tdiv c)

/-! ## Helper lemmas -/

section
variable {T : Type} [LinearOrder T] {l u : T} {lc uc : Bool}

theorem binOp_none (op : T → Except Fault T) : Interval.binOp op (⟨none⟩ : Interval T) = .ok ⟨none⟩ := rfl

theorem binOp_ok {op : T → Except Fault T} {l' u' : T} (h1 : op l = .ok l') (h2 : op u = .ok u') :
    Interval.binOp op (iv l lc u uc) = .ok (Interval.fixAfterModification (iv l' lc u' uc)) := by
  show (do
    let up ← UpperBound.binOp op ⟨⟨u, uc⟩⟩
    let lo ← LowerBound.binOp op ⟨⟨l, lc⟩⟩
    return Interval.fixAfterModification { imp := some { lo := lo, up := up } }) = _
  unfold UpperBound.binOp LowerBound.binOp Bound.binOp
  simp only [h1, h2]
  rfl

theorem binOp_err_up {op : T → Except Fault T} {e : Fault} (h2 : op u = .error e) :
    Interval.binOp op (iv l lc u uc) = .error e := by
  show (do
    let up ← UpperBound.binOp op ⟨⟨u, uc⟩⟩
    let lo ← LowerBound.binOp op ⟨⟨l, lc⟩⟩
    return Interval.fixAfterModification { imp := some { lo := lo, up := up } }) = _
  unfold UpperBound.binOp Bound.binOp
  simp only [h2]
  rfl

theorem binOp_err_lo {op : T → Except Fault T} {e : Fault} {u' : T} (h2 : op u = .ok u') (h1 : op l = .error e) :
    Interval.binOp op (iv l lc u uc) = .error e := by
  show (do
    let up ← UpperBound.binOp op ⟨⟨u, uc⟩⟩
    let lo ← LowerBound.binOp op ⟨⟨l, lc⟩⟩
    return Interval.fixAfterModification { imp := some { lo := lo, up := up } }) = _
  unfold UpperBound.binOp LowerBound.binOp Bound.binOp
  simp only [h1, h2]
  rfl

theorem opAssign_none (aop : M T Unit) :
    Interval.opAssign aop (⟨none⟩ : Interval T) = (.ok (), ⟨none⟩) := rfl

theorem opAssign_ok {aop : M T Unit} {l' u' : T} (h1 : aop l = (.ok (), l')) (h2 : aop u = (.ok (), u')) :
    Interval.opAssign aop (iv l lc u uc) = (.ok (), Interval.fixAfterModification (iv l' lc u' uc)) := by
  unfold Interval.opAssign Interval.opAssign2 LowerBound.opAssign UpperBound.opAssign Bound.opAssign
  simp only [h1, h2]

theorem opAssign_err_lo {aop : M T Unit} {e : Fault} {l' : T} (h1 : aop l = (.error e, l')) :
    Interval.opAssign aop (iv l lc u uc) = (.error e, iv l' lc u uc) := by
  unfold Interval.opAssign Interval.opAssign2 LowerBound.opAssign Bound.opAssign
  simp only [h1]

theorem opAssign_err_up {aop : M T Unit} {e : Fault} {l' u' : T} (h1 : aop l = (.ok (), l'))
    (h2 : aop u = (.error e, u')) :
    Interval.opAssign aop (iv l lc u uc) = (.error e, iv l' lc u' uc) := by
  unfold Interval.opAssign Interval.opAssign2 LowerBound.opAssign UpperBound.opAssign Bound.opAssign
  simp only [h1, h2]

theorem Agrees.ok {op : T → Except Fault T} {aop : M T Unit} (h : Agrees op aop) {x r : T} (hx : op x = .ok r) :
    aop x = (.ok (), r) := by
  have := h x
  rw [hx] at this
  exact this

theorem Agrees.error {op : T → Except Fault T} {aop : M T Unit} (h : Agrees op aop) {x : T} {e : Fault}
    (hx : op x = .error e) : ∃ x', aop x = (.error e, x') := by
  have := h x
  rw [hx] at this
  exact this

theorem neg_ok {op : T → Except Fault T} {l' u' : T} (h1 : op l = .ok l') (h2 : op u = .ok u') :
    Interval.neg op (iv l lc u uc) = .ok (Interval.fixAfterModification (iv u' uc l' lc)) := by
  show (do
    let nu ← op u
    let nl ← op l
    return Interval.createFriendly nu uc nl lc) = _
  rw [h1, h2]; rfl

theorem neg_err_up {op : T → Except Fault T} {e : Fault} (h2 : op u = .error e) :
    Interval.neg op (iv l lc u uc) = .error e := by
  show (do
    let nu ← op u
    let nl ← op l
    return Interval.createFriendly nu uc nl lc) = _
  rw [h2]; rfl

theorem neg_err_lo {op : T → Except Fault T} {e : Fault} {u' : T} (h2 : op u = .ok u') (h1 : op l = .error e) :
    Interval.neg op (iv l lc u uc) = .error e := by
  show (do
    let nu ← op u
    let nl ← op l
    return Interval.createFriendly nu uc nl lc) = _
  rw [h2]
  show (do
    let nl ← op l
    return Interval.createFriendly u' uc nl lc) = _
  rw [h1]; rfl

theorem binOp_mono {f : T → T} (hf : ∀ x y, f x < f y ↔ x < y) (h : WellFormed (iv l lc u uc)) :
    Interval.binOp (fun x => .ok (f x)) (iv l lc u uc) = .ok (iv (f l) lc (f u) uc) := by
  rw [binOp_ok (op := fun x => .ok (f x)) rfl rfl, Interval.fix_of_wf]
  rw [wf_mk] at h ⊢
  rcases h with h | ⟨rfl, h⟩
  · exact Or.inl ((hf _ _).mpr h)
  · exact Or.inr ⟨rfl, h⟩

theorem binOp_anti {f : T → T} (hf : ∀ x y, f x < f y ↔ y < x) (h : WellFormed (iv l lc u uc)) :
    Interval.binOp (fun x => .ok (f x)) (iv l lc u uc) = .ok (iv (f u) uc (f l) lc) := by
  rw [binOp_ok (op := fun x => .ok (f x)) rfl rfl, Interval.fix_mk]
  rw [wf_mk] at h
  rcases h with h | ⟨rfl, rfl, rfl⟩
  · rw [if_pos ((hf _ _).mpr h)]
  · rw [if_neg (lt_irrefl _), if_neg (by simp)]

theorem mem_mono {f g : T → T} (hf : ∀ x y, f x < f y ↔ x < y) (hfg : ∀ y, f (g y) = y) (y : T) :
    Mem (iv (f l) lc (f u) uc) y ↔ Mem (iv l lc u uc) (g y) := by
  have e : ∀ x y, f x = f y ↔ x = y := by
    intro x y
    refine ⟨fun hxy => ?_, fun h => by rw [h]⟩
    rcases lt_trichotomy x y with h | h | h
    · have := (hf x y).mpr h; rw [hxy] at this; exact absurd this (lt_irrefl _)
    · exact h
    · have := (hf y x).mpr h; rw [hxy] at this; exact absurd this (lt_irrefl _)
  rw [mem_mk, mem_mk]
  conv_lhs => rw [← hfg y]
  rw [hf, hf, e, e]

theorem mem_anti {f g : T → T} (hf : ∀ x y, f x < f y ↔ y < x) (hfg : ∀ y, f (g y) = y) (y : T) :
    Mem (iv (f u) uc (f l) lc) y ↔ Mem (iv l lc u uc) (g y) := by
  have e : ∀ x y, f x = f y ↔ x = y := by
    intro x y
    refine ⟨fun hxy => ?_, fun h => by rw [h]⟩
    rcases lt_trichotomy x y with h | h | h
    · have := (hf y x).mpr h; rw [hxy] at this; exact absurd this (lt_irrefl _)
    · exact h
    · have := (hf x y).mpr h; rw [hxy] at this; exact absurd this (lt_irrefl _)
  rw [mem_mk, mem_mk]
  conv_lhs => rw [← hfg y]
  rw [hf, hf, e, e, and_comm, eq_comm (a := u), eq_comm (a := g y) (b := l)]

/-- Image of a point under a weakly monotone or antitone map: it is in the image interval unless it hits
the image of an open bound. -/
theorem mem_fix_image {f : T → T} (hf : (∀ x y, x ≤ y → f x ≤ f y) ∨ (∀ x y, x ≤ y → f y ≤ f x)) {x : T}
    (hx : Mem (iv l lc u uc) x) (hl : f x = f l → lc = true) (hu : f x = f u → uc = true) :
    Mem (Interval.fixAfterModification (iv (f l) lc (f u) uc)) (f x) := by
  rw [mem_mk] at hx
  have h1 : l ≤ x := by grind
  have h2 : x ≤ u := by grind
  rw [Interval.fix_mk]
  rcases hf with hf | hf
  · have a1 := hf _ _ h1
    have a2 := hf _ _ h2
    rw [if_neg (not_lt.mpr (a1.trans a2))]
    split
    · rename_i h
      have b1 : f x = f l := le_antisymm (by rw [h.1]; exact a2) a1
      have b2 : f x = f u := by rw [b1, h.1]
      have := hl b1
      have := hu b2
      grind
    · rw [mem_mk]; grind
  · have a1 := hf _ _ h1
    have a2 := hf _ _ h2
    by_cases hlt : f u < f l
    · rw [if_pos hlt, mem_mk]; grind
    · rw [if_neg hlt]
      have b0 : f l = f u := le_antisymm (not_lt.mp hlt) (a2.trans a1)
      have b1 : f x = f l := le_antisymm a1 (by rw [b0]; exact a2)
      have := hl b1
      have := hu (b1.trans b0)
      rw [if_neg (by grind), mem_mk]; grind

/-- Conversely, if the map is onto, every point of the image interval is the image of a point, and not that of
an open bound. -/
theorem of_mem_fix_image {f g : T → T} (hf : (∀ x y, x ≤ y → f x ≤ f y) ∨ (∀ x y, x ≤ y → f y ≤ f x))
    (hg : ∀ y, f (g y) = y) (hw : WellFormed (iv l lc u uc)) {y : T}
    (hy : Mem (Interval.fixAfterModification (iv (f l) lc (f u) uc)) y) :
    (∃ x, Mem (iv l lc u uc) x ∧ y = f x) ∧ (y = f l → lc = true) ∧ (y = f u → uc = true) := by
  rw [wf_mk] at hw
  have hlu : l ≤ u := by grind
  have cl : (y = f l → lc = true) ∧ (y = f u → uc = true) := by
    rw [Interval.fix_mk] at hy
    split at hy
    · rw [mem_mk] at hy; grind
    · split at hy
      · exact absurd hy mem_none
      · rw [mem_mk] at hy; grind
  refine ⟨?_, cl⟩
  by_cases h1 : y = f l
  · exact ⟨l, by rw [mem_mk]; have := cl.1 h1; grind, h1⟩
  by_cases h2 : y = f u
  · exact ⟨u, by rw [mem_mk]; have := cl.2 h2; grind, h2⟩
  refine ⟨g y, ?_, (hg y).symm⟩
  have key : (f l < y ∧ y < f u) ∨ (f u < y ∧ y < f l) := by
    rw [Interval.fix_mk] at hy
    split at hy
    · rw [mem_mk] at hy; grind
    · split at hy
      · exact absurd hy mem_none
      · rw [mem_mk] at hy; grind
  rw [mem_mk]
  have e := hg y
  have a1 : l < g y := by
    by_contra hn
    rcases hf with hf | hf
    · have b1 := hf _ _ (not_lt.mp hn); have b2 := hf _ _ hlu; rw [e] at b1; grind
    · have b1 := hf _ _ (not_lt.mp hn); have b2 := hf _ _ hlu; rw [e] at b1; grind
  have a2 : g y < u := by
    by_contra hn
    rcases hf with hf | hf
    · have b1 := hf _ _ (not_lt.mp hn); have b2 := hf _ _ hlu; rw [e] at b1; grind
    · have b1 := hf _ _ (not_lt.mp hn); have b2 := hf _ _ hlu; rw [e] at b1; grind
  exact ⟨.inl a1, .inl a2⟩

end

theorem tdiv_mono {c : Int} (hc : 0 < c) {x y : Int} (h : x ≤ y) : x.tdiv c ≤ y.tdiv c :=
  Int.tdiv_le_tdiv hc h

theorem tdiv_anti {c : Int} (hc : c < 0) {x y : Int} (h : x ≤ y) : y.tdiv c ≤ x.tdiv c := by
  have := Int.tdiv_le_tdiv (c := -c) (by omega) h
  rw [Int.tdiv_neg, Int.tdiv_neg] at this
  omega

end Itv
