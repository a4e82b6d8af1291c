import Mathlib.Order.Iterate
import Mathlib.Data.Finset.Prod
import Mathlib.Data.Finset.Card
import Mathlib.Data.Nat.Find
/-!
# Ackermann's function, its inverse, and the potential of a node
-/

namespace DS

/-- Tarjan's version of Ackermann's function: `A 0 j = j + 1`, and `A (k + 1) j` applies `A k` to `j` `j + 1`
times. -/
def A : Nat → Nat → Nat
  | 0, j => j + 1
  | k + 1, j => (A k)^[j + 1] j

theorem lt_A (k j : Nat) : j < A k j := by
  induction k generalizing j with
  | zero => exact Nat.lt_succ_self j
  | succ k ih =>
    rw [A, Function.iterate_succ_apply]
    have h : ∀ n x, x ≤ (A k)^[n] x := by
      intro n
      induction n with
      | zero => intro x; exact Nat.le_refl x
      | succ n ihn =>
        intro x
        rw [Function.iterate_succ_apply]
        exact Nat.le_trans (Nat.le_of_lt (ih x)) (ihn _)
    exact Nat.lt_of_lt_of_le (ih j) (h j _)

theorem le_iterate_A (k n x : Nat) : x ≤ (A k)^[n] x := by
  induction n generalizing x with
  | zero => exact Nat.le_refl x
  | succ n ih =>
    rw [Function.iterate_succ_apply]
    exact Nat.le_trans (Nat.le_of_lt (lt_A k x)) (ih _)

theorem iterate_A_le {k n m : Nat} (h : n ≤ m) (x : Nat) : (A k)^[n] x ≤ (A k)^[m] x := by
  obtain ⟨c, rfl⟩ := Nat.exists_eq_add_of_le h
  rw [Nat.add_comm, Function.iterate_add_apply]
  exact le_iterate_A k c _

theorem A_mono (k : Nat) : Monotone (A k) := by
  induction k with
  | zero => intro x y h; exact Nat.succ_le_succ h
  | succ k ih =>
    intro x y h
    rw [A, A]
    exact Nat.le_trans (ih.iterate (x + 1) h) (iterate_A_le (Nat.succ_le_succ h) y)

theorem A_le_succ (k j : Nat) : A k j ≤ A (k + 1) j := by
  rw [A]
  exact iterate_A_le (n := 1) (by omega) j

theorem A_le_of_le {k l : Nat} (h : k ≤ l) (j : Nat) : A k j ≤ A l j := by
  induction h with
  | refl => exact Nat.le_refl _
  | step _ ih => exact Nat.le_trans ih (A_le_succ _ j)

theorem lt_A_one (k : Nat) : k < A k 1 := by
  induction k with
  | zero => decide
  | succ k ih =>
    have h2 : A (k + 1) 1 = A k (A k 1) := by
      rw [A, Function.iterate_succ_apply, Function.iterate_succ_apply, Function.iterate_zero_apply]
    have := lt_A k (A k 1)
    omega

/-- The inverse of Ackermann's function: the least `k` with `n ≤ A k 1`. -/
def alpha (n : Nat) : Nat := Nat.find (p := fun k => n ≤ A k 1) ⟨n, Nat.le_of_lt (lt_A_one n)⟩

theorem le_A_alpha (n : Nat) : n ≤ A (alpha n) 1 := Nat.find_spec (p := fun k => n ≤ A k 1) _

theorem alpha_le {n k : Nat} (h : n ≤ A k 1) : alpha n ≤ k := Nat.find_min' _ h

theorem alpha_mono {n m : Nat} (h : n ≤ m) : alpha n ≤ alpha m := alpha_le (Nat.le_trans h (le_A_alpha m))

/-! ### the first rows -/

theorem A_one (j : Nat) : A 1 j = 2 * j + 1 := by
  have h : ∀ n x, (A 0)^[n] x = x + n := by
    intro n
    induction n with
    | zero => intro x; rfl
    | succ n ih => intro x; rw [Function.iterate_succ_apply, ih, A]; omega
  rw [A, h]; omega

theorem pow_le_A_two (j : Nat) : 2 ^ j ≤ A 2 j := by
  have h : ∀ n x, 2 ^ n * x ≤ (A 1)^[n] x := by
    intro n
    induction n with
    | zero => intro x; simp
    | succ n ih =>
      intro x
      rw [Function.iterate_succ_apply, A_one]
      refine Nat.le_trans ?_ (ih _)
      rw [Nat.pow_succ, Nat.mul_assoc]
      exact Nat.mul_le_mul_left _ (by omega)
  rcases Nat.eq_zero_or_pos j with rfl | hj
  · decide
  · rw [A, Function.iterate_succ_apply, A_one]
    refine Nat.le_trans ?_ (h j _)
    exact Nat.le_mul_of_pos_right _ (by omega)

theorem A_two_one : A 2 1 = 7 := by decide

theorem A_succ_one (k : Nat) : A (k + 1) 1 = A k (A k 1) := by
  rw [A, Function.iterate_succ_apply, Function.iterate_succ_apply, Function.iterate_zero_apply]

theorem A_three_one : 128 ≤ A 3 1 := by
  rw [A_succ_one, A_two_one]
  exact pow_le_A_two 7

theorem A_four_one : 2 ^ 128 ≤ A 4 1 := by
  rw [A_succ_one]
  have h1 : A 2 128 ≤ A 3 (A 3 1) := Nat.le_trans (A_le_succ 2 128) (A_mono 3 A_three_one)
  exact Nat.le_trans (pow_le_A_two 128) h1

/-! ### the potential of a node of rank `x` below a node of rank `p` -/

/-- the pairs `(k, i)` such that applying `A k` to `x` `i + 1` times exceeds `p` -/
def pairs (a x p : Nat) : Finset (Nat × Nat) :=
  (Finset.range a ×ˢ Finset.range x).filter fun e => p < (A e.1)^[e.2 + 1] x

theorem mem_pairs {a x p k i : Nat} : (k, i) ∈ pairs a x p ↔ (k < a ∧ i < x) ∧ p < (A k)^[i + 1] x := by
  rw [pairs, Finset.mem_filter, Finset.mem_product, Finset.mem_range, Finset.mem_range]

theorem pairs_card_le (a x p : Nat) : (pairs a x p).card ≤ a * x := by
  refine Nat.le_trans (Finset.card_filter_le _ _) ?_
  rw [Finset.card_product, Finset.card_range, Finset.card_range]

theorem pairs_anti (a x : Nat) {p q : Nat} (h : p ≤ q) : pairs a x q ⊆ pairs a x p := by
  rintro ⟨k, i⟩ he
  rw [mem_pairs] at he ⊢
  exact ⟨he.1, Nat.lt_of_le_of_lt h he.2⟩

theorem pairs_drop {a x p q k i : Nat} (h : p ≤ q) (hk : k < a) (hi : i < x) (h1 : p < (A k)^[i + 1] x)
    (h2 : (A k)^[i + 1] x ≤ q) : (pairs a x q).card + 1 ≤ (pairs a x p).card := by
  refine Finset.card_lt_card ⟨pairs_anti a x h, fun hs => ?_⟩
  have := hs (mem_pairs.mpr ⟨⟨hk, hi⟩, h1⟩)
  rw [mem_pairs] at this
  omega

/-- the level of a node: the `k` with `A k x ≤ p < A (k + 1) x` -/
theorem level_exists {a x p : Nat} (hx : 1 ≤ x) (hp : x < p) (ha : p < A a 1) :
    ∃ k, k < a ∧ A k x ≤ p ∧ p < A (k + 1) x := by
  have hex : ∃ k, p < A (k + 1) x :=
    ⟨a, Nat.lt_of_lt_of_le ha (Nat.le_trans (A_le_succ a 1) (A_mono _ hx))⟩
  have h1 := Nat.find_spec hex
  refine ⟨Nat.find hex, ?_, ?_, h1⟩
  · by_contra hlt
    have hle : A a 1 ≤ A (Nat.find hex) x := Nat.le_trans (A_le_of_le (Nat.le_of_not_lt hlt) 1) (A_mono _ hx)
    cases hf : Nat.find hex with
    | zero =>
      rw [hf] at hle
      have : A 0 x = x + 1 := rfl
      omega
    | succ m =>
      have := Nat.find_min hex (m := m) (by omega)
      rw [hf] at hle
      omega
  · cases hf : Nat.find hex with
    | zero => exact hp
    | succ m =>
      have := Nat.find_min hex (m := m) (by omega)
      omega

/-- a node below another one of its level loses potential when it is moved to the root -/
theorem level_drop {a x p q k : Nat} (hx : 1 ≤ x) (hpq : p ≤ q) (ha : q < A a 1)
    (h1 : A k x ≤ p) (h2 : p < A (k + 1) x) (h3 : A k p ≤ q) :
    (pairs a x q).card + 1 ≤ (pairs a x p).card := by
  have hk : k < a := by
    by_contra h
    have : A a 1 ≤ A k x := Nat.le_trans (A_le_of_le (Nat.le_of_not_lt h) 1) (A_mono _ hx)
    omega
  have hex : ∃ i, p < (A k)^[i + 1] x := ⟨x, h2⟩
  have hi := Nat.find_spec hex
  have hle : Nat.find hex ≤ x := Nat.find_min' hex h2
  have hpos : Nat.find hex ≠ 0 := by
    intro h0
    rw [h0] at hi
    have : (A k)^[0 + 1] x = A k x := rfl
    omega
  obtain ⟨m, hm⟩ := Nat.exists_eq_succ_of_ne_zero hpos
  have hprev : (A k)^[m + 1] x ≤ p := Nat.le_of_not_lt (Nat.find_min hex (by omega))
  have hq : (A k)^[Nat.find hex + 1] x ≤ q := by
    rw [hm, Nat.succ_eq_add_one, Function.iterate_succ_apply']
    exact Nat.le_trans (A_mono k hprev) h3
  rcases Nat.lt_or_ge (Nat.find hex) x with hlt | hge
  · exact pairs_drop hpq hk hlt hi hq
  · have he : Nat.find hex = x := Nat.le_antisymm hle hge
    rw [he] at hi hq
    have hA : (A (k + 1))^[0 + 1] x = (A k)^[x + 1] x := rfl
    have hk1 : k + 1 < a := by
      by_contra h
      have h4 : A a 1 ≤ A (k + 1) x := Nat.le_trans (A_le_of_le (Nat.le_of_not_lt h) 1) (A_mono _ hx)
      have h5 : A (k + 1) x = (A k)^[x + 1] x := rfl
      omega
    exact pairs_drop hpq hk1 hx (by rw [hA]; exact hi) (by rw [hA]; exact hq)

end DS
