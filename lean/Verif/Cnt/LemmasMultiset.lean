import Verif.Cnt.SpecMultiset
import Verif.Cnt.Props
/-!
# Lemmas for C108 and C109
-/

open Rust
namespace Cnt
open Counter

section
variable {T : Type} [DecidableEq T] [Cfg] {a b c : Counter T} {f g : T → Nat}

theorem Stores.mult (h : Stores c f) (k : T) : Cnt.mult c k = f k := by
  rw [Cnt.mult, h.2]
  split <;> simp_all

theorem Stores.of_mult (hv : Valid c) (hz : NoZero c) (hm : ∀ k, Cnt.mult c k = f k) : Stores c f := by
  refine ⟨hv, fun k => ?_⟩
  rw [← hm]
  cases hk : c.get k with
  | none => rw [mult_of_none hk]; rfl
  | some n =>
    have : n ≠ 0 := fun h0 => hz k (by rw [hk, h0])
    rw [mult_of_some hk, if_neg this]

theorem Stores.noZero (h : Stores c f) : NoZero c := by
  intro k hk
  rw [h.2] at hk
  split at hk <;> simp_all

theorem Stores.self (hv : Valid c) (hz : NoZero c) : Stores c (Cnt.mult c) := .of_mult hv hz fun _ => rfl

theorem Stores.eq (ha : Stores a f) (hb : Stores b g) : a.eq b = true ↔ ∀ k, f k = g k := by
  rw [c54_eq_is_multiset_eq ha.1 hb.1 ha.noZero hb.noZero]
  simp only [ha.mult, hb.mult]

theorem stores_sub (ha : Stores a f) (hb : Stores b g) {order : List (T × Nat)} (ho : IterOf order b) :
    ∃ c, sub order a = .ok c ∧ Stores c fun k => f k - g k := by
  obtain ⟨c, h1, h2⟩ := sub_diff ha.1 hb.1 ho
  refine ⟨c, h1, h2.1, fun k => ?_⟩
  rw [h2.2, ha.mult, hb.mult, ha.2, hb.2]
  by_cases h0 : g k = 0
  · simp [h0]
  · simp [h0, Nat.sub_eq_zero_iff_le]

theorem stores_add (ha : Stores a f) (hb : Stores b g) (hf : ∀ k, f k + g k ≤ usizeMax) {order : List (T × Nat)}
    (ho : IterOf order b) : ∃ c, add order a = .ok c ∧ Stores c fun k => f k + g k := by
  obtain ⟨c, h1, h2⟩ := add_fits ha.1 hb.1 ho (.inr fun k => by rw [ha.mult, hb.mult]; exact hf k)
  refine ⟨c, h1, h2.1, fun k => ?_⟩
  have := hf k
  rw [h2.2, ha.mult, hb.mult, ha.2, hb.2, Nat.mod_eq_of_lt (by omega)]
  by_cases h0 : g k = 0
  · simp [h0]
  · simp [h0]

theorem Stores.le (h : Stores c f) (k : T) : f k ≤ usizeMax := by
  rw [← h.mult]; exact mult_le h.1 k

theorem Stores.len_eq_zero (h : Stores c f) : c.len = 0 ↔ ∀ k, f k = 0 := by
  have : c.len = 0 ↔ ∀ k, c.get k = none := by
    constructor
    · intro h0 k
      have : c.counter.entries = [] := List.eq_nil_of_length_eq_zero h0
      have hn : ¬ (c.get k).isSome := by
        rw [Counter.get, ← HMap.mem_keys, this]; simp
      simpa using hn
    · intro h0
      have : c.counter.entries = [] := by
        rw [List.eq_nil_iff_forall_not_mem]
        intro e he
        have : e.1 ∈ c.counter.entries.map (·.1) := List.mem_map_of_mem he
        rw [HMap.mem_keys] at this
        rw [show c.counter.get e.1 = none from h0 e.1] at this
        cases this
      exact congrArg List.length this
  rw [this]
  refine forall_congr' fun k => ?_
  rw [h.2]
  split <;> simp_all

theorem stores_fromIter {items : List T} (hf : ∀ k, items.count k ≤ usizeMax) :
    ∃ c, fromIter items = .ok c ∧ Stores c fun k => items.count k := by
  obtain ⟨c0, c1, h1, _, h2, h3, _⟩ := c45_counts_multiplicities items [] (by simpa using hf)
  simp only [runFeeds, List.map_nil, Prod.mk.injEq, true_and] at h2
  subst h2
  refine ⟨c0, h1, built_valid (.fromIter h1), fun k => ?_⟩
  simp only [List.flatMap_nil, List.append_nil] at h3
  rw [h3]
  by_cases h0 : items.count k = 0
  · simp [h0]
  · rw [if_pos (by omega), if_neg h0]

end

/-! ### sums of the largest values -/

theorem sum_sublist_le_take {s l : List Nat} (h : s.Sublist l) (hl : l.Pairwise fun x y => y ≤ x) :
    s.sum ≤ (l.take s.length).sum := by
  induction h with
  | slnil => simp
  | @cons s l x h ih =>
    obtain ⟨h1, h2⟩ := List.pairwise_cons.mp hl
    refine Nat.le_trans (ih h2) ?_
    generalize s.length = n
    cases n with
    | zero => simp
    | succ n =>
      rw [List.take_succ_cons, List.sum_cons]
      by_cases hn : n < l.length
      · rw [List.take_add_one, List.getElem?_eq_getElem hn, List.sum_append]
        have := h1 _ (List.getElem_mem hn)
        simp; omega
      · rw [List.take_of_length_le (by omega), List.take_of_length_le (by omega)]; omega
  | @cons_cons s l x h ih =>
    have := ih (List.pairwise_cons.mp hl).2
    simp; omega

theorem sum_take_mono (l : List Nat) {m n : Nat} (h : m ≤ n) : (l.take m).sum ≤ (l.take n).sum := by
  have : l.take n = l.take m ++ (l.drop m).take (n - m) := by
    rw [← List.take_add]; congr 1; omega
  rw [this, List.sum_append]; omega

theorem mul_le_sum (l : List Nat) (n : Nat) (h : ∀ x ∈ l, n ≤ x) : l.length * n ≤ l.sum := by
  induction l with
  | nil => simp
  | cons x l ih =>
    have := ih fun y hy => h y (List.mem_cons_of_mem _ hy)
    have := h x List.mem_cons_self
    simp [Nat.add_mul]; omega

theorem le_sum_of_mem {l : List Nat} {n : Nat} (h : n ∈ l) : n ≤ l.sum := by
  induction l with
  | nil => cases h
  | cons x l ih =>
    rw [List.sum_cons]
    rcases List.mem_cons.mp h with rfl | h
    · omega
    · have := ih h; omega

end Cnt
