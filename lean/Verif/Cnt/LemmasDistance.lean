import Verif.Cnt.SpecDistance
import Verif.Cnt.LemmasMultiset
import Mathlib.Data.Multiset.Count
import Mathlib.Data.Multiset.AddSub
/-!
# Lemmas for C139
-/

open Rust
namespace Cnt
open Counter

section
variable {T : Type} [DecidableEq T]

/-- how far apart two multisets are -/
def apart (s t : Multiset T) : Nat := (s - t).card + (t - s).card

theorem apart_self (s : Multiset T) : apart s s = 0 := by simp [apart]

theorem apart_cons_left (x : T) (s t : Multiset T) : apart (x ::ₘ s) t ≤ apart s t + 1 ∧ apart s t ≤ apart (x ::ₘ s) t + 1 := by
  have h1 : (x ::ₘ s) - t ≤ x ::ₘ (s - t) := by
    rw [Multiset.le_iff_count]; intro a
    rw [Multiset.count_sub, Multiset.count_cons, Multiset.count_cons, Multiset.count_sub]; omega
  have h2 : t - (x ::ₘ s) ≤ t - s := by
    rw [Multiset.le_iff_count]; intro a
    rw [Multiset.count_sub, Multiset.count_cons, Multiset.count_sub]; omega
  have h3 : s - t ≤ (x ::ₘ s) - t := by
    rw [Multiset.le_iff_count]; intro a
    rw [Multiset.count_sub, Multiset.count_sub, Multiset.count_cons]; omega
  have h4 : t - s ≤ x ::ₘ (t - (x ::ₘ s)) := by
    rw [Multiset.le_iff_count]; intro a
    rw [Multiset.count_sub, Multiset.count_cons, Multiset.count_sub, Multiset.count_cons]; omega
  have h1 := Multiset.card_le_card h1
  have h2 := Multiset.card_le_card h2
  have h3 := Multiset.card_le_card h3
  have h4 := Multiset.card_le_card h4
  rw [Multiset.card_cons] at h1 h4
  unfold apart
  omega

theorem apart_le {n : Nat} {xs ys : List T} (h : Turns n xs ys) : apart (xs : Multiset T) ys ≤ n := by
  induction h with
  | done h => rw [Multiset.coe_eq_coe.mpr h, apart_self]
  | @remove n xs ys zs x h _ ih =>
    rw [Multiset.coe_eq_coe.mpr h]
    have := (apart_cons_left x (zs : Multiset T) ys).1
    rw [Multiset.cons_coe] at this
    omega
  | @insert n xs ys x _ ih =>
    have := (apart_cons_left x (xs : Multiset T) ys).2
    rw [Multiset.cons_coe] at this
    omega

omit [DecidableEq T] in
theorem Turns.perm {n : Nat} {xs ys zs : List T} (h : Turns n xs ys) (hp : ys.Perm zs) : Turns n xs zs := by
  induction h with
  | done h => exact .done (h.trans hp)
  | remove h _ ih => exact .remove h (ih hp)
  | insert _ ih => exact .insert (ih hp)

omit [DecidableEq T] in
theorem Turns.perm_left {n : Nat} {xs ys zs : List T} (h : Turns n xs ys) (hp : zs.Perm xs) : Turns n zs ys := by
  induction h generalizing zs with
  | done h => exact .done (hp.trans h)
  | remove h h' _ => exact .remove (hp.trans h) h'
  | insert _ ih => exact .insert (ih (hp.cons _))

omit [DecidableEq T] in
theorem Turns.trans {n m : Nat} {xs ys zs : List T} (h : Turns n xs ys) (g : Turns m ys zs) : Turns (n + m) xs zs := by
  induction h with
  | done h => rw [Nat.zero_add]; exact g.perm_left h
  | remove h _ ih => rw [Nat.add_right_comm]; exact .remove h (ih g)
  | insert _ ih => rw [Nat.add_right_comm]; exact .insert (ih g)

omit [DecidableEq T] in
theorem Turns.removes (l : List T) (zs : List T) : Turns l.length (l ++ zs) zs := by
  induction l with
  | nil => exact .done (.refl _)
  | cons x l ih => exact .remove (List.Perm.refl _) ih

omit [DecidableEq T] in
theorem Turns.inserts (l : List T) : ∀ zs : List T, Turns l.length zs (l ++ zs) := by
  induction l with
  | nil => exact fun zs => .done (.refl _)
  | cons x l ih =>
    intro zs
    exact .insert ((ih (x :: zs)).perm List.perm_middle)

/-- what is in both, and what is only in one -/
theorem split_both (xs ys : List T) : ∃ zs, xs.Perm (xs.diff ys ++ zs) ∧ ys.Perm (ys.diff xs ++ zs) := by
  refine ⟨xs.diff (xs.diff ys), ?_, ?_⟩ <;>
  · rw [List.perm_iff_count]
    intro a
    simp only [List.count_append, List.count_diff]
    omega

theorem turns_apart (xs ys : List T) : Turns ((xs.diff ys).length + (ys.diff xs).length) xs ys := by
  obtain ⟨zs, h1, h2⟩ := split_both xs ys
  exact ((Turns.removes (xs.diff ys) zs).perm_left h1).trans ((Turns.inserts (ys.diff xs) zs).perm h2.symm)

theorem apart_diff (xs ys : List T) : apart (xs : Multiset T) ys = (xs.diff ys).length + (ys.diff xs).length := by
  unfold apart
  rw [Multiset.coe_sub, Multiset.coe_sub, Multiset.coe_card, Multiset.coe_card]

end

section
variable {T : Type} [DecidableEq T] [Cfg]

omit [DecidableEq T] in
theorem sumOf_total {c : Counter T} {order : List (T × Nat)} (h : IterOf order c) : sumOf order = total c :=
  sum_perm (h.map _)

/-- the counts of a counter that stores the items of a list sum to its length -/
theorem total_stores {c : Counter T} {l : List T} (h : Stores c fun k => l.count k) : total c = l.length := by
  rw [total_eq h.1 (ks := l.dedup) (List.nodup_dedup _), ← sum_count l (List.nodup_dedup l) fun k hk => List.mem_dedup.mpr hk]
  · congr 1
    exact List.map_congr_left fun k _ => h.mult k
  · intro k hk
    rw [h.2] at hk
    split at hk
    · cases hk
    · rename_i h0
      exact List.mem_dedup.mpr (List.count_pos_iff.mp (Nat.pos_of_ne_zero h0))

theorem stores_subRef {a b : Counter T} {f g : T → Nat} (ha : Stores a f) (hb : Stores b g) {order : List (T × Nat)}
    (ho : IterOf order b) : ∃ c, subRef order a = .ok c ∧ Stores c fun k => f k - g k := by
  obtain ⟨c, h1, h2⟩ := stores_sub ha hb ho
  obtain ⟨c', g1, g2, _⟩ := c48_subtraction ha.1 hb.1 ho
  rw [h1] at g1
  cases g1
  exact ⟨c, g2, h2⟩

theorem distance_ok {order : Nat → Counter T → List (T × Nat)} (ho : ∀ i c, IterOf (order i c) c) {xs ys : List T}
    (hx : ∀ k, xs.count k ≤ usizeMax) (hy : ∀ k, ys.count k ≤ usizeMax) :
    distance order xs ys = .ok ((xs.diff ys).length + (ys.diff xs).length) := by
  obtain ⟨a, h1, h2⟩ := stores_fromIter hx
  obtain ⟨b, h3, h4⟩ := stores_fromIter hy
  obtain ⟨d, h5, h6⟩ := stores_subRef h2 h4 (ho 0 b)
  obtain ⟨e, h7, h8⟩ := stores_subRef h4 h2 (ho 1 a)
  have e1 : total d = (xs.diff ys).length := total_stores (by simpa only [List.count_diff] using h6)
  have e2 : total e = (ys.diff xs).length := total_stores (by simpa only [List.count_diff] using h8)
  unfold distance
  rw [h1, h3]
  show (subRef (order 0 b) a >>= fun more => subRef (order 1 a) b >>= fun less =>
    pure (sumOf (order 2 more) + sumOf (order 3 less))) = _
  rw [h5, h7]
  show Except.ok (sumOf (order 2 d) + sumOf (order 3 e)) = _
  rw [sumOf_total (ho 2 d), sumOf_total (ho 3 e), e1, e2]

theorem common_ok {order : Nat → Counter T → List (T × Nat)} (ho : ∀ i c, IterOf (order i c) c) {xs ys : List T}
    (hx : ∀ k, xs.count k ≤ usizeMax) (hy : ∀ k, ys.count k ≤ usizeMax) :
    common order xs ys = .ok (xs.diff (xs.diff ys)).length := by
  obtain ⟨a, h1, h2⟩ := stores_fromIter hx
  obtain ⟨b, h3, h4⟩ := stores_fromIter hy
  obtain ⟨d, h5, h6⟩ := stores_subRef h2 h4 (ho 0 b)
  obtain ⟨e, h7, h8⟩ := stores_subRef h2 h6 (ho 1 d)
  have e1 : total e = (xs.diff (xs.diff ys)).length := total_stores (by simpa only [List.count_diff] using h8)
  unfold common
  rw [h1, h3]
  show (subRef (order 0 b) a >>= fun more => subRef (order 1 more) a >>= fun both => pure (sumOf (order 2 both))) = _
  rw [h5]
  show (subRef (order 1 d) a >>= fun both => pure (sumOf (order 2 both))) = _
  rw [h7]
  show Except.ok (sumOf (order 2 e)) = _
  rw [sumOf_total (ho 2 e), e1]

end
end Cnt
