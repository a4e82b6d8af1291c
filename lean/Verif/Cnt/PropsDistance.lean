import Verif.Cnt.LemmasDistance
/-!
# C139: how far apart two sequences are when their order does not matter
-/

open Rust
namespace Cnt
open Counter

section
variable {T : Type} [DecidableEq T] [Cfg] {order : Nat → Counter T → List (T × Nat)}

/-- **C139 (fewest steps).** The client returns the least number of items to remove or insert that turns one sequence into a
rearrangement of the other. -/
theorem c139_fewest (ho : ∀ i c, IterOf (order i c) c) {xs ys : List T} (hx : ∀ k, xs.count k ≤ usizeMax)
    (hy : ∀ k, ys.count k ≤ usizeMax) :
    ∃ n, distance order xs ys = .ok n ∧ Turns n xs ys ∧ ∀ m, Turns m xs ys → n ≤ m :=
  ⟨_, distance_ok ho hx hy, turns_apart xs ys, fun m h => by have := apart_le h; rwa [apart_diff] at this⟩

/-- **C139 (a metric).** It is zero for rearrangements only, the same in both directions, and not longer than a detour,
whatever the order of iteration. -/
theorem c139_metric {order' order'' : Nat → Counter T → List (T × Nat)} (ho : ∀ i c, IterOf (order i c) c)
    (ho' : ∀ i c, IterOf (order' i c) c) (ho'' : ∀ i c, IterOf (order'' i c) c) {xs ys zs : List T}
    (hx : ∀ k, xs.count k ≤ usizeMax) (hy : ∀ k, ys.count k ≤ usizeMax) (hz : ∀ k, zs.count k ≤ usizeMax) :
    ∃ n m l, distance order xs ys = .ok n ∧ distance order' ys xs = .ok n ∧ distance order' ys zs = .ok m ∧
      distance order'' xs zs = .ok l ∧ (n = 0 ↔ xs.Perm ys) ∧ l ≤ n + m := by
  refine ⟨_, _, _, distance_ok ho hx hy, by rw [distance_ok ho' hy hx, Nat.add_comm], distance_ok ho' hy hz,
    distance_ok ho'' hx hz, ⟨fun h => ?_, fun h => ?_⟩, ?_⟩
  · obtain ⟨ws, h1, h2⟩ := split_both xs ys
    have e1 : xs.diff ys = [] := List.eq_nil_of_length_eq_zero (by omega)
    have e2 : ys.diff xs = [] := List.eq_nil_of_length_eq_zero (by omega)
    rw [e1] at h1
    rw [e2] at h2
    exact h1.trans h2.symm
  · have := apart_le (Turns.done h)
    rw [apart_diff] at this
    omega
  · have := apart_le ((turns_apart xs ys).trans (turns_apart ys zs))
    rwa [apart_diff] at this

/-- **C139 (in common).** What is left of one after subtracting what the other lacks is the greatest number of items that
both have; it and the distance add up to the items of both, those in common counted twice. -/
theorem c139_common (ho : ∀ i c, IterOf (order i c) c) {xs ys : List T} (hx : ∀ k, xs.count k ≤ usizeMax)
    (hy : ∀ k, ys.count k ≤ usizeMax) :
    ∃ n d, common order xs ys = .ok n ∧ distance order xs ys = .ok d ∧ Shares n xs ys ∧ (∀ m, Shares m xs ys → m ≤ n) ∧
      d + 2 * n = xs.length + ys.length := by
  refine ⟨_, _, common_ok ho hx hy, distance_ok ho hx hy, ⟨_, rfl, ?_, ?_⟩, ?_, ?_⟩
  · rw [List.subperm_iff_count]; intro a; simp only [List.count_diff]; omega
  · rw [List.subperm_iff_count]; intro a; simp only [List.count_diff]; omega
  · rintro m ⟨zs, rfl, h1, h2⟩
    refine List.Subperm.length_le ?_
    rw [List.subperm_iff_count] at h1 h2 ⊢
    intro a
    have := h1 a; have := h2 a
    simp only [List.count_diff]; omega
  · have h1 : xs.Perm (xs.diff ys ++ xs.diff (xs.diff ys)) := by
      rw [List.perm_iff_count]; intro a; simp only [List.count_append, List.count_diff]; omega
    have h2 : ys.Perm (ys.diff xs ++ xs.diff (xs.diff ys)) := by
      rw [List.perm_iff_count]; intro a; simp only [List.count_append, List.count_diff]; omega
    have := h1.length_eq
    have := h2.length_eq
    rw [List.length_append] at *
    omega

end

-- from `1 1 2 3` to `3 1 4`: a one and the two go, the four comes; two items are in common. The maps are iterated backwards.
open Demo in
example : (∀ (_ : Nat) (c : Counter Nat), IterOf c.counter.entries.reverse c) ∧
    (∀ k, [1, 1, 2, 3].count k ≤ usizeMax) ∧ (∀ k, [3, 1, 4].count k ≤ usizeMax) ∧
    distance (fun _ c => c.counter.entries.reverse) [1, 1, 2, 3] [3, 1, 4] = .ok 3 ∧
    common (fun _ c => c.counter.entries.reverse) [1, 1, 2, 3] [3, 1, 4] = .ok 2 :=
  ⟨fun _ _ => List.reverse_perm _, fun _ => Nat.le_trans List.count_le_length (by decide),
    fun _ => Nat.le_trans List.count_le_length (by decide), by rfl, by rfl⟩

end Cnt
