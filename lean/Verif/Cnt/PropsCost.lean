import Verif.Cnt.LemmasCost
/-!
# The documented costs of counters (C97)

`mod.rs` documents O(n) for making a counter of n items, O(k) memory, O(1) for an insertion and O(k) for the most common
elements, k being the number of different items. The last does not hold; the number of entries is k, but see C99 for the
memory.
-/

open Rust
namespace Cnt.Cost

section
variable {T : Type} [DecidableEq T] [Cfg]

/-- C97: counting, adding and subtracting search the table once per item or entry given to them, and clone an item only
where it is given by reference, then once per search. That is all, also when the call panics; it ends early only if a count
overflows. -/
theorem c97_calls (call : Call T) (c : Counter T) (k : Spent) :
    ∃ d e, call.run (c, k) = ((call.plain c).1, (call.plain c).2, ⟨k.searches + d, k.clones + e⟩) ∧
      d ≤ call.size ∧ ((call.plain c).1 ≠ .error .overflow → d = call.size) ∧ e = (if call.byRef then d else 0) :=
  call_costs call c k

end

open Demo in
example : (Call.subAssignRef [(7, 1), (5, 2), (9, 1)] true).run (cb, ⟨10, 20⟩) =
      (.error .user, ⟨⟨[(9, 2)]⟩⟩, ⟨13, 23⟩) ∧
    (Call.subAssignRef [(7, 1), (5, 2), (9, 1)] true).plain cb = (.error .user, ⟨⟨[(9, 2)]⟩⟩) ∧
    (Call.extend [7, 8, 7] false).run (cb, {}) = (.ok (), ⟨⟨[(8, 1), (9, 3), (7, 3)]⟩⟩, ⟨3, 0⟩) := by
  decide

section
variable {T : Type} [DecidableEq T] [Cfg]

/-- C97: making a counter of `n` items takes `n` searches (and `n` clones from references); it then has one entry for
each different item. -/
theorem c97_initialization (items : List T) (hm : ∀ x, items.count x ≤ usizeMax) :
    ∃ c, extend items false (Counter.new, {}) = (.ok (), c, ⟨items.length, 0⟩) ∧
      extendRef items false (Counter.new, {}) = (.ok (), c, ⟨items.length, items.length⟩) ∧
      Counter.fromIter items = .ok c ∧ Counter.fromIterRef items = .ok c ∧ c.len = items.dedup.length := by
  obtain ⟨c0, c, h1, h2, h3, _, h4⟩ := c45_counts_multiplicities items [] (by simpa using hm)
  simp only [runFeeds, List.map_nil, Prod.mk.injEq, true_and] at h3
  subst h3
  simp only [List.flatMap_nil, List.append_nil] at h4
  refine ⟨c0, ?_, ?_, h1, h2, h4⟩
  · have h : Counter.extend items false Counter.new = (.ok (), c0) := by
      rw [Counter.fromIter, fromIterLoop_eq] at h1
      rw [extend_eq]
      exact (owned_ok.mp h1).choose_spec
    obtain ⟨d, e, g1, _, g3, g4⟩ := extend_costs items false Counter.new {}
    rw [h] at g1 g3
    have := g3 (by simp)
    subst this
    subst g4
    rw [g1]; simp
  · have h : Counter.extendRef items false Counter.new = (.ok (), c0) := by
      rw [Counter.fromIter, fromIterLoop_eq] at h1
      rw [extendRef_eq]
      exact (owned_ok.mp h1).choose_spec
    obtain ⟨d, e, g1, _, g3, g4⟩ := extendRef_costs items false Counter.new {}
    rw [h] at g1 g3
    have := g3 (by simp)
    subst this
    subst g4
    rw [g1]; simp

end

open Demo in
example : (∀ x, [4, 5, 4].count x ≤ usizeMax) ∧
    extendRef [4, 5, 4] false (Counter.new, {}) = (.ok (), ⟨⟨[(5, 1), (4, 2)]⟩⟩, ⟨3, 3⟩) ∧
    [4, 5, 4].dedup.length = 2 := by
  refine ⟨fun x => ?_, by decide, by decide⟩
  have h := List.count_le_length (a := x) (l := [4, 5, 4])
  have h2 : usizeMax = 2 ^ 64 - 1 := rfl
  simp only [List.length_cons, List.length_nil] at h
  omega

section
variable {T : Type} [DecidableEq T] [Cfg]

/-- C97: `most_common` and `into_most_common` compare exactly as often as the sort they call does; `most_common` clones
each item once. The result is that of `Cnt/Model.lean`. Missing from the documented O(k): a bound on the comparisons that
is linear in the number of entries. There is none, see `c97_most_common_not_linear`. -/
theorem c97_most_common_partial {c : Counter T} (hc : Valid c) {order : List (T × Nat)} (ho : IterOf order c)
    {sort : (k : Nat) → SortTree k} (hs : ∀ k, Sorts (sort k)) :
    ∃ res n, intoMostCommon sort order = .ok (res, n) ∧ mostCommon sort order = .ok (res, n, c.len) ∧
      n = ((sort order.length).run fun i => usizeMax - order[i].2).2 ∧
      SortByKey (T := T) (asSort sort) ∧ Counter.mostCommon (asSort sort) order = .ok res := by
  have hle := iterOf_le hc ho
  have h := intoMostCommon_run (t := sort) hle
  refine ⟨_, _, h, ?_, ?_, asSort_sortByKey hs, ?_⟩
  · rw [mostCommon, List.map_id', h]
    show Except.ok _ = _
    rw [ho.length_eq]
    rfl
  · exact run_congr sort (List.length_map _) _ _ fun i => by simp
  · rw [mostCommon_eq, Counter.intoMostCommon, mapM_usub hle]; rfl

end

open Demo in
/-- three comparisons for three entries in the worst order, two in the best -/
example : Valid cb ∧ IterOf [(7, 1), (9, 3)] cb ∧ (∀ k, Sorts (insertionSort k)) ∧
    mostCommon insertionSort [(7, 1), (9, 3)] = .ok ([(9, 3), (7, 1)], 1, 2) ∧
    mostCommon insertionSort [(7, 1), (9, 3), (8, 2)] = .ok ([(9, 3), (8, 2), (7, 1)], 3, 3) ∧
    mostCommon insertionSort [(9, 3), (8, 2), (7, 1)] = .ok ([(9, 3), (8, 2), (7, 1)], 2, 3) := by
  refine ⟨cb_valid, List.Perm.swap _ _ _, insertionSort_sorts, ?_, ?_, ?_⟩ <;> decide +kernel

section
variable [Cfg]

/-- the items of a counter in which `i` occurs `i + 1` times -/
def stairs (k : Nat) : List Nat := (List.range k).flatMap fun i => List.replicate (i + 1) i

theorem stairs_count (k x : Nat) : (stairs k).count x = if x < k then x + 1 else 0 := by
  induction k with
  | zero => rfl
  | succ k ih =>
    rw [stairs] at ih ⊢
    rw [List.range_succ, List.flatMap_append, List.count_append, ih]
    simp only [List.flatMap_cons, List.flatMap_nil, List.append_nil, List.count_replicate]
    by_cases h : x < k
    · have h1 : x < k + 1 := by omega
      have h2 : k ≠ x := by omega
      simp [h, h1, h2]
    · by_cases h2 : k = x
      · subst h2; simp
      · have h1 : ¬ x < k + 1 := by omega
        simp only [h, h1, h2, beq_iff_eq, if_false]

/-- C97: for every `k` there is a counter with `k` entries such that no sort that compares can always do with few
comparisons: in some iteration order it takes `n` with `k! ≤ 2^n`, that is at least log₂ k!, about k·log₂ k. -/
theorem c97_most_common_lower (k : Nat) (hk : k ≤ usizeMax) :
    ∃ c : Counter Nat, Counter.fromIter (stairs k) = .ok c ∧ c.len = k ∧
      ∀ sort : (k : Nat) → SortTree k, (∀ k, Sorts (sort k)) →
        ∃ order res n, IterOf order c ∧ intoMostCommon sort order = .ok (res, n) ∧
          mostCommon sort order = .ok (res, n, k) ∧ k.factorial ≤ 2 ^ n := by
  have hm : ∀ x, (stairs k).count x ≤ usizeMax := fun x => by rw [stairs_count]; split <;> omega
  obtain ⟨c0, c, h1, h2, h3, h4, h5⟩ := c45_counts_multiplicities (stairs k) [] (by simpa using hm)
  simp only [runFeeds, List.map_nil, Prod.mk.injEq, true_and] at h3
  subst h3
  simp only [List.flatMap_nil, List.append_nil] at h4 h5
  have hv : Valid c0 := built_valid (.fromIter h1)
  have hget : ∀ x n, c0.get x = some n ↔ x < k ∧ n = x + 1 := fun x n => by
    rw [h4, stairs_count]
    by_cases hx : x < k
    · simp [hx, eq_comm]
    · simp [hx]
  have horder : ∀ σ : Equiv.Perm (Fin k), IterOf ((List.finRange k).map fun i => ((σ i).val, (σ i).val + 1)) c0 := by
    intro σ
    rw [IterOf, List.perm_ext_iff_of_nodup]
    · rintro ⟨x, n⟩
      rw [← HMap.get_eq_some hv.1]
      show _ ↔ c0.get x = some n
      rw [hget]
      simp only [List.mem_map, List.mem_finRange, true_and, Prod.mk.injEq]
      constructor
      · rintro ⟨i, rfl, rfl⟩
        exact ⟨(σ i).isLt, rfl⟩
      · rintro ⟨hx, rfl⟩
        exact ⟨σ.symm ⟨x, hx⟩, by simp, by simp⟩
    · refine (List.nodup_finRange k).map fun i j h => ?_
      simp only [Prod.mk.injEq] at h
      exact σ.injective (Fin.ext h.1)
    · exact List.Nodup.of_map _ hv.1
  have hlen : c0.len = k := by
    have := (horder 1).length_eq
    rw [List.length_map, List.length_finRange] at this
    exact this.symm
  refine ⟨c0, h1, hlen, fun sort hs => ?_⟩
  obtain ⟨σ, hσ⟩ := sort_lower (hs k) (fun i => usizeMax - (i.val + 1)) (fun i j h => by
    have := i.isLt; have := j.isLt
    rw [Fin.le_def]; omega)
  obtain ⟨res, n, g1, g2, g3, _, _⟩ := c97_most_common_partial hv (horder σ) hs
  refine ⟨_, res, n, horder σ, g1, by rw [g2, hlen], ?_⟩
  have : n = ((sort k).run fun i => usizeMax - ((σ i).val + 1)).2 := by
    rw [g3]
    refine run_congr sort (by simp) _ _ fun i => ?_
    simp only [Fin.getElem_fin, List.getElem_map, List.getElem_finRange]
    rfl
  rw [this]
  exact hσ

/-- C97 is false for the most common elements: the documented O(k) would be a number `f` of comparisons per entry that
suffices. None does: some counter with `k` entries takes more than `f * k`, whatever sort is used. (`f` is only limited by
the size of the machine's numbers.) -/
theorem c97_most_common_not_linear (f : Nat) (hf : 2 * f + 2 < Cfg.bits) :
    ∃ (k : Nat) (c : Counter Nat), 0 < k ∧ Counter.fromIter (stairs k) = .ok c ∧ c.len = k ∧
      ∀ sort : (k : Nat) → SortTree k, (∀ k, Sorts (sort k)) →
        ∃ order res n, IterOf order c ∧ intoMostCommon sort order = .ok (res, n) ∧
          mostCommon sort order = .ok (res, n, k) ∧ f * k < n := by
  have hk : 2 ^ (2 * f + 2) ≤ usizeMax := by
    have : 2 ^ (2 * f + 2) < 2 ^ Cfg.bits := Nat.pow_lt_pow_right (by omega) hf
    rw [usizeMax]; omega
  obtain ⟨c, h1, h2, h3⟩ := c97_most_common_lower _ hk
  refine ⟨_, c, Nat.two_pow_pos _, h1, h2, fun sort hs => ?_⟩
  obtain ⟨order, res, n, g1, g2, g3, g4⟩ := h3 sort hs
  refine ⟨order, res, n, g1, g2, g3, ?_⟩
  exact (Nat.pow_lt_pow_iff_right (by omega : 1 < 2)).mp (Nat.lt_of_lt_of_le (factorial_large f) g4)

end

open Demo in
example : (1000 : Nat) ≤ usizeMax ∧ 2 * 30 + 2 < Cfg.bits ∧ stairs 3 = [0, 1, 1, 2, 2, 2] ∧
    (4 : Nat).factorial ≤ 2 ^ 5 ∧ ¬ (4 : Nat).factorial ≤ 2 ^ 4 ∧ (∀ k, Sorts (insertionSort k)) :=
  ⟨by decide, by decide, by decide, by decide, by decide, insertionSort_sorts⟩

end Cnt.Cost
