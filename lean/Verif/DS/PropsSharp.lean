import Verif.DS.Sharp
/-!
# C117: the cost of one call in the worst case

C69 bounds the calls of `find_with_path_compression` on average. One `in_union` or `union` alone makes logarithmically
many, not more, and there are histories for which it does not make fewer. These histories also reach the rank that C60
allows. (That they reach the depth that C59 allows is `c59_log_depth_needed`.)
-/

open Rust
namespace DS
open Sharp

section
variable [Cfg]

/-- **C117 (rank).** For every `n` there is a history of at most `n` elements that leads to the rank `log2 n`. -/
theorem c117_rank_reached {n : Nat} (hn : 0 < n) (hu : n ≤ usizeMax) :
    ∃ (ops : List (Op Nat)) (s : DSet Nat) (a : Abs Nat), Reached 64 .new ops s a ∧ s.len ≤ n ∧
      ∃ x ∈ s.dataById, x.rank = Nat.log2 n := by
  have h2 : 2 ^ Nat.log2 n ≤ n := Nat.log2_self_le (by omega)
  have h64 := log_le_64 hu
  generalize Nat.log2 n = k at *
  have hk : k ≤ u32Max := by unfold u32Max; omega
  obtain ⟨_, a2, a3⟩ := Sharp.binomial_run k 0 new_numbered rfl (by omega) hk (stack := 64)
  refine ⟨Sharp.binomial k 0, _, _, ⟨Nat.le_refl _, fun pre hp => Nat.le_trans (small_binomial h2 hp) hu, ⟨_, rfl, rfl⟩, rfl⟩,
    ?_, ⟨0, k⟩, ?_, rfl⟩
  · show (run 64 (Sharp.binomial k 0) DSet.new).2.ids.len ≤ n
    rw [a2.len]; omega
  · rw [a3]; exact List.mem_cons_self

/-- **C117 (one call).** No `in_union` makes more than `2 * (log2(len) + 1)` calls of `find_with_path_compression`. -/
theorem c117_one_call {T : Type} [DecidableEq T] {k : Nat} {st : Start T} {ops : List (Op T)} {s : DSet T} {a : Abs T}
    (h : Reached k st ops s a) (x y : T) (t : Nat) :
    (Counted.inUnion k x y false false (s, t)).2.2 ≤ t + 2 * (Nat.log2 s.len + 1) := by
  have hs : s.ids.len < 2 ^ k := by rw [h.rel.card]; exact lt_two_pow h.small_now h.stack_ge
  cases hx : s.ids.get x with
  | none =>
    have : Counted.inUnion k x y false false (s, t) = (.ok false, (s, t)) := by
      have l1 : (Counted.lift (DSet.lookup x false) : M (DSet T × Nat) _) (s, t) = (.ok none, (s, t)) := by
        simp [Counted.lift, DSet.lookup, hx]
      unfold Counted.inUnion
      rw [M.bind_ok l1]; rfl
    rw [this]; exact Nat.le_add_right _ _
  | some i =>
    cases hy : s.ids.get y with
    | none =>
      have : Counted.inUnion k x y false false (s, t) = (.ok false, (s, t)) := by
        have l1 : (Counted.lift (DSet.lookup x false) : M (DSet T × Nat) _) (s, t) = (.ok (some i), (s, t)) := by
          simp [Counted.lift, DSet.lookup, hx]
        have l2 : (Counted.lift (DSet.lookup y false) : M (DSet T × Nat) _) (s, t) = (.ok none, (s, t)) := by
          simp [Counted.lift, DSet.lookup, hy]
        unfold Counted.inUnion
        rw [M.bind_ok l1]
        simp only
        rw [M.bind_ok l2]; rfl
      rw [this]; exact Nat.le_add_right _ _
    | some j =>
      obtain ⟨b, s', n, m, h1, _, _, h4, h5⟩ := inUnion_counted h.rel hs hx hy t
      rw [h1]; simp only; omega

/-- **C117 (one union).** No `union` makes more than `2 * (log2(len) + 1)` calls, `len` being the number of elements after
it. -/
theorem c117_one_union {T : Type} [DecidableEq T] {k : Nat} {st : Start T} {ops : List (Op T)} {s : DSet T} {a : Abs T}
    (h : Reached k st ops s a) (x y : T) (hm : (a.step (.union x y false false)).card ≤ usizeMax) (t : Nat) :
    (Counted.union k x y false false (s, t)).2.2 ≤
      t + 2 * (Nat.log2 (DSet.union k x y false false s).2.len + 1) := by
  have hs := lt_two_pow hm h.stack_ge
  obtain ⟨i, s1, h1, hi, r1, _⟩ := makeOrGetSet_ok h.rel x
  obtain ⟨j, s2, h2, hj, r2, keep, _⟩ := makeOrGetSet_ok r1 y
  have hc : s2.ids.len = (a.step (.union x y false false)).card := by rw [r2.card]; exact card_congr rfl
  have hk : s2.dataById.length < 2 ^ k := by rw [r2.len, hc]; exact hs
  have e : (DSet.union k x y false false s).2.len = s2.dataById.length := by
    rw [r2.len, DSet.union, M.bind_ok h1, M.bind_ok h2]; rfl
  have l1 : (Counted.lift (DSet.makeOrGetSet x false) : M (DSet T × Nat) _) (s, t) = (.ok i, (s1, t)) := by
    simp [Counted.lift, h1]
  have l2 : (Counted.lift (DSet.makeOrGetSet y false) : M (DSet T × Nat) _) (s1, t) = (.ok j, (s2, t)) := by
    simp [Counted.lift, h2]
  rw [e, Counted.union, M.bind_ok l1, M.bind_ok l2]
  exact unionIds_counted r2.good hk (r2.lt x i (keep x i hi)) (r2.lt y j hj) t

/-- **C117 (one call, reached).** For every `n` there is a history of at most `n` elements after which one `in_union` makes
`log2 n + 2` such calls or more: only the average over a history is smaller (C69). -/
theorem c117_one_call_reached {n : Nat} (hn : 0 < n) (hu : n ≤ usizeMax) :
    ∃ (ops : List (Op Nat)) (s : DSet Nat) (a : Abs Nat) (x y : Nat), Reached 64 .new ops s a ∧ s.len ≤ n ∧
      ∀ t, t + (Nat.log2 n + 2) ≤ (Counted.inUnion 64 x y false false (s, t)).2.2 := by
  have h2 : 2 ^ Nat.log2 n ≤ n := Nat.log2_self_le (by omega)
  have h64 := log_le_64 hu
  generalize Nat.log2 n = k at *
  have hp := Nat.two_pow_pos k
  have hk : k ≤ u32Max := by unfold u32Max; omega
  obtain ⟨_, a2, a3⟩ := Sharp.binomial_run k 0 new_numbered rfl (by omega) hk (stack := 64)
  have hr : Reached 64 .new (Sharp.binomial k 0) (run 64 (Sharp.binomial k 0) DSet.new).2 _ :=
    ⟨Nat.le_refl _, fun pre hp => Nat.le_trans (small_binomial h2 hp) hu, ⟨_, rfl, rfl⟩, rfl⟩
  refine ⟨Sharp.binomial k 0, _, _, 2 ^ k - 1, 0, hr, ?_, fun t => ?_⟩
  · show (run 64 (Sharp.binomial k 0) DSet.new).2.ids.len ≤ n
    rw [a2.len]; omega
  · obtain ⟨b, s', m, m', h1, ⟨q, h4⟩, h5, _⟩ := inUnion_counted (k := 64) (x := 2 ^ k - 1) (y := 0) hr.rel
      (by rw [hr.rel.card]; exact lt_two_pow hr.small_now (Nat.le_refl _))
      (by rw [a2.get, if_pos (by omega)]) (by rw [a2.get, if_pos (by omega)]) t
    rw [h1]
    have hd : Down (run 64 (Sharp.binomial k 0) DSet.new).2.dataById (2 ^ k - 1) k := by
      have := (Sharp.binomial_climb k (off := 0) (d := (run 64 (Sharp.binomial k 0) DSet.new).2.dataById) fun i _ => by
        rw [a3, show 0 + 1 + i = i + 1 by omega]; rfl).down (.zero 0)
      rwa [Nat.zero_add] at this
    have : k < m := Nat.lt_of_not_le fun hm => by
      rw [find_deep (hd.mono hm)] at h4; cases h4
    simp only
    omega

end

open Demo in
example : 0 < 11 ∧ 11 ≤ usizeMax ∧ Nat.log2 11 = 3 ∧ (run 3 (Sharp.binomial 3 0) DSet.new).2.dataById.map (·.parent) =
      [0, 0, 0, 2, 0, 4, 4, 6] ∧
    (run 3 (Sharp.binomial 3 0) DSet.new).2.dataById.map (·.rank) = [3, 0, 1, 0, 2, 0, 1, 0] ∧
    (Counted.union 64 7 9 false false ((run 3 (Sharp.binomial 3 0) DSet.new).2, 10)).2.2 = 15 ∧
    (Counted.inUnion 64 7 0 false false ((run 3 (Sharp.binomial 3 0) DSet.new).2, 10)).2.2 = 15 := by
  decide +kernel

end DS
