import Verif.Cnt.Props
/-!
# The counter property C79: interrupted additions and subtractions

`a += b` and `a -= b` call the user's `Hash`, `Eq` and `Clone` while they run, and any of those can panic. An
interrupted call leaves every count of `a` either as it was or as the finished call would have left it.
-/

open Rust
namespace Cnt
open Counter

section
variable {T : Type} [DecidableEq T] [Cfg]

/-- C79: however an addition ends, by returning, by overflow or by a panic of the user's code, the counter left
behind is valid, every key has its old count or the count of the finished sum, and with overflow checks no zero
is stored. If no reached count overflows then exactly the reached keys have the count of the sum. -/
theorem c79_add_assign {a b : Counter T} (ha : Valid a) (hb : Valid b) {p : Bool} {order : List (T × Nat)}
    (ho : IterUpTo p order b) :
    ∃ r c, addAssign order p a = (r, c) ∧ addAssignRef order p a = (r, c) ∧ Valid c ∧
      (∀ k, c.get k = a.get k ∨
        (b.get k).isSome ∧ c.get k = some ((mult a k + mult b k) % (usizeMax + 1))) ∧
      (Cfg.overflowChecks = true → NoZero a → NoZero b → NoZero c) ∧
      ((∀ k ∈ order.map (·.1), mult a k + mult b k ≤ usizeMax) →
        r = (if p then .error .user else .ok ()) ∧
        ∀ k, c.get k = if k ∈ order.map (·.1) then some (mult a k + mult b k) else a.get k) := by
  have hle := iterUpTo_le hb ho
  refine ⟨(addLoop order p a).1, (addLoop order p a).2, by rw [addAssign_eq], by rw [addAssignRef_eq],
    addLoop_valid order p ha hle, ?_, fun hc hza hzb => addLoop_noZero hc order p ha hza fun e he =>
      ⟨iterUpTo_pos hb hzb ho e he, hle e he⟩, fun hf => ?_⟩
  · by_cases hv : (Cfg.overflowChecks = false) ∨ ∀ k, mult a k + sumFor k order ≤ usizeMax
    · obtain ⟨c, h1, _, h3⟩ := addLoop_ok order p ha hle hv
      intro k
      rw [h1, h3]
      by_cases hk : k ∈ order.map (·.1)
      · obtain ⟨hs, he⟩ := iterUpTo_sumFor hb ho hk
        rw [if_pos hk, he]; exact .inr ⟨hs, rfl⟩
      · rw [if_neg hk]; exact .inl rfl
    · simp only [not_or, not_forall, Bool.not_eq_false, Nat.not_le] at hv
      obtain ⟨c, h1, hvc, _, done, key, val, rest, h4, _, h6⟩ := addLoop_overflow order p ha hle hv.1 hv.2
      intro k
      rw [h1]
      have hkc := h6 k
      by_cases hk : k ∈ done.map (·.1)
      · obtain ⟨rest', ho1, _⟩ := ho
        have hd : IterUpTo true done b :=
          ⟨(key, val) :: rest ++ rest', by rw [← List.append_assoc, ← h4]; exact ho1, fun h => by cases h⟩
        obtain ⟨hs, he⟩ := iterUpTo_sumFor hb hd hk
        rw [if_pos hk, he] at hkc
        have := hvc.2 k _ hkc
        rw [Nat.mod_eq_of_lt (by omega)]
        exact .inr ⟨hs, hkc⟩
      · rw [if_neg hk] at hkc; exact .inl hkc
  · have hf' : ∀ k, mult a k + sumFor k order ≤ usizeMax := by
      intro k
      by_cases hk : k ∈ order.map (·.1)
      · rw [(iterUpTo_sumFor hb ho hk).2]; exact hf k hk
      · rw [sumFor_not_mem hk]; exact mult_le ha k
    obtain ⟨c, h1, _, h3⟩ := addLoop_ok order p ha hle (.inr hf')
    rw [h1]
    refine ⟨rfl, fun k => ?_⟩
    rw [h3]
    by_cases hk : k ∈ order.map (·.1)
    · rw [if_pos hk, if_pos hk, (iterUpTo_sumFor hb ho hk).2, Nat.mod_eq_of_lt (by have := hf k hk; omega)]
    · rw [if_neg hk, if_neg hk]

/-- C79: a subtraction ends by returning or by a panic of the user's code. The counter left behind is valid,
exactly the reached keys have the count of the finished difference, all others their old count, and no zero is
stored. -/
theorem c79_sub_assign {a b : Counter T} (ha : Valid a) (hb : Valid b) {p : Bool} {order : List (T × Nat)}
    (ho : IterUpTo p order b) :
    ∃ c, subAssign order p a = (if p then .error .user else .ok (), c) ∧
      subAssignRef order p a = (if p then .error .user else .ok (), c) ∧ Valid c ∧
      (∀ k, c.get k = if k ∈ order.map (·.1) then
        (if mult a k ≤ mult b k then none else some (mult a k - mult b k)) else a.get k) ∧
      (∀ k, k ∈ order.map (·.1) → (b.get k).isSome) ∧ (NoZero a → NoZero c) := by
  obtain ⟨c, h1, h2, h3⟩ := subAssign_ok order p ha
  refine ⟨c, h1, by rw [subAssignRef_eq]; exact h1, h2, fun k => ?_,
    fun k hk => (iterUpTo_sumFor hb ho hk).1, fun hz => ?_⟩
  · rw [h3]
    by_cases hk : k ∈ order.map (·.1)
    · rw [if_pos hk, if_pos hk, (iterUpTo_sumFor hb ho hk).2]
    · rw [if_neg hk, if_neg hk]
  · have := subAssign_noZero order p ha hz
    rw [h1] at this; exact this

/-- C79: after an interrupted subtraction every count is at least that of the finished one and at
most the old one; after an interrupted addition that does not overflow it is the other way around. -/
theorem c79_between {a b : Counter T} (ha : Valid a) (hb : Valid b) {p : Bool} {order : List (T × Nat)}
    (ho : IterUpTo p order b) (k : T) :
    (mult a k - mult b k ≤ mult (subAssign order p a).2 k ∧ mult (subAssign order p a).2 k ≤ mult a k) ∧
    (mult a k + mult b k ≤ usizeMax →
      mult a k ≤ mult (addAssign order p a).2 k ∧ mult (addAssign order p a).2 k ≤ mult a k + mult b k) := by
  constructor
  · obtain ⟨c, h1, _, _, h4, _⟩ := c79_sub_assign ha hb ho
    rw [h1]
    show _ ≤ mult c k ∧ mult c k ≤ _
    rw [show mult c k = (c.get k).getD 0 from rfl, h4]
    split
    · split
      · simp only [Option.getD_none]; omega
      · simp only [Option.getD_some]; omega
    · show _ ≤ mult a k ∧ mult a k ≤ mult a k
      omega
  · intro hf
    obtain ⟨r, c, h1, _, _, h4, _⟩ := c79_add_assign ha hb ho
    rw [h1]
    show _ ≤ mult c k ∧ mult c k ≤ _
    rw [show mult c k = (c.get k).getD 0 from rfl]
    rcases h4 k with h | ⟨_, h⟩
    · rw [h]; show _ ≤ mult a k ∧ mult a k ≤ _; omega
    · rw [h, Nat.mod_eq_of_lt (by omega)]; simp only [Option.getD_some]; omega

end

open Demo in
example : IterUpTo true [(7, 1)] cb ∧
    addAssign [(7, 1)] true ca = (.error .user, ⟨⟨[(7, 3), (8, 1)]⟩⟩) ∧
    subAssign [(7, 1)] true ca = (.error .user, ⟨⟨[(7, 1), (8, 1)]⟩⟩) :=
  ⟨⟨[(9, 3)], List.Perm.swap _ _ _, fun h => by cases h⟩, by decide, by decide⟩

end Cnt
