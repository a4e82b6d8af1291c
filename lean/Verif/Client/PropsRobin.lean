import Verif.Client.LemmasRobin
/-!
# C142: turns in a circle
-/

open Rust CB
namespace Client

section
variable {τ : Type} [Cfg] [Elem (τ × Nat)] {cb : Buf (τ × Nat)} {tasks : List (τ × Nat)}

/-- **C142 (rounds).** Whatever buffer holds the tasks, the loop ends, nothing panics and nothing is dropped; in each round
every task that still needs a turn gets exactly one, in the order of the tasks. -/
theorem c142_rounds (h : Reachable cb) (hx : cb.contents = .ok tasks) (hp : ∀ t ∈ tasks, 0 < t.2) {k : Nat}
    (hk : ∀ t ∈ tasks, t.2 ≤ k) {fuel : Nat} (hf : (tasks.map (·.2)).sum < fuel) (dr : List (τ × Nat)) :
    ∃ cb', robin fuel ⟨cb, dr⟩ = (.ok (rounds tasks k), ⟨cb', dr⟩) ∧ cb'.contents = .ok [] := by
  obtain ⟨⟨n, xs⟩, r⟩ := h.rep
  obtain rfl : tasks = xs := Eq.symm <| Except.ok.inj (r.contents_eq.symm.trans hx)
  obtain ⟨cb', h1, h2⟩ := robin_ok (c := n) fuel (s := ⟨cb, dr⟩) (rest := []) (next := tasks) (k := k) r
    (by simpa using hp) (fun t ht => by cases ht) hk (by simpa [needs] using hf)
  exact ⟨cb', by simpa [less] using h1, h2.contents_eq⟩

/-- **C142 (fairness).** Every task gets as many turns as it needs. At no time has a task had two turns more than another
that still waits for one. -/
theorem c142_fair [DecidableEq τ] (h : Reachable cb) (hx : cb.contents = .ok tasks) (hp : ∀ t ∈ tasks, 0 < t.2)
    (hn : (tasks.map (·.1)).Nodup) {fuel : Nat} (hf : (tasks.map (·.2)).sum < fuel) (dr : List (τ × Nat)) :
    ∃ turns cb', robin fuel ⟨cb, dr⟩ = (.ok turns, ⟨cb', dr⟩) ∧ (∀ x n, (x, n) ∈ tasks → turns.count x = n) ∧
      (∀ x ∈ turns, ∃ n, (x, n) ∈ tasks) ∧
      ∀ sofar, sofar <+: turns → ∀ x n y m, (x, n) ∈ tasks → (y, m) ∈ tasks → sofar.count x < n →
        sofar.count y ≤ sofar.count x + 1 := by
  have hk : ∀ t ∈ tasks, t.2 ≤ (tasks.map (·.2)).sum := fun t ht => le_needs ht
  obtain ⟨cb', h1, _⟩ := c142_rounds h hx hp hk hf dr
  refine ⟨_, cb', h1, fun x n hm => ?_, fun x hm => ?_, fun sofar hs x n y m hxm hym hlt => ?_⟩
  · rw [count_rounds hn hm]
    exact Nat.min_eq_right (hk _ hm)
  · obtain ⟨r, _, hr⟩ := List.mem_flatMap.mp hm
    obtain ⟨t, ht, rfl⟩ := List.mem_map.mp hr
    exact ⟨t.2, (List.mem_filter.mp ht).1⟩
  · obtain ⟨r, q, rfl, hq⟩ := prefix_rounds _ hs
    have hqy : q.count y ≤ 1 := by
      have := hq.sublist.count_le (a := y)
      rw [count_round hn hym] at this
      split at this <;> omega
    rw [List.count_append, count_rounds hn hxm] at hlt
    rw [List.count_append, List.count_append, count_rounds hn hxm, count_rounds hn hym]
    omega

end

section
open CB.Demo

local instance calmTasks : Elem (Nat × Nat) := ⟨16, fun _ => false, true⟩

/-- a buffer with room for three tasks, wrapped around -/
def queued : Buf (Nat × Nat) := ⟨[some (3, 2), none, some (1, 3), some (2, 1)], 2, 1⟩

theorem queued_reachable : Reachable queued := by
  have h0 : Reachable (⟨[none, none, none, none], 0, 0⟩ : Buf (Nat × Nat)) :=
    Reachable.withCapacity (n := 3) (Or.inl (by decide)) rfl
  have h1 := Reachable.step (.extend [(8, 1), (9, 1), (1, 3), (2, 1), (3, 2)] false) [] h0 trivial
  have e : (step (.extend [(8, 1), (9, 1), (1, 3), (2, 1), (3, 2)] false)
      ⟨(⟨[none, none, none, none], 0, 0⟩ : Buf (Nat × Nat)), []⟩).2.cb = queued := by decide
  rw [e] at h1; exact h1

example : queued.contents = .ok [(1, 3), (2, 1), (3, 2)] ∧ (∀ t ∈ [(1, 3), (2, 1), (3, 2)], 0 < t.2) ∧
    (∀ t ∈ [(1, 3), (2, 1), (3, 2)], t.2 ≤ 3) ∧ ([(1, 3), (2, 1), (3, 2)].map (·.2)).sum < 7 ∧
    ([(1, 3), (2, 1), (3, 2)].map (·.1)).Nodup ∧ (robin 7 ⟨queued, []⟩).1.toOption = some [1, 2, 3, 1, 3, 1] :=
  ⟨rfl, by decide, by decide, by decide, by decide, by decide +kernel⟩

end
end Client
