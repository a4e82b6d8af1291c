import Verif.Cnt.SpecRehash
import Verif.Cnt.Lemmas
/-!
# Lemmas on counters that lose entries
-/

open Rust
namespace Cnt.Rehash

section
variable {T : Type} [DecidableEq T]

theorem listed_eq (k : T) (order : List (T × Nat)) : listed k order = sumFor k order := by
  induction order with
  | nil => rfl
  | cons e es ih =>
    obtain ⟨key, val⟩ := e
    unfold listed at ih ⊢
    by_cases h : key = k
    · subst h
      simp [sumFor, ih]
    · simp [sumFor, h, ih]

theorem lookup_filter (keep : T → Bool) (k : T) (es : List (T × Nat)) :
    HMap.lookup k (es.filter fun e => keep e.1) = if keep k then HMap.lookup k es else none := by
  induction es with
  | nil => cases keep k <;> rfl
  | cons e es ih =>
    obtain ⟨key, val⟩ := e
    by_cases hk : keep key
    · rw [List.filter_cons_of_pos (by exact hk)]
      simp only [HMap.lookup]
      by_cases h : key = k
      · subst h; simp [hk]
      · simp [h, ih]
    · rw [List.filter_cons_of_neg (by simpa using hk), ih]
      by_cases h : key = k
      · subst h; simp [hk]
      · simp [HMap.lookup, h]

theorem getD_eq (c : Counter T) (k : T) : (c.get k).getD 0 = mult c k := rfl

variable [Cfg]

/-- the end of a loop -/
theorem stop_run (s : Stop T) {c : Counter T} (h : Valid c) :
    ∃ c', stop s c = (s.result, c') ∧ Valid c' ∧ ∀ k, c'.get k = s.on k (c.get k) := by
  cases s with
  | done => exact ⟨c, rfl, h, fun _ => rfl⟩
  | user => exact ⟨c, rfl, h, fun _ => rfl⟩
  | rehash keep =>
    have hg : ∀ k, HMap.lookup k (c.counter.entries.filter fun e => keep e.1) =
        if keep k then HMap.lookup k c.counter.entries else none := fun k => lookup_filter keep k _
    refine ⟨_, rfl, ⟨?_, fun k n hn => ?_⟩, hg⟩
    · exact List.Nodup.sublist (List.Sublist.map _ List.filter_sublist) h.1
    · have := hg k
      change HMap.lookup k _ = some n at hn
      rw [hn] at this
      by_cases hk : keep k
      · rw [if_pos hk] at this
        exact h.2 k n this.symm
      · rw [if_neg hk] at this; cases this

theorem extend_eq (xs : List T) (s : Stop T) : extend xs s = addAssign (ones xs) s := by
  induction xs with
  | nil => rfl
  | cons x xs ih => simp only [extend, ones, List.map_cons, addAssign, ih]; rfl

/-- a loop is the loop without its end, and then the end -/
theorem addAssign_split (ps : List (T × Nat)) (s : Stop T) (c : Counter T) :
    addAssign ps s c = (do addLoop ps false; stop s) c := by
  induction ps generalizing c with
  | nil => rfl
  | cons e es ih =>
    have h1 : addAssign (e :: es) s = (do bump e.1 e.2; addAssign es s) := rfl
    have h2 : addLoop (e :: es) false = (do bump e.1 e.2; addLoop es false) := rfl
    rw [h1, M.bind_run, M.bind_run, h2, M.bind_run]
    generalize bump e.1 e.2 c = q
    obtain ⟨r, c1⟩ := q
    cases r with
    | error f => rfl
    | ok u => exact (ih c1).trans (M.bind_run _ _ _)

theorem subAssign_split (ps : List (T × Nat)) (s : Stop T) (c : Counter T) :
    subAssign ps s c = (do Counter.subAssign ps false; stop s) c := by
  induction ps generalizing c with
  | nil => rfl
  | cons e es ih =>
    have h1 : subAssign (e :: es) s = (do Counter.subAssignStep e.1 e.2; subAssign es s) := rfl
    have h2 : Counter.subAssign (e :: es) false = (do Counter.subAssignStep e.1 e.2; Counter.subAssign es false) := rfl
    rw [h1, M.bind_run, M.bind_run, h2, M.bind_run]
    generalize Counter.subAssignStep e.1 e.2 c = q
    obtain ⟨r, c1⟩ := q
    cases r with
    | error f => rfl
    | ok u => exact (ih c1).trans (M.bind_run _ _ _)

theorem addAssign_run (ps : List (T × Nat)) (s : Stop T) {c : Counter T} (h : Valid c)
    (hps : ∀ e ∈ ps, e.2 ≤ usizeMax) :
    ((addAssign ps s c).1 = .error .overflow ∧ Cfg.overflowChecks = true ∧ Valid (addAssign ps s c).2 ∧
      ∃ k, usizeMax < mult c k + sumFor k ps) ∨
    ((addAssign ps s c).1 = s.result ∧ Valid (addAssign ps s c).2 ∧
      (Cfg.overflowChecks = true → ∀ k, mult c k + sumFor k ps ≤ usizeMax) ∧
      ∀ k, (addAssign ps s c).2.get k = s.on k (if k ∈ ps.map (·.1) then
        some ((mult c k + sumFor k ps) % (usizeMax + 1)) else c.get k)) := by
  rw [addAssign_split]
  by_cases hv : (Cfg.overflowChecks = false) ∨ ∀ k, mult c k + sumFor k ps ≤ usizeMax
  · obtain ⟨c1, h1, h2, h3⟩ := addLoop_ok ps false h hps hv
    obtain ⟨c2, h4, h5, h6⟩ := stop_run s h2
    right
    rw [M.bind_ok h1, h4]
    refine ⟨rfl, h5, fun hc => ?_, fun k => by rw [h6, h3]⟩
    rcases hv with hv | hv
    · rw [hc] at hv; cases hv
    · exact hv
  · simp only [not_or, not_forall, Bool.not_eq_false, Nat.not_le] at hv
    obtain ⟨c1, h1, h2, _⟩ := addLoop_overflow ps false h hps hv.1 hv.2
    left
    rw [M.bind_error h1]
    exact ⟨rfl, hv.1, h2, hv.2⟩

theorem subAssign_run (ps : List (T × Nat)) (s : Stop T) {c : Counter T} (h : Valid c) :
    (subAssign ps s c).1 = s.result ∧ Valid (subAssign ps s c).2 ∧
      ∀ k, (subAssign ps s c).2.get k = s.on k (if k ∈ ps.map (·.1) then
        (if mult c k ≤ sumFor k ps then none else some (mult c k - sumFor k ps)) else c.get k) := by
  rw [subAssign_split]
  obtain ⟨c1, h1, h2, h3⟩ := subAssign_ok ps false h
  obtain ⟨c2, h4, h5, h6⟩ := stop_run s h2
  rw [M.bind_ok h1, h4]
  exact ⟨rfl, h5, fun k => by rw [h6, h3]⟩

/-- what one call does -/
theorem call_run (call : Call T) {c : Counter T} (h : Valid c) (hr : call.Real) :
    ((call.run c).1 = .error .overflow ∧ Cfg.overflowChecks = true ∧ Valid (call.run c).2 ∧
      call.subtracts = false ∧ ∃ k, usizeMax < mult c k + call.amount k) ∨
    ((call.run c).1 = call.ending.result ∧ Valid (call.run c).2 ∧
      (Cfg.overflowChecks = true → call.subtracts = false → ∀ k, mult c k + call.amount k ≤ usizeMax) ∧
      ∀ k, (call.run c).2.get k = call.on k (c.get k)) := by
  cases call with
  | push x r =>
    cases r with
    | some keep =>
      obtain ⟨c', h1, h2, h3⟩ := stop_run (.rehash keep) h
      right
      change (stop (.rehash keep) c).1 = _ ∧ Valid (stop (.rehash keep) c).2 ∧ _ ∧ ∀ k, (stop (.rehash keep) c).2.get k = _
      rw [h1]
      refine ⟨rfl, h2, fun _ _ k => mult_le h k, fun k => ?_⟩
      rw [h3]
      simp [Call.on, Call.meets, Call.ending]
    | none =>
      have key := addAssign_run (ones [x]) .done h (fun e he => (ones_le [x] e he).2)
      have e1 : addAssign (ones [x]) .done c = Counter.push x c := by
        rw [addAssign_split, M.bind_run, push_as_loop]
        generalize Counter.push x c = q
        obtain ⟨r, c1⟩ := q
        cases r <;> rfl
      rw [e1] at key
      change ((Counter.push x c).1 = _ ∧ _ ∧ Valid (Counter.push x c).2 ∧ _) ∨
        ((Counter.push x c).1 = _ ∧ Valid (Counter.push x c).2 ∧ _ ∧ ∀ k, (Counter.push x c).2.get k = _)
      refine key.imp (fun ⟨k1, k2, k3, k, k4⟩ => ⟨k1, k2, k3, rfl, k, ?_⟩)
        fun ⟨k1, k2, k3, k4⟩ => ⟨k1, k2, fun hc _ k => ?_, fun k => ?_⟩
      · rw [sumFor_ones] at k4
        simpa [Call.amount, List.count_singleton] using k4
      · have := k3 hc k
        rw [sumFor_ones] at this
        simpa [Call.amount, List.count_singleton] using this
      · rw [k4, sumFor_ones, keys_ones]
        by_cases hk : x = k
        · subst hk
          simp [Call.on, Call.meets, Call.ending, Call.subtracts, Call.amount, getD_eq]
        · simp [Call.on, Call.meets, Call.ending, hk, Ne.symm hk]
  | extend xs s =>
    have key := addAssign_run (ones xs) s h (fun e he => (ones_le xs e he).2)
    rw [← extend_eq] at key
    refine key.imp (fun ⟨k1, k2, k3, k, k4⟩ => ⟨k1, k2, k3, rfl, k, by rw [sumFor_ones] at k4; exact k4⟩)
      fun ⟨k1, k2, k3, k4⟩ => ⟨k1, k2, fun hc _ k => ?_, fun k => ?_⟩
    · have := k3 hc k
      rw [sumFor_ones] at this
      exact this
    · refine (k4 k).trans ?_
      rw [sumFor_ones, keys_ones]
      rfl
  | addAssign o s =>
    refine (addAssign_run o s h hr).imp
      (fun ⟨k1, k2, k3, k, k4⟩ => ⟨k1, k2, k3, rfl, k, by rw [← listed_eq] at k4; exact k4⟩) fun ⟨k1, k2, k3, k4⟩ => ⟨k1, k2, fun hc _ k => ?_, fun k => ?_⟩
    · have := k3 hc k
      rw [← listed_eq] at this
      exact this
    · refine (k4 k).trans ?_
      rw [← listed_eq]
      rfl
  | subAssign o s =>
    obtain ⟨k1, k2, k3⟩ := subAssign_run o s h
    refine .inr ⟨k1, k2, fun _ hs => (by cases hs), fun k => ?_⟩
    refine (k3 k).trans ?_
    rw [← listed_eq]
    rfl

omit [Cfg] in
theorem spare_amount (k : T) (call : Call T) : call.spare.amount k = call.amount k := by
  cases call with
  | push x r => cases r <;> rfl
  | _ => rfl

omit [Cfg] [DecidableEq T] in
theorem spare_subtracts (call : Call T) : call.spare.subtracts = call.subtracts := by
  cases call with
  | push x r => cases r <;> rfl
  | _ => rfl

omit [DecidableEq T] in
theorem spare_real {call : Call T} (h : call.Real) : call.spare.Real := by
  cases call with
  | push x r => cases r <;> trivial
  | extend xs s => trivial
  | addAssign ps s => exact h
  | subAssign ps s => trivial

omit [Cfg] [DecidableEq T] in
theorem spare_meets (k : T) (call : Call T) : call.spare.meets k ↔ call.meets k := by
  cases call with
  | push x r => cases r <;> simp [Call.spare, Call.meets]
  | _ => rfl

omit [Cfg] [DecidableEq T] in
theorem spare_ending (call : Call T) : call.spare.ending = call.ending.spare := by
  cases call with
  | push x r => cases r <;> rfl
  | _ => rfl

/-- what a call without its losses makes of a count -/
theorem spare_on (k : T) (call : Call T) (o : Option Nat) :
    call.spare.on k o = call.ending.spare.on k
      (if call.meets k then
        if call.subtracts then
          if o.getD 0 ≤ call.amount k then none else some (o.getD 0 - call.amount k)
        else some ((o.getD 0 + call.amount k) % (usizeMax + 1))
      else o) := by
  unfold Call.on
  rw [spare_ending, spare_amount, spare_subtracts]
  congr 1
  exact if_congr (spare_meets k call) rfl rfl

/-- a loss that spares a key does nothing to it -/
theorem on_spare (k : T) (call : Call T) (h : ∀ keep, call.ending = .rehash keep → keep k = true) (o : Option Nat) :
    call.spare.on k o = call.on k o := by
  rw [spare_on, Call.on]
  generalize call.ending = s at h ⊢
  cases s with
  | done => rfl
  | user => rfl
  | rehash keep => simp [Stop.on, Stop.spare, h keep rfl]

/-- a count after a loss is at most the count without it -/
theorem on_le (k : T) (call : Call T) (o o' : Option Nat) (h : o.getD 0 ≤ o'.getD 0)
    (hfit : call.subtracts = false → o'.getD 0 + call.amount k ≤ usizeMax) :
    (call.on k o).getD 0 ≤ (call.spare.on k o').getD 0 := by
  have base : ∀ (s : Stop T) (x y : Option Nat), x.getD 0 ≤ y.getD 0 → (s.on k x).getD 0 ≤ (s.spare.on k y).getD 0 := by
    intro s x y hxy
    cases s with
    | done => exact hxy
    | user => exact hxy
    | rehash keep =>
      simp only [Stop.on, Stop.spare]
      split
      · exact hxy
      · exact Nat.zero_le _
  rw [spare_on, Call.on]
  refine base _ _ _ ?_
  split
  · split
    · split <;> split <;> simp only [Option.getD_some, Option.getD_none] <;> omega
    · next hs =>
      have := hfit (by simpa using hs)
      rw [Nat.mod_eq_of_lt (by omega), Nat.mod_eq_of_lt (by omega)]
      simp only [Option.getD_some]; omega
  · exact h

end
end Cnt.Rehash
