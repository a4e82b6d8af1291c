import Verif.Cnt.LemmasRehash
/-!
# C103: a panic of `Hash` while the table is rehashed
-/

open Rust
namespace Cnt.Rehash

section
variable {T : Type} [DecidableEq T] [Cfg]

/-- **C103 (what a history leaves).** Through any calls, each ended by any panic, the count of every key is what the calls
make of that key alone, and a rehash only ever forgets whole entries. Every call returns or panics as its own loop ended.
Only an addition that overflows is excepted. -/
theorem c103_each_key_alone (calls : List (Call T)) (hr : ∀ f ∈ calls, f.Real) {c : Counter T} (h : Valid c)
    (ho : .error .overflow ∉ (runAll calls c).1) :
    Valid (runAll calls c).2 ∧ (runAll calls c).1 = calls.map (·.ending.result) ∧
      ∀ k, (runAll calls c).2.get k = calls.foldl (fun o f => f.on k o) (c.get k) := by
  induction calls generalizing c with
  | nil => exact ⟨h, rfl, fun _ => rfl⟩
  | cons f fs ih =>
    have ho1 : (f.run c).1 ≠ .error .overflow := fun e => ho (by rw [← e]; exact List.mem_cons_self)
    rcases call_run f h (hr f List.mem_cons_self) with ⟨h1, _⟩ | ⟨h1, h2, _, h3⟩
    · exact absurd h1 ho1
    · obtain ⟨i1, i2, i3⟩ := ih (fun g hg => hr g (List.mem_cons_of_mem _ hg)) h2
        (fun hm => ho (List.mem_cons_of_mem _ hm))
      refine ⟨i1, ?_, fun k => ?_⟩
      · change (f.run c).1 :: (runAll fs (f.run c).2).1 = _
        rw [i2, h1]; rfl
      · exact (i3 k).trans (by rw [h3]; rfl)

/-- **C103 (whatever happens, the counter is sound).** Also after an overflow each key is listed once and every count is a
number of `usize`; without overflow checks no call ends in an overflow. -/
theorem c103_sound (calls : List (Call T)) (hr : ∀ f ∈ calls, f.Real) {c : Counter T} (h : Valid c) :
    Valid (runAll calls c).2 ∧
      (Cfg.overflowChecks = false → .error .overflow ∉ (runAll calls c).1) := by
  induction calls generalizing c with
  | nil => exact ⟨h, fun _ hm => by cases hm⟩
  | cons f fs ih =>
    have hv : Valid (f.run c).2 ∧ (Cfg.overflowChecks = false → (f.run c).1 ≠ .error .overflow) := by
      rcases call_run f h (hr f List.mem_cons_self) with ⟨_, hc, h2, _⟩ | ⟨h1, h2, _⟩
      · exact ⟨h2, fun hf => by rw [hc] at hf; cases hf⟩
      · refine ⟨h2, fun _ he => ?_⟩
        rw [h1] at he
        cases hs : f.ending <;> rw [hs] at he <;> cases he
    obtain ⟨i1, i2⟩ := ih (fun g hg => hr g (List.mem_cons_of_mem _ hg)) hv.1
    refine ⟨i1, fun hf hm => ?_⟩
    rcases List.mem_cons.mp hm with he | hm
    · exact hv.2 hf he.symm
    · exact i2 hf hm

/-- **C103 (a key that is never lost).** If no rehash of the history loses `k`, the count of `k` is the one the same calls
give when nothing is lost at all, whatever became of the other keys. -/
theorem c103_spared_key (calls : List (Call T)) (hr : ∀ f ∈ calls, f.Real) {c : Counter T} (h : Valid c) (k : T)
    (hk : ∀ f ∈ calls, ∀ keep, f.ending = .rehash keep → keep k = true)
    (ho : .error .overflow ∉ (runAll calls c).1)
    (ho' : .error .overflow ∉ (runAll (calls.map Call.spare) c).1) :
    (runAll calls c).2.get k = (runAll (calls.map Call.spare) c).2.get k := by
  have hr' : ∀ f ∈ calls.map Call.spare, f.Real := by
    intro f hf
    obtain ⟨g, hg, rfl⟩ := List.mem_map.mp hf
    exact spare_real (hr g hg)
  rw [(c103_each_key_alone calls hr h ho).2.2 k, (c103_each_key_alone _ hr' h ho').2.2 k]
  generalize c.get k = o
  clear ho ho' hr hr'
  induction calls generalizing o with
  | nil => rfl
  | cons f fs ih =>
    simp only [List.map_cons, List.foldl_cons]
    rw [on_spare k f (hk f List.mem_cons_self), ih (fun g hg => hk g (List.mem_cons_of_mem _ hg))]

/-- **C103 (losses only lower counts).** With overflow checks: if the calls overflow nowhere when nothing is lost, they
overflow nowhere with any losses either, and then no count is larger than without them. -/
theorem c103_never_more (hc : Cfg.overflowChecks = true) (calls : List (Call T)) (hr : ∀ f ∈ calls, f.Real)
    {c : Counter T} (h : Valid c) (ho : .error .overflow ∉ (runAll (calls.map Call.spare) c).1) :
    .error .overflow ∉ (runAll calls c).1 ∧
      ∀ k, mult (runAll calls c).2 k ≤ mult (runAll (calls.map Call.spare) c).2 k := by
  suffices H : ∀ c' : Counter T, Valid c' → (∀ k, mult c' k ≤ mult c k) →
      .error .overflow ∉ (runAll calls c').1 ∧
        ∀ k, mult (runAll calls c').2 k ≤ mult (runAll (calls.map Call.spare) c).2 k from
    H c h (fun _ => Nat.le_refl _)
  induction calls generalizing c with
  | nil => exact fun c' _ hle => ⟨List.not_mem_nil, hle⟩
  | cons f fs ih =>
    intro c' h' hle
    have ho1 : (f.spare.run c).1 ≠ .error .overflow := fun e => ho (by rw [← e]; exact List.mem_cons_self)
    rcases call_run f.spare h (spare_real (hr f List.mem_cons_self)) with ⟨h1, _⟩ | ⟨_, h2, hfit, h3⟩
    · exact absurd h1 ho1
    · have hfit' : f.subtracts = false → ∀ k, mult c k + f.amount k ≤ usizeMax := by
        intro hs k
        have := hfit hc (by rw [spare_subtracts, hs]) k
        rwa [spare_amount] at this
      rcases call_run f h' (hr f List.mem_cons_self) with ⟨_, _, _, hs, k, hk⟩ | ⟨g1, g2, _, g3⟩
      · have := hfit' hs k
        have := hle k
        omega
      · have hle' : ∀ k, mult (f.run c').2 k ≤ mult (f.spare.run c).2 k := by
          intro k
          rw [← getD_eq, ← getD_eq, g3, h3]
          exact on_le k f _ _ (hle k) fun hs => hfit' hs k
        obtain ⟨i1, i2⟩ := ih (fun g hg => hr g (List.mem_cons_of_mem _ hg)) h2
          (fun hm => ho (List.mem_cons_of_mem _ hm)) _ g2 hle'
        refine ⟨fun hm => ?_, i2⟩
        rcases List.mem_cons.mp hm with he | hm
        · have he := he.trans g1
          cases hs : f.ending <;> rw [hs] at he <;> cases he
        · exact i1 hm

/-- **C103 (all may be lost).** One panicking rehash may forget every entry. -/
theorem c103_may_lose_all (x : T) (c : Counter T) :
    ∃ keep : T → Bool, ∃ c', push x (some keep) c = (.error .user, c') ∧ ∀ k, c'.get k = none := by
  refine ⟨fun _ => false, _, rfl, fun k => ?_⟩
  exact (lookup_filter (fun _ => false) k c.counter.entries).trans rfl

/-- **C103 (the other calls).** Calls that lose nothing are those of the model of the other properties. -/
theorem c103_same_calls (x : T) (xs : List T) (ps : List (T × Nat)) (p : Bool) :
    push x none = Counter.push x ∧
    extend xs (if p then .user else .done) = Counter.extend xs p ∧
    extend xs (if p then .user else .done) = Counter.extendRef xs p ∧
    addAssign ps (if p then .user else .done) = Counter.addAssign ps p ∧
    addAssign ps (if p then .user else .done) = Counter.addAssignRef ps p ∧
    subAssign ps (if p then .user else .done) = Counter.subAssign ps p ∧
    subAssign ps (if p then .user else .done) = Counter.subAssignRef ps p := by
  have hadd : ∀ ps : List (T × Nat), addAssign ps (if p then .user else .done) = addLoop ps p := by
    intro ps
    induction ps with
    | nil => cases p <;> rfl
    | cons e es ih => simp only [addAssign, addLoop, ih]; rfl
  have hsub : subAssign ps (if p then .user else .done) = Counter.subAssign ps p := by
    induction ps with
    | nil => cases p <;> rfl
    | cons e es ih => simp only [subAssign, Counter.subAssign, ih]
  refine ⟨rfl, ?_, ?_, ?_, ?_, hsub, ?_⟩
  · rw [extend_eq, hadd, Cnt.extend_eq]
  · rw [extend_eq, hadd, extendRef_eq]
  · rw [hadd, addAssign_eq]
  · rw [hadd, addAssignRef_eq]
  · rw [hsub, subAssignRef_eq]

end

/-- what the examples do: an eight is taken away, the next call finds no room and loses the sevens, then they are
counted anew -/
def Trial.losing : List (Call Nat) :=
  [.subAssign [(8, 1)] .done, .extend [9, 9] (.rehash fun k => decide (k ≠ 7)), .push 7 none,
    .addAssign [(7, 3), (9, 1)] .user]

open Trial Cnt.Demo in
theorem Trial.losing_run : runAll losing ca =
    ([.ok (), .error .user, .ok (), .error .user], ⟨⟨[(7, 4), (9, 3)]⟩⟩) := rfl
open Trial Cnt.Demo in
theorem Trial.spared_run : runAll (losing.map Call.spare) ca =
    ([.ok (), .error .user, .ok (), .error .user], ⟨⟨[(9, 3), (7, 6)]⟩⟩) := rfl
open Trial Cnt.Demo in
theorem Trial.losing_real : ∀ f ∈ losing, f.Real := by
  intro f hf
  simp only [losing, List.mem_cons, List.not_mem_nil, or_false] at hf
  rcases hf with rfl | rfl | rfl | rfl
  · trivial
  · trivial
  · trivial
  · intro e he
    simp only [List.mem_cons, List.not_mem_nil, or_false] at he
    rcases he with rfl | rfl <;> decide +kernel

open Trial Cnt.Demo in
example : Valid ca ∧ (∀ f ∈ losing, f.Real) ∧ .error .overflow ∉ (runAll losing ca).1 ∧
    losing.foldl (fun o f => f.on 7 o) (ca.get 7) = some 4 ∧ losing.foldl (fun o f => f.on 8 o) (ca.get 8) = none :=
  ⟨ca_valid, losing_real, by rw [losing_run]; simp, rfl, rfl⟩
open Trial Cnt.Demo in
example : (∀ f ∈ losing, ∀ keep, f.ending = .rehash keep → keep 9 = true) ∧
    .error .overflow ∉ (runAll (losing.map Call.spare) ca).1 ∧
    (runAll losing ca).2.get 9 = some 3 ∧ (runAll (losing.map Call.spare) ca).2.get 9 = some 3 := by
  refine ⟨fun f hf keep he => ?_, by rw [spared_run]; simp, rfl, rfl⟩
  simp only [losing, List.mem_cons, List.not_mem_nil, or_false] at hf
  rcases hf with rfl | rfl | rfl | rfl <;> cases he
  rfl
open Trial Cnt.Demo in
example : Cfg.overflowChecks = true ∧ mult (runAll losing ca).2 7 = 4 ∧ mult (runAll (losing.map Call.spare) ca).2 7 = 6 :=
  ⟨rfl, rfl, rfl⟩
open Cnt.Demo in
example : (runAll [.push 7 none, .push 8 none] full).1 = [.error .overflow, .ok ()] := rfl

end Cnt.Rehash
