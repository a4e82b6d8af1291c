import Verif.Cnt.Program
/-!
# The counter property C80: the iteration order of the maps cannot be observed
-/

open Rust
namespace Cnt
open Counter

section
variable {T : Type} [DecidableEq T] [Cfg]

/-- C80: two executions of one program, started from equal counters, with any iteration orders, return the same
answers line by line, overflow at the same line or not at all, and end with equal counters. -/
theorem c80_order_unobservable (prog : List (Instr T)) : ∀ {s1 s2 : Store T}, Same s1 s2 →
    ∀ {rs1 rs2 : List (Except Fault Ans)} {t1 t2 : Store T}, Exec prog s1 rs1 t1 → Exec prog s2 rs2 t2 →
    rs1 = rs2 ∧ (.error .overflow ∉ rs1 → Same t1 t2) := by
  induction prog with
  | nil =>
    intro s1 s2 h rs1 rs2 t1 t2 e1 e2
    cases e1; cases e2
    exact ⟨rfl, fun _ => h⟩
  | cons ins prog ih =>
    intro s1 s2 h rs1 rs2 t1 t2 e1 e2
    cases e1 with
    | next d1 n1 x1 =>
      cases e2 with
      | next d2 n2 x2 =>
        obtain ⟨hr, hs⟩ := does_det h ins d1 d2
        obtain ⟨hr', hs'⟩ := ih (hs n1) x1 x2
        exact ⟨by rw [hr, hr'], fun hn => hs' fun hm => hn (List.mem_cons_of_mem _ hm)⟩
      | overflow d2 => exact absurd (does_det h ins d1 d2).1 n1
    | overflow d1 =>
      cases e2 with
      | next d2 n2 x2 => exact absurd (does_det h ins d1 d2).1.symm n2
      | overflow d2 => exact ⟨rfl, fun hn => absurd List.mem_cons_self hn⟩

/-- C80: every program has an execution. -/
theorem c80_can_run (prog : List (Instr T)) : ∀ {s : Store T}, (∀ i, Valid (s i)) →
    ∃ rs t, Exec prog s rs t := by
  induction prog with
  | nil => exact fun _ => ⟨_, _, .done⟩
  | cons ins prog ih =>
    intro s h
    obtain ⟨r, t, d⟩ := does_exists s ins
    by_cases hr : r = .error .overflow
    · subst hr; exact ⟨_, _, .overflow d⟩
    · obtain ⟨rs, u, e⟩ := ih ((does_det (same_refl h) ins d d).2 hr).right
      exact ⟨_, _, .next d hr e⟩

end

/-- two executions of `1.push(7); 0 += 1; len(0); 0.most_common()`, from stores that differ in the entry order -/
def demoProgram : List (Instr Nat) := [.push 1 7, .addAssign 0 1 true, .len 0, .commonCounts 0]

open Demo in
example : Same (fun i => if i = 0 then ca else cb) (fun i => if i = 0 then ⟨⟨[(8, 1), (7, 2)]⟩⟩ else cb) ∧
    ∃ rs t, Exec demoProgram (fun i => if i = 0 then ca else cb) rs t := by
  constructor
  · intro i
    by_cases h : i = 0
    · simp only [h, if_true]
      refine ⟨ca_valid, ?_, by decide⟩
      refine ⟨by unfold HMap.Valid; decide, fun k n hk => ?_⟩
      have : (⟨⟨[(8, 1), (7, 2)]⟩⟩ : Counter Nat).get k = ca.get k :=
        ((HMap.eq_iff (by unfold HMap.Valid; decide) ca_valid.1).mp (by decide)) k
      exact ca_valid.2 k n (this ▸ hk)
    · simp only [h, if_false]
      exact ⟨cb_valid, cb_valid, by decide⟩
  · exact c80_can_run _ fun i => by
      by_cases h : i = 0
      · simp only [h, if_true]; exact ca_valid
      · simp only [h, if_false]; exact cb_valid

end Cnt
