import Verif.Cnt.SpecShards
import Verif.Cnt.PropsWrap
/-!
# C111: counting in shards gives what counting at once gives
-/

open Rust
namespace Cnt
open Counter

section
variable {T : Type} [DecidableEq T] [Cfg]

/-- what is right for a result that was to count `n` -/
def Good (r : Except Fault (Counter T)) (n : T → Nat) : Prop :=
  (Cfg.overflowChecks = false ∨ (∀ k, n k ≤ usizeMax) → ∃ c, r = .ok c ∧ Right c n) ∧
  (Cfg.overflowChecks = true → (∃ k, usizeMax < n k) → r = .error .overflow)

theorem Good.ok {c : Counter T} {n : T → Nat} (h : Good (.ok c) n) : Right c n := by
  by_cases hv : Cfg.overflowChecks = false ∨ (∀ k, n k ≤ usizeMax)
  · obtain ⟨d, hd, hr⟩ := h.1 hv; cases hd; exact hr
  · simp only [not_or, not_forall, Nat.not_le, Bool.not_eq_false] at hv
    cases h.2 hv.1 hv.2

theorem Good.error {e : Fault} {n : T → Nat} (h : Good (.error e : Except Fault (Counter T)) n) :
    Cfg.overflowChecks = true ∧ (∃ k, usizeMax < n k) ∧ e = .overflow := by
  by_cases hv : Cfg.overflowChecks = false ∨ (∀ k, n k ≤ usizeMax)
  · obtain ⟨d, hd, _⟩ := h.1 hv; cases hd
  · simp only [not_or, not_forall, Nat.not_le, Bool.not_eq_false] at hv
    refine ⟨hv.1, hv.2, ?_⟩
    cases h.2 hv.1 hv.2; rfl

theorem good_items (items : List T) : Good (owned (addLoop (ones items) false) new) (fun k => items.count k) := by
  have h0 : ∀ k, mult (Counter.new : Counter T) k = 0 := fun k => rfl
  refine ⟨fun hv => ?_, fun hc hk => ?_⟩
  · obtain ⟨c, h1, h2, h3⟩ := addLoop_ok (ones items) false (valid_new (T := T))
      (fun e he => (ones_le items e he).2) (by simpa only [h0, Nat.zero_add, sumFor_ones] using hv)
    refine ⟨c, owned_of_ok h1, ?_⟩
    have := right_items right_new (by simp [endOf]) h1
    simpa only [Nat.zero_add] using this
  · obtain ⟨c, h1, _⟩ := addLoop_overflow (ones items) false (valid_new (T := T))
      (fun e he => (ones_le items e he).2) hc (by simpa only [h0, Nat.zero_add, sumFor_ones] using hk)
    rw [owned, h1]

theorem good_add {a b : Counter T} {n m : T → Nat} (ha : Right a n) (hb : Right b m) {order : List (T × Nat)}
    (ho : IterOf order b) : Good (owned (addLoop order false) a) (fun k => n k + m k) := by
  by_cases hf : Fits a b
  · obtain ⟨c, h1, _⟩ := addLoop_fits ha.1 hb.1 ho hf
    have hr := right_add ha hb ho h1
    rw [owned_of_ok h1]
    exact ⟨fun _ => ⟨c, rfl, hr⟩, fun hc ⟨k, hk⟩ => absurd (hr.2.2 hc k) (by omega)⟩
  · obtain ⟨c, h1, _⟩ := addLoop_not_fits ha.1 hb.1 ho hf
    have : owned (addLoop order false) a = .error .overflow := by rw [owned, h1]
    rw [this]
    simp only [Fits, not_or, not_forall, Nat.not_le, Bool.not_eq_false] at hf
    obtain ⟨hc, k, hk⟩ := hf
    refine ⟨fun hv => ?_, fun _ _ => rfl⟩
    rcases hv with hv | hv
    · rw [hc] at hv; cases hv
    · have h1 : n k + m k ≤ usizeMax := hv k
      rw [ha.mult, hb.mult, Nat.mod_eq_of_lt (by omega), Nat.mod_eq_of_lt (by omega)] at hk
      omega

theorem Good.left {e : Fault} {n : T → Nat} (h : Good (.error e : Except Fault (Counter T)) n) {m : T → Nat}
    (hm : ∀ k, n k ≤ m k) : Good (.error e : Except Fault (Counter T)) m := by
  obtain ⟨hc, ⟨k, hk⟩, rfl⟩ := h.error
  refine ⟨fun hv => ?_, fun _ _ => rfl⟩
  rcases hv with hv | hv
  · rw [hc] at hv; cases hv
  · have := hv k; have := hm k; omega

theorem runs_good {p : Plan T} {r : Except Fault (Counter T)} (h : Runs p r) :
    Good r (fun k => p.items.count k) := by
  have e : ∀ l r : Plan T, (fun k => (Plan.merge l r).items.count k) =
      fun k => l.items.count k + r.items.count k := by
    intro l r; funext k; rw [Plan.items, List.count_append]
  induction h with
  | part => rw [Counter.fromIter, fromIterLoop_eq]; exact good_items _
  | partRef => rw [Counter.fromIterRef, fromIterRefLoop_eq]; exact good_items _
  | left _ ih => rw [e]; exact ih.left (fun k => Nat.le_add_right _ _)
  | right _ ih => rw [e]; exact ih.left (fun k => Nat.le_add_left _ _)
  | add _ _ ho i1 i2 => rw [e, add_def]; exact good_add i1.ok i2.ok ho
  | addRef _ _ ho i1 i2 => rw [e, addRef_def]; exact good_add i1.ok i2.ok ho
  | addAssign _ _ ho h i1 i2 =>
    rw [addAssign_eq] at h; have := good_add i1.ok i2.ok ho; rw [owned, h] at this; rw [e]; exact this
  | addAssignPanic _ _ ho h i1 i2 =>
    rw [addAssign_eq] at h; have := good_add i1.ok i2.ok ho; rw [owned, h] at this; rw [e]; exact this
  | addAssignRef _ _ ho h i1 i2 =>
    rw [addAssignRef_eq] at h; have := good_add i1.ok i2.ok ho; rw [owned, h] at this; rw [e]; exact this
  | addAssignRefPanic _ _ ho h i1 i2 =>
    rw [addAssignRef_eq] at h; have := good_add i1.ok i2.ok ho; rw [owned, h] at this; rw [e]; exact this

/-- C111: every plan can be carried out. -/
theorem c111_total (p : Plan T) : ∃ r, Runs p r := by
  induction p with
  | part items => exact ⟨_, .part⟩
  | merge l r hl hr =>
    obtain ⟨rl, hl⟩ := hl
    obtain ⟨rr, hr⟩ := hr
    cases rl with
    | error e => exact ⟨_, .left hl⟩
    | ok a =>
      cases rr with
      | error e => exact ⟨_, .right hr⟩
      | ok b => exact ⟨_, .add hl hr (List.Perm.refl _ : IterOf b.counter.entries b)⟩

/-- C111: every way of carrying out a plan gives the true counts if they all fit (without overflow checks: the
true counts modulo the number of values of `usize`, for exactly the items of the plan), and panics on overflow if
checks are on and some count does not fit. Nothing depends on where the work was cut. -/
theorem c111_counts {p : Plan T} {r : Except Fault (Counter T)} (h : Runs p r) :
    ((∀ k, p.items.count k < 2 ^ Cfg.bits) → ∃ c, r = .ok c ∧
      ∀ k, c.get k = if k ∈ p.items then some (p.items.count k) else none) ∧
    (Cfg.overflowChecks = false → ∃ c, r = .ok c ∧
      ∀ k, c.get k = if k ∈ p.items then some (p.items.count k % 2 ^ Cfg.bits) else none) ∧
    (Cfg.overflowChecks = true → (∃ k, 2 ^ Cfg.bits ≤ p.items.count k) → r = .error .overflow) := by
  have e : usizeMax + 1 = 2 ^ Cfg.bits := by
    have : 0 < 2 ^ Cfg.bits := Nat.pow_pos (by decide)
    unfold usizeMax; omega
  obtain ⟨h1, h2⟩ := runs_good h
  refine ⟨fun hv => ?_, fun hc => ?_, fun hc ⟨k, hk⟩ => h2 hc ⟨k, by show usizeMax < p.items.count k; omega⟩⟩
  · obtain ⟨c, rfl, _, hg, _⟩ := h1 (.inr fun k => by have := hv k; show p.items.count k ≤ usizeMax; omega)
    refine ⟨c, rfl, fun k => ?_⟩
    simp only [hg, List.count_pos_iff, e, Nat.mod_eq_of_lt (hv k)]
  · obtain ⟨c, rfl, _, hg, _⟩ := h1 (.inl hc)
    refine ⟨c, rfl, fun k => ?_⟩
    simp only [hg, List.count_pos_iff, e]

/-- C111: two plans over the same items in any order, cut and carried out in whatever way, end alike: with equal
counters, or both with the panic. In particular this is how counting all the items at once ends. -/
theorem c111_same_as_any_plan {p q : Plan T} (hp : p.items.Perm q.items) {r s : Except Fault (Counter T)}
    (hr : Runs p r) (hs : Runs q s) :
    (∃ c d, r = .ok c ∧ s = .ok d ∧ c.eq d = true) ∨ r = .error .overflow ∧ s = .error .overflow := by
  have gr := runs_good hr
  have gs := runs_good hs
  have e : (fun k => q.items.count k) = fun k => p.items.count k := by
    funext k; exact (hp.count_eq k).symm
  rw [e] at gs
  by_cases hv : Cfg.overflowChecks = false ∨ (∀ k, p.items.count k ≤ usizeMax)
  · obtain ⟨c, rfl, vc, hc, _⟩ := gr.1 hv
    obtain ⟨d, rfl, vd, hd, _⟩ := gs.1 hv
    exact .inl ⟨c, d, rfl, rfl, (eq_iff vc vd).mpr fun k => by rw [hc, hd]⟩
  · simp only [not_or, not_forall, Nat.not_le, Bool.not_eq_false] at hv
    exact .inr ⟨gr.2 hv.1 hv.2, gs.2 hv.1 hv.2⟩

/-- C111: so sharding does not change what `collect` on everything gives. -/
theorem c111_same_as_collect {p : Plan T} {r : Except Fault (Counter T)} (hr : Runs p r) :
    (∃ c d, r = .ok c ∧ fromIter p.items = .ok d ∧ c.eq d = true) ∨
    r = .error .overflow ∧ fromIter p.items = .error .overflow :=
  c111_same_as_any_plan (p := p) (q := .part p.items) (List.Perm.refl p.items) hr .part

end

open Demo in
/-- three shards, merged two ways over reordered items -/
example : ∃ r s, Runs (.merge (.part [1, 2]) (.merge (.part [2]) (.part [3, 2]))) r ∧
    Runs (.merge (.merge (.part [2, 2]) (.part [])) (.part [2, 3, 1])) s ∧
    ∃ c d : Counter Nat, r = .ok c ∧ s = .ok d ∧ c.eq d = true ∧ c.get 2 = some 3 ∧ c.get 4 = none := by
  obtain ⟨r, hr⟩ := c111_total (T := Nat) (.merge (.part [1, 2]) (.merge (.part [2]) (.part [3, 2])))
  obtain ⟨s, hs⟩ := c111_total (T := Nat) (.merge (.merge (.part [2, 2]) (.part [])) (.part [2, 3, 1]))
  refine ⟨r, s, hr, hs, ?_⟩
  obtain ⟨c, rfl, hc⟩ := (c111_counts hr).1 (fun k => Nat.lt_of_le_of_lt List.count_le_length (by decide))
  rcases c111_same_as_any_plan (by decide) hr hs with ⟨c', d, h1, rfl, h2⟩ | ⟨h1, _⟩
  · cases h1
    exact ⟨c, d, rfl, rfl, h2, hc 2, hc 4⟩
  · cases h1

end Cnt
