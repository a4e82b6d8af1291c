import Verif.Cnt.Props
/-!
# C88: in every build counts are right modulo the size of `usize`

`Tally c n` says how a counter was made by counting and adding, and carries along the true counts `n` as unbounded
numbers.
-/

open Rust
namespace Cnt
open Counter

/-- `c` is made by counting items and adding counters; `n` are the true counts. An interrupted user iterator is
included, a call that panicked on overflow is not. -/
inductive Tally {T : Type} [DecidableEq T] [Cfg] : Counter T → (T → Nat) → Prop
  | new : Tally Counter.new (fun _ => 0)
  | fromIter {items c} : Counter.fromIter items = .ok c → Tally c (fun k => items.count k)
  | fromIterRef {items c} : Counter.fromIterRef items = .ok c → Tally c (fun k => items.count k)
  | feed {c n r c'} (f : Feed T) : Tally c n → f.run c = (r, c') → r ≠ .error .overflow →
      Tally c' (fun k => n k + f.items.count k)
  | add {a b n m order c} : Tally a n → Tally b m → IterOf order b → Counter.add order a = .ok c →
      Tally c (fun k => n k + m k)
  | addRef {a b n m order c} : Tally a n → Tally b m → IterOf order b → Counter.addRef order a = .ok c →
      Tally c (fun k => n k + m k)
  | addAssign {a b n m order c} : Tally a n → Tally b m → IterOf order b →
      Counter.addAssign order false a = (.ok (), c) → Tally c (fun k => n k + m k)
  | addAssignRef {a b n m order c} : Tally a n → Tally b m → IterOf order b →
      Counter.addAssignRef order false a = (.ok (), c) → Tally c (fun k => n k + m k)

section
variable {T : Type} [DecidableEq T] [Cfg]

/-- what `Tally` gives -/
def Right (c : Counter T) (n : T → Nat) : Prop :=
  Valid c ∧ (∀ k, c.get k = if 0 < n k then some (n k % (usizeMax + 1)) else none) ∧
    (Cfg.overflowChecks = true → ∀ k, n k ≤ usizeMax)

theorem Right.mult {c : Counter T} {n : T → Nat} (h : Right c n) (k : T) : mult c k = n k % (usizeMax + 1) := by
  rw [Cnt.mult, h.2.1]
  split
  · rfl
  · rw [show n k = 0 by omega]; rfl

theorem right_new : Right (Counter.new : Counter T) (fun _ => 0) :=
  ⟨valid_new, fun _ => rfl, fun _ _ => Nat.zero_le _⟩

/-- every call that counts is the loop of additions -/
theorem feed_loop (f : Feed T) (c : Counter T) : ∃ p, f.run c = addLoop (ones f.items) p c := by
  cases f with
  | push x => exact ⟨false, (push_as_loop x c).symm⟩
  | extend xs p => exact ⟨p, by rw [← extend_eq]; rfl⟩
  | extendRef xs p => exact ⟨p, by rw [← extendRef_eq]; rfl⟩

theorem right_loop {c c' : Counter T} {n : T → Nat} (h : Right c n) {ps : List (T × Nat)} {p : Bool}
    (hps : ∀ e ∈ ps, e.2 ≤ usizeMax) {m : T → Nat}
    (hm : ∀ k, sumFor k ps = m k % (usizeMax + 1)) (hm' : Cfg.overflowChecks = true → ∀ k, m k ≤ usizeMax)
    (hk : ∀ k, 0 < m k ↔ k ∈ ps.map (·.1)) {r : Except Fault Unit} (hr : r ≠ .error .overflow)
    (he : addLoop ps p c = (r, c')) : Right c' (fun k => n k + m k) := by
  by_cases hv : Cfg.overflowChecks = false ∨ ∀ k, Cnt.mult c k + sumFor k ps ≤ usizeMax
  · obtain ⟨d, h1, h2, h3⟩ := addLoop_ok ps p h.1 hps hv
    rw [h1] at he; cases he
    refine ⟨h2, fun k => ?_, fun hc k => ?_⟩
    · show c'.get k = if 0 < n k + m k then some ((n k + m k) % (usizeMax + 1)) else none
      rw [h3]
      by_cases hmem : k ∈ ps.map (·.1)
      · have := (hk k).mpr hmem
        rw [if_pos hmem, if_pos (by omega), h.mult, hm, ← Nat.add_mod]
      · have h0 : m k = 0 := by
          by_contra hn
          exact hmem ((hk k).mp (by omega))
        simp only [if_neg hmem, h.2.1, h0, Nat.add_zero]
    · rcases hv with hv | hv
      · rw [hc] at hv; cases hv
      · have h1 := hv k
        rw [h.mult, hm, Nat.mod_eq_of_lt (by have := h.2.2 hc k; omega),
          Nat.mod_eq_of_lt (by have := hm' hc k; omega)] at h1
        exact h1
  · simp only [not_or, not_forall, Nat.not_le, Bool.not_eq_false] at hv
    obtain ⟨d, h1, _⟩ := addLoop_overflow ps p h.1 hps hv.1 hv.2
    rw [h1] at he
    cases he
    exact absurd rfl hr

theorem right_items {c c' : Counter T} {n : T → Nat} (h : Right c n) {items : List T} {p : Bool}
    {r : Except Fault Unit} (hr : r ≠ .error .overflow) (he : addLoop (ones items) p c = (r, c')) :
    Right c' (fun k => n k + items.count k) := by
  by_cases hc : Cfg.overflowChecks = true
  · -- with checks every count fits, or the loop would have panicked
    by_cases hv : ∀ k, Cnt.mult c k + sumFor k (ones items) ≤ usizeMax
    · have hi : ∀ k, items.count k ≤ usizeMax := fun k => by have := hv k; rw [sumFor_ones] at this; omega
      refine right_loop h (fun e he => (ones_le items e he).2) (fun k => ?_) (fun _ => hi)
        (fun k => ?_) hr he
      · rw [sumFor_ones, Nat.mod_eq_of_lt (by have := hi k; omega)]
      · rw [keys_ones, List.count_pos_iff]
    · simp only [not_forall, Nat.not_le] at hv
      obtain ⟨d, h1, _⟩ := addLoop_overflow (ones items) p h.1 (fun e he => (ones_le items e he).2) hc hv
      rw [h1] at he; cases he
      exact absurd rfl hr
  · have hc' : Cfg.overflowChecks = false := by simpa using hc
    obtain ⟨d, h1, h2, h3⟩ := addLoop_ok (ones items) p h.1 (fun e he => (ones_le items e he).2) (.inl hc')
    rw [h1] at he; cases he
    refine ⟨h2, fun k => ?_, fun hc'' => absurd hc'' hc⟩
    show c'.get k = if 0 < n k + items.count k then some ((n k + items.count k) % (usizeMax + 1)) else none
    rw [h3, keys_ones, sumFor_ones, h.mult]
    by_cases hmem : k ∈ items
    · have := List.count_pos_iff.mpr hmem
      rw [if_pos hmem, if_pos (by omega), Nat.mod_add_mod]
    · simp only [if_neg hmem, h.2.1, List.count_eq_zero.mpr hmem, Nat.add_zero]

theorem right_add {a b c : Counter T} {n m : T → Nat} (ha : Right a n) (hb : Right b m) {order : List (T × Nat)}
    (ho : IterOf order b) (he : addLoop order false a = (.ok (), c)) : Right c (fun k => n k + m k) := by
  have hk : ∀ k, 0 < m k ↔ k ∈ order.map (·.1) := by
    intro k
    rw [iterOf_keys ho, hb.2.1]
    split <;> simp_all
  refine right_loop ha (iterOf_le hb.1 ho) (fun k => ?_) hb.2.2 hk (by simp) he
  rw [iterOf_sumFor hb.1 ho, hb.mult]

theorem tally_right {c : Counter T} {n : T → Nat} (h : Tally c n) : Right c n := by
  have owned' : ∀ {m : M (Counter T) Unit} {a c : Counter T}, owned m a = .ok c → m a = (.ok (), c) := by
    intro m a c h
    obtain ⟨_, h⟩ := owned_ok.mp h
    exact h
  have items : ∀ {items : List T} {c : Counter T}, addLoop (ones items) false Counter.new = (.ok (), c) →
      Right c (fun k => items.count k) := by
    intro items c h
    have := right_items right_new (by simp) h
    simpa only [Nat.zero_add] using this
  induction h with
  | new => exact right_new
  | fromIter h => rw [Counter.fromIter, fromIterLoop_eq] at h; exact items (owned' h)
  | fromIterRef h => rw [Counter.fromIterRef, fromIterRefLoop_eq] at h; exact items (owned' h)
  | feed f _ he hr ih =>
    obtain ⟨p, hp⟩ := feed_loop f _
    rw [hp] at he
    exact right_items ih hr he
  | add _ _ ho h ih1 ih2 => rw [add_def] at h; exact right_add ih1 ih2 ho (owned' h)
  | addRef _ _ ho h ih1 ih2 => rw [addRef_def] at h; exact right_add ih1 ih2 ho (owned' h)
  | addAssign _ _ ho h ih1 ih2 => rw [addAssign_eq] at h; exact right_add ih1 ih2 ho h
  | addAssignRef _ _ ho h ih1 ih2 => rw [addAssignRef_eq] at h; exact right_add ih1 ih2 ho h

/-- C88: whatever is made by counting and adding, in whatever build, holds every key that was counted, with its
true count modulo the number of values of `usize`, and no other key; with overflow checks this is the true
count. -/
theorem c88_modulo {c : Counter T} {n : T → Nat} (h : Tally c n) (k : T) :
    c.get k = (if 0 < n k then some (n k % 2 ^ Cfg.bits) else none) ∧
    (Cfg.overflowChecks = true → n k < 2 ^ Cfg.bits) := by
  have e : usizeMax + 1 = 2 ^ Cfg.bits := by
    have : 0 < 2 ^ Cfg.bits := Nat.pow_pos (by decide)
    unfold usizeMax; omega
  obtain ⟨_, h1, h2⟩ := tally_right h
  exact ⟨by rw [h1, e], fun hc => by have := h2 hc k; omega⟩

/-- C88: a stored zero means that the true count is a positive multiple of the number of values of `usize`; so
it takes at least that many items. -/
theorem c88_stored_zero {c : Counter T} {n : T → Nat} (h : Tally c n) (k : T) :
    (c.get k = some 0 ↔ 0 < n k ∧ 2 ^ Cfg.bits ∣ n k) ∧
    (c.get k = some 0 → 2 ^ Cfg.bits ≤ n k ∧ Cfg.overflowChecks = false) := by
  obtain ⟨h1, h2⟩ := c88_modulo h k
  have key : c.get k = some 0 ↔ 0 < n k ∧ 2 ^ Cfg.bits ∣ n k := by
    rw [h1, Nat.dvd_iff_mod_eq_zero]
    split
    · rename_i hp; simp [hp]
    · rename_i hp; simp [hp]
  refine ⟨key, fun hz => ?_⟩
  obtain ⟨hp, hd⟩ := key.mp hz
  have hle := Nat.le_of_dvd hp hd
  refine ⟨hle, ?_⟩
  cases hc : Cfg.overflowChecks with
  | false => rfl
  | true => have := h2 hc; omega

/-- C88: without overflow checks nothing panics but the user's iterator, so every sequence of such calls makes a
counter. -/
theorem c88_never_panics (hc : Cfg.overflowChecks = false) {a b : Counter T} {n m : T → Nat} (ha : Tally a n)
    (hb : Tally b m) (f : Feed T) (items : List T) {order : List (T × Nat)} (ho : IterOf order b) :
    (f.run a).1 = f.expected ∧ (∃ c, fromIter items = .ok c ∧ fromIterRef items = .ok c) ∧
    ∃ c, add order a = .ok c ∧ addRef order a = .ok c ∧ addAssign order false a = (.ok (), c) ∧
      addAssignRef order false a = (.ok (), c) := by
  have va := (tally_right ha).1
  have vb := (tally_right hb).1
  refine ⟨?_, ?_, ?_⟩
  · have key : ∀ (items : List T) (p : Bool), (addLoop (ones items) p a).1 = endOf p := by
      intro items p
      obtain ⟨c, h1, _⟩ := addLoop_ok (ones items) p va (fun e he => (ones_le items e he).2) (.inl hc)
      rw [h1]
    cases f with
    | push x => rw [Feed.run, ← push_as_loop]; exact key [x] false
    | extend xs p => rw [Feed.run, extend_eq]; exact key xs p
    | extendRef xs p => rw [Feed.run, extendRef_eq]; exact key xs p
  · obtain ⟨c, h1, _⟩ := addLoop_ok (ones items) false (valid_new (T := T)) (fun e he => (ones_le items e he).2) (.inl hc)
    exact ⟨c, by rw [Counter.fromIter, fromIterLoop_eq, owned_of_ok h1],
      by rw [Counter.fromIterRef, fromIterRefLoop_eq, owned_of_ok h1]⟩
  · obtain ⟨c, h1, _⟩ := addLoop_fits va vb ho (.inl hc)
    exact ⟨c, by rw [add_def, owned_of_ok h1], by rw [addRef_def, owned_of_ok h1], by rw [addAssign_eq, h1],
      by rw [addAssignRef_eq, h1]⟩

end

namespace Demo
/-- doubling `x` sixteen times in a 16-bit build -/
theorem wrap_tally : ∀ i, ∃ c : Counter Nat, @Tally Nat _ wrapCfg c (fun k => if k = 7 then 2 ^ i else 0) := by
  let _ := wrapCfg
  intro i
  induction i with
  | zero =>
    obtain ⟨c, h1, _⟩ := feed_run (T := Nat) (.push 7) valid_new (fun k => by
      show 0 + [7].count k ≤ _
      have : [7].count k ≤ 1 := List.count_le_length
      have : 1 ≤ usizeMax := by decide
      omega)
    refine ⟨c, ?_⟩
    have := Tally.feed (.push 7) .new h1 (by simp [Feed.expected])
    convert this using 2 with k
    by_cases hk : k = 7 <;> simp [Feed.items, hk, eq_comm]
  | succ i ih =>
    obtain ⟨c, h⟩ := ih
    obtain ⟨d, hd, _⟩ := (c88_never_panics rfl h h (.push 7) [] (List.Perm.refl _ : IterOf c.counter.entries c)).2.2
    refine ⟨d, ?_⟩
    have := Tally.add h h (List.Perm.refl _) hd
    convert this using 2 with k
    by_cases hk : k = 7 <;> simp [hk, Nat.pow_succ]; omega
end Demo

open Demo in
/-- a counter that was handed 65536 sevens holds a seven with count zero -/
example : ∃ c : Counter Nat, @Tally Nat _ wrapCfg c (fun k => if k = 7 then 2 ^ 16 else 0) ∧
    c.get 7 = some 0 ∧ c.get 8 = none := by
  obtain ⟨c, h⟩ := wrap_tally 16
  exact ⟨c, h, (@c88_modulo Nat _ wrapCfg _ _ h 7).1, (@c88_modulo Nat _ wrapCfg _ _ h 8).1⟩

end Cnt
