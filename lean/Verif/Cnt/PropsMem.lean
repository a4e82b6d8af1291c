import Verif.Cnt.LemmasMem
/-!
# The capacity and the memory of counters (C99)

`with_capacity` documents that a counter can hold that many elements without reallocating and that nothing is allocated
for capacity 0; `mod.rs` documents memory O(k), k being the number of different items. The first two hold. The third does
not: `from_iter` and `extend` ask for room for as many items as the iterator announces, so the memory also grows with the
number of equal items.
-/

open Rust Mem
namespace Cnt.Mem

section
variable {T : Type} [DecidableEq T] [Cfg]

/-- C99: memory and size hints have no influence on what is counted. A call does what it does in `Cnt/Model.lean`, unless
it is refused memory: then it panics with "capacity overflow" and has counted, added or subtracted a first part of its
items, each of them entirely. -/
theorem c99_contents (std : Std) (call : Call T) (c : Counter T) (r : Room) :
    (∃ r', call.run std (c, r) = ((call.plain c).1, (call.plain c).2, r')) ∨
    (∃ n r' c', call.run std (c, r) = (.error .capacityOverflow, c', r') ∧ (call.first n).plain c = (.ok (), c') ∧
      ∃ moment slots need, std.grow moment slots need = none) :=
  call_does call c r

end

open Demo in
example : ((Call.extend 5 [4, 6, 4] true).run (doubling 100) (ca, ⟨2, 2, 1, 1, 0⟩) =
      (.error .user, ⟨⟨[(6, 1), (4, 2), (7, 2), (8, 1)]⟩⟩, ⟨14, 14, 2, 2, 2⟩)) ∧
    ((Call.extend 5 [4, 6, 4] true).plain ca = (.error .user, ⟨⟨[(6, 1), (4, 2), (7, 2), (8, 1)]⟩⟩)) ∧
    ((Call.addAssign [(4, 3), (7, 1), (6, 2)] false).run (doubling 6) (ca, ⟨2, 2, 1, 1, 0⟩) =
      (.ok (), ⟨⟨[(6, 2), (4, 3), (7, 3), (8, 1)]⟩⟩, ⟨6, 6, 2, 2, 2⟩)) ∧
    ((Call.addAssign [(4, 3), (7, 1), (6, 2), (5, 1)] false).run (doubling 6) (ca, ⟨3, 3, 1, 1, 0⟩) =
      (.error .capacityOverflow, ⟨⟨[(4, 3), (7, 3), (8, 1)]⟩⟩, ⟨3, 3, 1, 2, 0⟩)) ∧
    (((Call.addAssign [(4, 3), (7, 1), (6, 2), (5, 1)] false).first 2).plain ca =
      (.ok (), ⟨⟨[(4, 3), (7, 3), (8, 1)]⟩⟩)) := by
  decide +kernel

section
variable {T : Type} [DecidableEq T] [Cfg]

/-- C99: an announcement the memory is refused for panics before the iterator is asked for an item, and nothing is
counted. -/
theorem c99_refused_hint (std : Std) (hint : Nat) (items : List T) (p : Bool) :
    (∀ (c : Counter T) (r : Room), r.cap < c.len + hint → std.grow r.moment r.slots (c.len + hint) = none →
      ∃ r', extend std hint items p (c, r) = (.error .capacityOverflow, c, r')) ∧
    (0 < hint → std.grow 0 0 hint = none → fromIter std hint items p = .error .capacityOverflow) := by
  refine ⟨fun c r hc hr => ⟨{ r with moment := r.moment + 1 }, ?_⟩, fun h0 hr => ?_⟩
  · rw [extend, M.bind_run]
    simp only [reserve, Room.reserve_refused (Nat.not_le.mpr hc) hr]
  · rw [fromIter, withCapacity, Room.reserve_refused (by simp; omega) (by simpa using hr)]
    rfl

end

open Demo in
example : extend (doubling 100) usizeMax [7] false (ca, ⟨2, 2, 1, 1, 0⟩) =
      (.error .capacityOverflow, ca, ⟨2, 2, 1, 2, 0⟩) ∧
    fromIter (T := Nat) (doubling 100) usizeMax [7] false = .error .capacityOverflow ∧
    (doubling 100).grow 1 2 (ca.len + usizeMax) = none ∧ (doubling 100).grow 0 0 usizeMax = none := by
  refine ⟨by decide +kernel, ?_, by decide +kernel, by decide +kernel⟩
  exact (c99_refused_hint (doubling 100) usizeMax [7] false).2 (by decide +kernel) (by decide +kernel)

section
variable {T : Type} [DecidableEq T] [Cfg]

/-- C99: when a call that counts or adds leaves the memory alone: exactly if the capacity suffices for the announced items
(equal or not) and for the different items there are in the end. -/
theorem c99_no_growth (std : Std) (call : Call T) (ha : call.adds) (c : Counter T) (r : Room) (hf : c.len ≤ r.cap) :
    call.run std (c, r) = ((call.plain c).1, (call.plain c).2, r) ↔
      c.len + call.hint ≤ r.cap ∧ (call.plain c).2.len ≤ r.cap := by
  cases call with
  | push x =>
    have h := addAssign_quiet_iff (std := std) (ones [x]) false c r hf
    rw [push_as_loop] at h
    have h2 : addAssign std (ones [x]) false (c, r) = push std x (c, r) := by
      show (do entryAdd std x 1; pure () : M (State T) Unit) (c, r) = entryAdd std x 1 (c, r)
      rw [M.bind_run]
      generalize entryAdd std x 1 (c, r) = q
      obtain ⟨res, s⟩ := q
      cases res <;> rfl
    rw [h2] at h
    exact h.trans ⟨fun h => ⟨hf, h⟩, And.right⟩
  | extend hint xs p =>
    show extend std hint xs p (c, r) = ((Counter.extend xs p c).1, (Counter.extend xs p c).2, r) ↔
      c.len + hint ≤ r.cap ∧ (Counter.extend xs p c).2.len ≤ r.cap
    rw [extend, M.bind_run, pushAll_eq, extend_eq]
    simp only [reserve]
    rcases Room.reserve_cases std c.len hint r with ⟨h1, h2⟩ | ⟨h1, n, h2, h3⟩ | ⟨h1, h2, h3⟩
    · rw [h2]
      exact (addAssign_quiet_iff (ones xs) p c r hf).trans ⟨fun h => ⟨h1, h⟩, And.right⟩
    · rw [h3]
      refine ⟨fun h => ?_, fun h => absurd h.1 h1⟩
      have hl := (addAssign_later (std := std) (ones xs) p (c, r.grown c.len n)).moment
      change addAssign std (ones xs) p (c, r.grown c.len n) = _ at h
      rw [h] at hl
      exact absurd hl (Nat.not_le.mpr (Nat.lt_succ_self r.moment))
    · rw [h3]
      refine ⟨fun h => ?_, fun h => absurd h.1 h1⟩
      have := congrArg (fun q => q.2.2.moment) h
      exact absurd this (Nat.succ_ne_self r.moment)
  | addAssign o p =>
    show addAssign std o p (c, r) = ((Counter.addAssign o p c).1, (Counter.addAssign o p c).2, r) ↔
      c.len + 0 ≤ r.cap ∧ (Counter.addAssign o p c).2.len ≤ r.cap
    rw [addAssign_eq]
    exact (addAssign_quiet_iff o p c r hf).trans ⟨fun h => ⟨hf, h⟩, And.right⟩
  | subAssign o p => cases ha

end

open Demo in
example : (Call.extend 2 [7, 7] false).adds ∧ ca.len ≤ (⟨3, 3, 1, 1, 0⟩ : Room).cap ∧
    (Call.extend 2 [7, 7] false).run exact (ca, ⟨3, 3, 1, 1, 0⟩) = (.ok (), ⟨⟨[(7, 4), (8, 1)]⟩⟩, ⟨4, 4, 2, 2, 2⟩) ∧
    (Call.extend 1 [7, 5, 7] false).run exact (ca, ⟨3, 3, 1, 1, 0⟩) =
      (.ok (), ⟨⟨[(5, 1), (7, 4), (8, 1)]⟩⟩, ⟨3, 3, 1, 1, 0⟩) := by
  decide +kernel

section
variable {T : Type} [DecidableEq T] [Cfg]

/-- C99: the documented promise of `with_capacity`. A counter made for `n` elements takes memory once, and none for
`n = 0`. Counting and adding then never asks for memory again, and in particular is not refused any, as long as there are
no more than `n` different items in it and the iterators do not announce more than there is room for. -/
theorem c99_with_capacity (std : Std) (n : Nat) (s : State T) (hs : withCapacity std n = .ok s) :
    s.1 = Counter.new ∧ n ≤ s.2.cap ∧ s.2.allocs = (if n = 0 then 0 else 1) ∧ (n = 0 → s.2.slots = 0) ∧
    ∀ calls : List (Call T), (∀ f ∈ calls, f.adds) → Within n calls Counter.new →
      runAll std calls s = ((plainAll calls Counter.new).1, (plainAll calls Counter.new).2, s.2) := by
  have key : ∀ (calls : List (Call T)) (c : Counter T) (r : Room), n ≤ r.cap → c.len ≤ r.cap →
      (∀ f ∈ calls, f.adds) → Within n calls c →
      runAll std calls (c, r) = ((plainAll calls c).1, (plainAll calls c).2, r) := by
    intro calls
    induction calls with
    | nil => intro c r _ _ _ _; rfl
    | cons f fs ih =>
      intro c r hn hf ha hw
      obtain ⟨w1, w2, w3⟩ := hw
      have h1 := (c99_no_growth std f (ha f List.mem_cons_self) c r hf).mpr ⟨by omega, by omega⟩
      have h2 := ih (f.plain c).2 r hn (by omega) (fun g hg => ha g (List.mem_cons_of_mem _ hg)) w3
      simp only [runAll, plainAll, h1, h2]
  rw [withCapacity] at hs
  rcases Room.reserve_cases std 0 n {} with ⟨h1, h2⟩ | ⟨h1, m, h2, h3⟩ | ⟨h1, h2, h3⟩
  · rw [h2] at hs
    cases hs
    have hn : n = 0 := by simpa using h1
    subst hn
    exact ⟨rfl, Nat.le_refl _, rfl, fun _ => rfl, fun calls => key calls _ _ (Nat.le_refl _) (Nat.le_refl _)⟩
  · rw [h3] at hs
    cases hs
    have hm : n ≤ m := by simpa using std.enough h2
    have hn : n ≠ 0 := by rintro rfl; exact h1 (Nat.le_refl _)
    refine ⟨rfl, hm, ?_, fun h => absurd h hn, fun calls => key calls _ _ hm (Nat.zero_le _)⟩
    rw [if_neg hn]
    show (if m = 0 then 0 else 0 + 1) = 1
    rw [if_neg (by omega)]
  · rw [h3] at hs
    cases hs

end

example : withCapacity (T := Nat) (doubling 100) 3 = .ok (Counter.new, ⟨6, 6, 1, 1, 0⟩) := rfl
open Demo in
example : (∀ f ∈ [Call.push 7, .extend 1 [7, 8, 7] true, .addAssign [(8, 4), (9, 1)] false], f.adds) ∧
    Within 3 [Call.push 7, .extend 1 [7, 8, 7] true, .addAssign [(8, 4), (9, 1)] false] Counter.new ∧
    (runAll (doubling 100) [Call.push 7, .extend 1 [7, 8, 7] true, .addAssign [(8, 4), (9, 1)] false]
      (Counter.new, ⟨6, 6, 1, 1, 0⟩)).2 = (⟨⟨[(9, 1), (8, 5), (7, 3)]⟩⟩, ⟨6, 6, 1, 1, 0⟩) := by
  refine ⟨by decide, ?_, by decide +kernel⟩
  refine ⟨by decide +kernel, by decide +kernel, by decide +kernel, by decide +kernel, by decide +kernel,
    by decide +kernel, trivial⟩

section
variable {T : Type} [DecidableEq T] [Cfg]

/-- C99: `+` keeps the memory of its left operand, and takes more only if the different items of the sum do not fit in
it, then for as many as there are. It panics only if the addition does or if it is refused memory. -/
theorem c99_plus (std : Std) (order : List (T × Nat)) (s : State T) :
    (∀ t, add std order s = .ok t → Counter.add order s.1 = .ok t.1 ∧ s.2.slots ≤ t.2.slots ∧
      (t.1.len ≤ s.2.cap → t.2 = s.2) ∧
      ∀ {a b : Nat}, std.Modest a b → t.2.slots ≤ max s.2.slots (a * t.1.len + b)) ∧
    (∀ e, add std order s = .error e → Counter.add order s.1 = .error e ∨
      e = .capacityOverflow ∧ ∃ moment slots need, std.grow moment slots need = none) := by
  obtain ⟨c, r⟩ := s
  rw [add, owned, Counter.add, Counter.owned, Cnt.addAssign_eq]
  have hl := addAssign_later (std := std) order false (c, r)
  have hsl := fun {a b : Nat} (hm : std.Modest a b) => addAssign_slots hm order false (c, r)
  have hq := addAssign_quiet (std := std) order false c r
  rcases addAssign_does (std := std) order false c r with ⟨r', h⟩ | ⟨n, r', c', h, _, h3⟩
  · rw [h] at hl hsl hq ⊢
    generalize addLoop order false c = q at hl hsl hq ⊢
    obtain ⟨res, c1⟩ := q
    cases res with
    | error e => exact ⟨fun t ht => (by cases ht), fun e' he => (by cases he; exact .inl rfl)⟩
    | ok u =>
      refine ⟨fun t ht => ?_, fun e he => (by cases he)⟩
      cases ht
      refine ⟨rfl, hl.slots, fun hc => ?_, fun hm => (hsl hm).1⟩
      exact congrArg (fun q => q.2.2) (hq hc)
  · rw [h]
    exact ⟨fun t ht => (by cases ht), fun e he => (by cases he; exact .inr ⟨rfl, h3⟩)⟩

/-- C99: `-` keeps the memory of its left operand. Where looking for a missing key does not make room for it, it takes
none and is refused none; otherwise it may take room for one more item than there were. -/
theorem c99_minus (std : Std) (order : List (T × Nat)) (s : State T) :
    (∀ t, sub std order s = .ok t → Counter.sub order s.1 = .ok t.1 ∧ s.2.slots ≤ t.2.slots ∧
      (std.eager = false → t.2.slots = s.2.slots ∧ t.2.allocs = s.2.allocs) ∧
      ∀ {a b : Nat}, std.Modest a b → t.2.slots ≤ max s.2.slots (a * (s.1.len + 1) + b)) ∧
    (∀ e, sub std order s = .error e →
      std.eager = true ∧ e = .capacityOverflow ∧ ∃ moment slots need, std.grow moment slots need = none) := by
  obtain ⟨c, r⟩ := s
  rw [sub, owned, Counter.sub, Counter.owned]
  have hl := subAssign_later (std := std) order false (c, r)
  have hsl := fun {a b : Nat} (hm : std.Modest a b) => subAssign_slots hm order false (c, r)
  have hz := fun he => subAssign_lazy (std := std) he order false (c, r)
  rcases subAssign_does (std := std) order false c r with ⟨r', h⟩ | ⟨n, r', c', h, _, h3⟩
  · rw [h] at hl hsl hz ⊢
    have hok := subAssign_ok order c
    generalize Counter.subAssign order false c = q at hl hsl hz hok ⊢
    obtain ⟨res, c1⟩ := q
    simp only at hok
    subst hok
    refine ⟨fun t ht => ?_, fun e he => (by cases he)⟩
    cases ht
    exact ⟨rfl, hl.slots, fun he => (hz he).2, fun hm => (hsl hm).1⟩
  · rw [h] at hz ⊢
    refine ⟨fun t ht => (by cases ht), fun e he => ?_⟩
    cases he
    refine ⟨?_, rfl, h3⟩
    cases hE : std.eager with
    | true => rfl
    | false => exact absurd rfl (hz hE).1

end

open Demo in
example :
    (add (doubling 100) [(8, 2), (9, 1)] (ca, ⟨3, 3, 1, 1, 0⟩)).toOption =
      some (⟨⟨[(9, 1), (7, 2), (8, 3)]⟩⟩, ⟨3, 3, 1, 1, 0⟩) ∧
    (add (doubling 100) [(8, 2), (9, 1)] (ca, ⟨2, 2, 1, 1, 0⟩)).toOption =
      some (⟨⟨[(9, 1), (7, 2), (8, 3)]⟩⟩, ⟨6, 6, 2, 2, 2⟩) ∧
    (add (doubling 5) [(8, 2), (9, 1)] (ca, ⟨2, 2, 1, 1, 0⟩)).toOption = none ∧
    (sub exact [(8, 2), (9, 1)] (ca, ⟨2, 2, 1, 1, 0⟩)).toOption = some (⟨⟨[(7, 2)]⟩⟩, ⟨2, 2, 1, 2, 0⟩) ∧
    (sub (doubling 100) [(9, 1)] (ca, ⟨2, 2, 1, 1, 0⟩)).toOption = some (ca, ⟨6, 6, 2, 2, 2⟩) := by
  decide +kernel

open Demo in
/-- C99: the promise of `with_capacity` says nothing about counters from which items are removed. A standard library that
keeps the documented contract may then take more memory, though the counter never holds more than its capacity. -/
theorem c99_subtraction_may_grow :
    ∃ (std : Std) (s : State Nat) (calls : List (Call Nat)), withCapacity std 2 = .ok s ∧
      (∀ i, (runAll std (calls.take i) s).2.1.len ≤ 2) ∧ (∀ f ∈ calls, f.hint = 0) ∧
      s.2.allocs < (runAll std calls s).2.2.allocs ∧ s.2.slots < (runAll std calls s).2.2.slots := by
  refine ⟨scarring, (Counter.new, ⟨2, 2, 1, 1, 0⟩), [.push 7, .push 8, .subAssign [(7, 1)] false, .push 9], rfl, fun i => ?_,
    by decide, by decide +kernel, by decide +kernel⟩
  match i with
  | 0 => decide +kernel
  | 1 => decide +kernel
  | 2 => decide +kernel
  | 3 => decide +kernel
  | i + 4 => rw [List.take_of_length_le (by simp)]; decide +kernel

section
variable {T : Type} [DecidableEq T] [Cfg]

/-- C99: the memory of a counter fits its contents after any calls, and is never given back. -/
theorem c99_never_given_back (std : Std) (calls : List (Call T)) (s : State T) (hf : s.2.Fit s.1.len) :
    (runAll std calls s).2.2.Fit (runAll std calls s).2.1.len ∧ s.2.slots ≤ (runAll std calls s).2.2.slots ∧
      s.2.allocs ≤ (runAll std calls s).2.2.allocs := by
  induction calls generalizing s with
  | nil => exact ⟨hf, Nat.le_refl _, Nat.le_refl _⟩
  | cons f fs ih =>
    have h := call_later (std := std) f s
    obtain ⟨h1, h2, h3⟩ := ih (f.run std s).2 (h.fit hf)
    exact ⟨h1, Nat.le_trans h.slots h2, Nat.le_trans h.allocs h3⟩

/-- C99, the part of "memory O(k)" that holds: whatever is called, if growing takes at most `a` times what is needed and
`b`, the memory is at most `a * (k + h) + b` (or what it was), where `k` is the largest number of different items there
were before or after a call and `h` the largest announcement (at least 1). Missing is a bound by the different items
alone: see `c99_memory_not_linear`. -/
theorem c99_memory_partial (std : Std) {a b : Nat} (hm : std.Modest a b) (calls : List (Call T)) (s : State T) (k h : Nat)
    (hk : ∀ i, (runAll std (calls.take i) s).2.1.len ≤ k) (hh : ∀ f ∈ calls, f.hint ≤ h) :
    (runAll std calls s).2.2.slots ≤ max s.2.slots (a * (k + max h 1) + b) := by
  induction calls generalizing s with
  | nil => exact Nat.le_max_left _ _
  | cons f fs ih =>
    have h1 := call_slots hm f s
    have h2 := ih (f.run std s).2 (fun i => hk (i + 1)) (fun g hg => hh g (List.mem_cons_of_mem _ hg))
    show (runAll std fs (f.run std s).2).2.2.slots ≤ _
    have k0 : s.1.len ≤ k := hk 0
    have k1 : (f.run std s).2.1.len ≤ k := hk 1
    have hf := hh f List.mem_cons_self
    have : a * max (s.1.len + max f.hint 1) (f.run std s).2.1.len ≤ a * (k + max h 1) :=
      Nat.mul_le_mul_left _ (by omega)
    omega

/-- C99: what `from_iter` takes: room for the announced items and for the different ones, and not much more. -/
theorem c99_from_iter (std : Std) (hint : Nat) (items : List T) (s : State T) (hm : ∀ x, items.count x ≤ usizeMax)
    (hs : fromIter std hint items false = .ok s) :
    Counter.fromIter items = .ok s.1 ∧ s.1.len = items.dedup.length ∧ max hint items.dedup.length ≤ s.2.slots ∧
      ∀ {a b : Nat}, std.Modest a b → s.2.slots ≤ a * max hint items.dedup.length + b := by
  obtain ⟨c0, c, h1, h2, h3, _, h4⟩ := c45_counts_multiplicities items [] (by simpa using hm)
  simp only [runFeeds, List.map_nil, Prod.mk.injEq, true_and] at h3
  subst h3
  simp only [List.flatMap_nil, List.append_nil] at h4
  have h5 : addLoop (ones items) false Counter.new = (.ok (), c0) := by
    rw [Counter.fromIter, fromIterLoop_eq] at h1
    exact (owned_ok.mp h1).choose_spec
  rw [fromIter] at hs
  cases hw : withCapacity (T := T) std hint with
  | error e => rw [hw] at hs; cases hs
  | ok s0 =>
    rw [hw] at hs
    change owned (pushAll std items false) s0 = .ok s at hs
    obtain ⟨w1, w2, w3, w4, w5⟩ := c99_with_capacity std hint s0 hw
    rw [owned, pushAll_eq] at hs
    obtain ⟨c, r⟩ := s0
    simp only at w1 w2 w3 w4
    subst w1
    have hl := addAssign_later (std := std) (ones items) false (Counter.new, r)
    have hd := addAssign_does (std := std) (ones items) false Counter.new r
    have hc : r.cap ≤ r.slots ∧ ∀ {a b : Nat}, std.Modest a b → r.slots ≤ a * hint + b := by
      rw [withCapacity] at hw
      rcases Room.reserve_cases std 0 hint {} with ⟨g1, g2⟩ | ⟨g1, m, g2, g3⟩ | ⟨g1, g2, g3⟩
      · rw [g2] at hw
        cases hw
        exact ⟨Nat.le_refl _, fun _ => Nat.zero_le _⟩
      · rw [g3] at hw
        cases hw
        refine ⟨Nat.le_refl _, fun hm => ?_⟩
        have := hm g2
        simp only [Nat.zero_add] at this
        show m ≤ _
        omega
      · rw [g3] at hw; cases hw
    have hsl := fun {a b : Nat} (hm : std.Modest a b) => addAssign_slots hm (ones items) false (Counter.new, r)
    generalize addAssign std (ones items) false (Counter.new, r) = q at hs hl hd hsl
    obtain ⟨res, s1⟩ := q
    cases res with
    | error e => cases hs
    | ok u =>
      cases hs
      have hsc : s.1 = c0 := by
        rcases hd with ⟨r', hd⟩ | ⟨n, r', c', hd, _⟩
        · rw [h5] at hd
          simp only [Prod.mk.injEq] at hd
          rw [hd.2]
        · simp at hd
      have hfit := hl.fit ⟨Nat.zero_le _, hc.1⟩
      simp only at hfit hl hsl
      have hlen : s.1.len = items.dedup.length := by rw [hsc, h4]
      refine ⟨by rw [h1, hsc], hlen, ?_, fun {a b} hm => ?_⟩
      · have e1 := hl.slots
        simp only at e1
        have e2 := hfit.1
        have e3 := hfit.2
        have e4 := hc.1
        omega
      · have e1 := (hsl hm).1
        have e2 := hc.2 hm
        rw [hlen] at e1
        have m1 : a * hint ≤ a * max hint items.dedup.length := Nat.mul_le_mul_left _ (Nat.le_max_left _ _)
        have m2 : a * items.dedup.length ≤ a * max hint items.dedup.length := Nat.mul_le_mul_left _ (Nat.le_max_right _ _)
        omega

/-- C99: the documented memory O(k) is not what the code needs: for every factor `f` there are items, all equal, such
that a counter made of them (with the exact announcement of, say, a slice) has room for more than `f` times as many items
as it holds. -/
theorem c99_memory_not_linear (std : Std) (hg : std.Generous) (x : T) (f : Nat) (hf : f < usizeMax) :
    ∃ (items : List T) (s : State T), items.dedup = [x] ∧ fromIter std items.length items false = .ok s ∧
      s.1.len = 1 ∧ f * s.1.len < s.2.slots := by
  have hd : ∀ n, (List.replicate (n + 1) x).dedup = [x] := fun n => List.replicate_dedup (Nat.succ_ne_zero n)
  have hcount : ∀ y, (List.replicate (f + 1) x).count y ≤ usizeMax := fun y => by
    have := List.count_le_length (a := y) (l := List.replicate (f + 1) x)
    rw [List.length_replicate] at this
    omega
  have hsome : ∃ s, fromIter std (List.replicate (f + 1) x).length (List.replicate (f + 1) x) false = .ok s := by
    obtain ⟨c0, c, h1, h2, h3, _, h4⟩ := c45_counts_multiplicities (List.replicate (f + 1) x) []
      (by simpa using hcount)
    have h5 : addLoop (ones (List.replicate (f + 1) x)) false Counter.new = (.ok (), c0) := by
      rw [Counter.fromIter, fromIterLoop_eq] at h1
      exact (owned_ok.mp h1).choose_spec
    rw [fromIter]
    have hw : ∃ r, withCapacity (T := T) std (List.replicate (f + 1) x).length = .ok (Counter.new, r) := by
      rw [withCapacity]
      rcases Room.reserve_cases std 0 (List.replicate (f + 1) x).length {} with ⟨g1, g2⟩ | ⟨g1, m, g2, g3⟩ | ⟨g1, g2, g3⟩
      · rw [g2]; exact ⟨_, rfl⟩
      · rw [g3]; exact ⟨_, rfl⟩
      · exact absurd g2 (hg _ _ _)
    obtain ⟨r, hw⟩ := hw
    rw [hw]
    show ∃ s, owned (pushAll std _ false) (Counter.new, r) = .ok s
    rw [owned, pushAll_eq]
    rcases addAssign_does (std := std) (ones (List.replicate (f + 1) x)) false Counter.new r with
      ⟨r', h6⟩ | ⟨_, _, _, _, _, _, _, _, h6⟩
    · rw [h6, h5]
      exact ⟨_, rfl⟩
    · exact absurd h6 (hg _ _ _)
  obtain ⟨s, hs⟩ := hsome
  obtain ⟨_, h2, h3, _⟩ := c99_from_iter std _ _ s hcount hs
  rw [hd] at h2 h3
  refine ⟨_, s, hd f, hs, h2, ?_⟩
  rw [h2]
  simp only [List.length_replicate, List.length_singleton] at h2 h3 ⊢
  omega

end

open Demo in
example : exact.Generous ∧ 3 < usizeMax ∧ (List.replicate 4 7).dedup = [7] ∧
    fromIter exact 4 [7, 7, 7, 7] false = .ok (⟨⟨[(7, 4)]⟩⟩, ⟨4, 4, 1, 1, 0⟩) :=
  ⟨exact_generous, by decide +kernel, by decide, rfl⟩
open Demo in
example : (doubling 100).Modest 2 0 ∧ (⟨2, 2, 1, 1, 0⟩ : Room).Fit ca.len ∧
    (∀ i, (runAll (doubling 100) (([Call.subAssign [(7, 2), (8, 1)] false, .push 3, .push 4] : List (Call Nat)).take i)
      (ca, ⟨2, 2, 1, 1, 0⟩)).2.1.len ≤ 2) ∧
    (runAll (doubling 100) [Call.subAssign [(7, 2), (8, 1)] false, .push 3, .push 4] (ca, ⟨2, 2, 1, 1, 0⟩)).2 =
      (⟨⟨[(4, 1), (3, 1)]⟩⟩, ⟨2, 2, 1, 4, 0⟩) := by
  refine ⟨doubling_modest 100, by unfold Room.Fit; decide, fun i => ?_, by decide +kernel⟩
  match i with
  | 0 => decide +kernel
  | 1 => decide +kernel
  | 2 => decide +kernel
  | i + 3 => rw [List.take_of_length_le (by simp)]; decide +kernel

end Cnt.Mem
