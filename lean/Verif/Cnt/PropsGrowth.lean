import Verif.Map.Growth
import Verif.Cnt.PropsMem
/-!
# Growing a counter costs a constant per item (C112)

The documentation of the crate calls its operations O(1). For those that may have to grow a hash map this can only be
meant on average over a sequence of calls.
-/

open Rust Mem
namespace Cnt.Mem

/-- how many entries a call takes from the counter at most -/
def Call.subtracted {T : Type} : Call T → Nat
  | .subAssign order _ => order.length
  | _ => 0

section
variable {T : Type} [DecidableEq T] [Cfg] {std : Std}

/-- the cost of the memory of this counter is paid for -/
def Paid (extra : Nat) (s : State T) : Prop := s.2.Paid s.1.len extra

omit [DecidableEq T] [Cfg] in
theorem reserve_paid (hd : std.Doubles) {e : Nat} {s : State T} (h : Paid e s) (n : Nat) :
    Paid e (reserve std n s).2 :=
  (Room.Paid.reserve hd h n).1

theorem entryAdd_paid (hd : std.Doubles) {e : Nat} {s : State T} (h : Paid e s) (key : T) (val : Nat) :
    Paid e (entryAdd std key val s).2 := by
  obtain ⟨c, r⟩ := s
  have hl := bump_len c key val
  rcases entryAdd_cases (std := std) key val c r with ⟨r', h1, h2⟩ | ⟨h1, _⟩
  · rw [h1]
    show r'.Paid (bump key val c).2.len e
    rw [hl]
    rcases h2 with ⟨rfl, h3⟩ | ⟨h3, h4, n, h5, rfl⟩
    · split
      · exact h
      · rename_i hk
        rcases h3 with h3 | h3
        · exact absurd h3 hk
        · exact Room.Paid.more h h3
    · rw [if_neg (by rw [h3]; decide)]
      exact Room.Paid.grown hd h h4 h5
  · rw [h1]
    exact Room.Paid.moment h _

theorem addAssign_paid (hd : std.Doubles) {e : Nat} (order : List (T × Nat)) (p : Bool) {s : State T} (h : Paid e s) :
    Paid e (addAssign std order p s).2 := by
  induction order generalizing s with
  | nil => cases p <;> exact h
  | cons x xs ih =>
    rw [addAssign, M.bind_run]
    have h1 := entryAdd_paid hd h x.1 x.2
    generalize entryAdd std x.1 x.2 s = q at h1 ⊢
    obtain ⟨r, s1⟩ := q
    cases r with
    | error f => exact h1
    | ok u => exact ih h1

theorem subStep_paid (hd : std.Doubles) {e : Nat} {s : State T} (h : Paid e s) (key : T) (val : Nat) :
    Paid (e + 1) (subStep std key val s).2 := by
  obtain ⟨c, r⟩ := s
  have h' : r.Paid c.len (e + 1) := Room.Paid.weaken h (Nat.le_succ e)
  unfold subStep
  cases hg : c.counter.get key with
  | none =>
    simp only []
    cases std.eager with
    | false => exact h'
    | true => exact reserve_paid hd (s := (c, r)) h' 1
  | some cur =>
    simp only []
    by_cases hle : cur ≤ val
    · rw [if_pos hle]
      have hr : (c.counter.remove key).len + 1 ≤ c.counter.len := remove_len (by rw [hg]; rfl)
      exact Room.Paid.removed (Room.Paid.le h hr)
    · rw [if_neg hle]
      cases usub cur val with
      | error e => exact h'
      | ok v =>
        have hl : (c.counter.insert key v).len = c.counter.len := by rw [HMap.len_insert, hg]; rfl
        show r.Paid (c.counter.insert key v).len (e + 1)
        rw [hl]; exact h'

theorem subAssign_paid (hd : std.Doubles) (order : List (T × Nat)) (p : Bool) {e : Nat} {s : State T} (h : Paid e s) :
    Paid (e + order.length) (subAssign std order p s).2 := by
  induction order generalizing s e with
  | nil => cases p <;> exact h
  | cons x xs ih =>
    rw [subAssign, M.bind_run]
    have h1 := subStep_paid hd h x.1 x.2
    generalize subStep std x.1 x.2 s = q at h1 ⊢
    obtain ⟨r, s1⟩ := q
    cases r with
    | error f => exact Room.Paid.weaken h1 (by simp only [List.length_cons]; omega)
    | ok u =>
      have := ih h1
      rwa [Nat.add_assoc, Nat.add_comm 1] at this

theorem call_paid (hd : std.Doubles) (call : Call T) {e : Nat} {s : State T} (h : Paid e s) :
    Paid (e + call.subtracted) (call.run std s).2 := by
  cases call with
  | push x => exact entryAdd_paid hd h x 1
  | extend n xs p =>
    show Paid e (extend std n xs p s).2
    rw [extend, M.bind_run, pushAll_eq]
    have h1 := reserve_paid hd h n
    generalize reserve std n s = q at h1 ⊢
    obtain ⟨r, s1⟩ := q
    cases r with
    | error f => exact h1
    | ok u => exact addAssign_paid hd _ _ h1
  | addAssign o p => exact addAssign_paid hd o p h
  | subAssign o p => exact subAssign_paid hd o p h

theorem runAll_paid (hd : std.Doubles) (calls : List (Call T)) {e : Nat} {s : State T} (h : Paid e s) :
    Paid (e + (calls.map Call.subtracted).sum) (runAll std calls s).2 := by
  induction calls generalizing e s with
  | nil => exact h
  | cons f fs ih =>
    have := ih (call_paid hd f h)
    rwa [Nat.add_assoc] at this

omit [DecidableEq T] [Cfg] in
theorem withCapacity_paid (hd : std.Doubles) {n : Nat} {s : State T} (hs : withCapacity std n = .ok s) : Paid 0 s := by
  have h := (Room.Paid.reserve hd Room.paid_empty n).1
  unfold withCapacity at hs
  generalize Room.reserve std 0 n {} = q at h hs
  obtain ⟨r, room⟩ := q
  cases r with
  | error e => cases hs
  | ok u => cases hs; exact h

/-- C112: whatever calls are made on a counter, and whichever of them panic: the number of items its map has moved to new
places because it grew or was tidied up is at most the room it ends up with and the number of entries subtracted from
it; and the number of times it took memory is logarithmic in the room. -/
theorem c112_counter (hd : std.Doubles) {n : Nat} {s : State T} (hs : withCapacity std n = .ok s) (calls : List (Call T)) :
    (runAll std calls s).2.2.moved ≤ (runAll std calls s).2.2.slots + (calls.map Call.subtracted).sum ∧
    ((runAll std calls s).2.2.allocs = 0 ∨
      2 ^ (runAll std calls s).2.2.allocs ≤ 2 * (runAll std calls s).2.2.slots) := by
  have h := runAll_paid hd calls (withCapacity_paid hd hs)
  rw [Nat.zero_add] at h
  exact ⟨Nat.le_trans h.moved (Nat.add_le_add_right h.fit.2 _), h.allocs⟩

/-- C112: so, if growing is not extravagant either, the items moved are linear in the most different items there ever
were (or were announced) and in the entries subtracted: each call costs a constant per item on average. -/
theorem c112_counter_linear (hd : std.Doubles) {a b : Nat} (hm : std.Modest a b) {s : State T}
    (hs : withCapacity std 0 = .ok s) (calls : List (Call T)) (k h : Nat)
    (hk : ∀ i, (runAll std (calls.take i) s).2.1.len ≤ k) (hh : ∀ f ∈ calls, f.hint ≤ h) :
    (runAll std calls s).2.2.moved ≤ a * (k + max h 1) + b + (calls.map Call.subtracted).sum ∧
    2 ^ (runAll std calls s).2.2.allocs ≤ 2 * (a * (k + max h 1) + b) + 1 := by
  have h1 := c112_counter hd hs calls
  have h2 := c99_memory_partial std hm calls s k h hk hh
  rw [(c99_with_capacity std 0 s hs).2.2.2.1 rfl, Nat.zero_max] at h2
  refine ⟨by omega, ?_⟩
  rcases h1.2 with h3 | h3
  · rw [h3]; omega
  · omega

/-- C112: the same for collecting. -/
theorem c112_counter_from_iter (hd : std.Doubles) {hint : Nat} {items : List T} {s : State T}
    (hs : fromIter std hint items false = .ok s) :
    s.2.moved ≤ s.2.slots ∧ (s.2.allocs = 0 ∨ 2 ^ s.2.allocs ≤ 2 * s.2.slots) := by
  unfold fromIter at hs
  cases hw : withCapacity (T := T) std hint with
  | error e => rw [hw] at hs; cases hs
  | ok s0 =>
    rw [hw] at hs
    change owned (pushAll std items false) s0 = .ok s at hs
    have h := addAssign_paid hd (ones items) false (withCapacity_paid hd hw)
    rw [← pushAll_eq] at h
    unfold owned at hs
    generalize pushAll std items false s0 = q at h hs
    obtain ⟨r, s1⟩ := q
    cases r with
    | error e => cases hs
    | ok u => cases hs; exact ⟨Nat.le_trans h.moved h.fit.2, h.allocs⟩

/-- C112: that growing doubles is needed: if a map only ever got the room it asked for, pushing `n` different items would
move `n * (n - 1) / 2` of them. -/
theorem c112_needs_doubling (items : List T) (hn : items.Nodup) :
    2 * (runAll exact (items.map Call.push) (Counter.new, {})).2.2.moved = items.length * (items.length - 1) := by
  have key : ∀ (items : List T) (c : Counter T) (r : Room), items.Nodup → (∀ x ∈ items, c.counter.get x = none) →
      r.cap = c.len → r.slots = c.len →
      2 * (runAll exact (items.map Call.push) (c, r)).2.2.moved =
        2 * r.moved + items.length * (2 * c.len + items.length - 1) := by
    intro items
    induction items with
    | nil => intro c r _ _ _ _; simp [runAll]
    | cons x xs ih =>
      intro c r hn hx hc hs
      have hg := hx x List.mem_cons_self
      have hl := bump_len c x 1
      rw [hg] at hl
      simp only [Option.isSome_none, Bool.false_eq_true, if_false] at hl
      have h1 : (Call.push x).run exact (c, r) = ((bump x 1 c).1, (bump x 1 c).2, r.grown c.len (c.len + 1)) := by
        show entryAdd exact x 1 (c, r) = _
        rcases entryAdd_cases (std := exact) x 1 c r with ⟨r', h1, h2⟩ | ⟨_, _, _, h⟩
        · rcases h2 with ⟨_, h3⟩ | ⟨_, _, n, h5, rfl⟩
          · rw [hg] at h3
            rcases h3 with h3 | h3
            · cases h3
            · omega
          · rw [h1]
            simp only [exact, Option.some.injEq] at h5
            rw [← h5, show max r.slots (c.len + 1) = c.len + 1 by omega]
        · exact absurd h (exact_generous _ _ _)
      rw [List.map_cons, runAll, h1]
      simp only []
      rw [ih _ _ (List.nodup_cons.mp hn).2 (fun y hy => ?_) hl.symm hl.symm, hl]
      · show 2 * (r.moved + c.len) + _ = _
        simp only [List.length_cons]
        have e1 : 2 * (c.len + 1) + xs.length - 1 = 2 * c.len + xs.length + 1 := by omega
        have e2 : 2 * c.len + (xs.length + 1) - 1 = 2 * c.len + xs.length := by omega
        have e3 := Nat.mul_succ xs.length (2 * c.len + xs.length)
        have e4 := Nat.succ_mul xs.length (2 * c.len + xs.length)
        simp only [Nat.succ_eq_add_one] at e3 e4
        rw [e1, e2, e3, e4]
        omega
      · have hne : y ≠ x := fun h => (List.nodup_cons.mp hn).1 (h ▸ hy)
        have := hx y (List.mem_cons_of_mem _ hy)
        unfold bump Counter.entryAdd HMap.orInsert
        rw [hg]
        simp only []
        split <;> simp [HMap.get_insert, hne, this]
  have := key items Counter.new {} hn (fun _ _ => rfl) rfl rfl
  rw [this]
  show 2 * 0 + items.length * (2 * 0 + items.length - 1) = _
  simp

end

open Demo in
/-- nine items, three of which are taken out again: the map grew to 1, 2, 4 and 8 and was tidied up in between -/
example : steady.Doubles ∧ steady.Modest 4 0 ∧
    withCapacity (T := Nat) steady 0 = .ok (Counter.new, {}) ∧
    (runAll steady [.push 1, .push 2, .push 3, .push 4, .subAssign [(1, 1), (2, 1), (3, 1)] false, .extend 0 [5, 6, 7, 8, 9] false]
      (Counter.new, {})).2.2 = { cap := 8, slots := 8, allocs := 4, moment := 7, moved := 6 } ∧
    (runAll exact ([1, 2, 3, 4].map Call.push) (Counter.new, {})).2.2.moved = 6 := by
  refine ⟨steady_doubles, ?_, rfl, by decide +kernel, by decide +kernel⟩
  intro t s m n h
  simp only [steady] at h
  split at h <;> cases h <;> omega

end Cnt.Mem
