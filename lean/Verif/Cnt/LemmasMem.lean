import Verif.Cnt.SpecMem
import Verif.Cnt.Props
/-!
# Lemmas on the memory of counters
-/

open Rust Mem
namespace Cnt.Mem

section
variable {T : Type} [DecidableEq T] [Cfg] {std : Std}

/-! ## one entry -/

theorem bump_len (c : Counter T) (key : T) (val : Nat) :
    (bump key val c).2.len = if (c.counter.get key).isSome then c.len else c.len + 1 := by
  unfold bump Counter.entryAdd HMap.orInsert
  cases h : c.counter.get key with
  | none =>
    cases hu : uadd 0 val <;>
      simp [Counter.len, HMap.len_insert, HMap.get_insert, hu, h]
  | some v =>
    cases hu : uadd v val <;> simp [Counter.len, HMap.len_insert, hu, h]

/-- the two ways of an `entry(key).or_insert(0) += val` -/
theorem entryAdd_cases (key : T) (val : Nat) (c : Counter T) (r : Room) :
    (∃ r', entryAdd std key val (c, r) = ((bump key val c).1, (bump key val c).2, r') ∧
      (r' = r ∧ ((c.counter.get key).isSome ∨ c.len + 1 ≤ r.cap) ∨
        (c.counter.get key).isSome = false ∧ ¬c.len + 1 ≤ r.cap ∧
          ∃ n, std.grow r.moment r.slots (c.len + 1) = some n ∧ r' = r.grown c.len n)) ∨
    (entryAdd std key val (c, r) = (.error .capacityOverflow, c, { r with moment := r.moment + 1 }) ∧
      (c.counter.get key).isSome = false ∧ ¬c.len + 1 ≤ r.cap ∧ std.grow r.moment r.slots (c.len + 1) = none) := by
  have e : entryAdd std key val (c, r) = _ := M.bind_run _ _ _
  rw [e, entry]
  by_cases hk : (c.counter.get key).isSome = true
  · refine .inl ⟨r, ?_, .inl ⟨rfl, .inl hk⟩⟩
    simp only [hk, if_true]
    rfl
  · have hk' : (c.counter.get key).isSome = false := by simpa using hk
    simp only [if_neg hk, reserve]
    rcases Room.reserve_cases std c.len 1 r with ⟨h1, h2⟩ | ⟨h1, n, h2, h3⟩ | ⟨h1, h2, h3⟩
    · refine .inl ⟨r, ?_, .inl ⟨rfl, .inr h1⟩⟩
      rw [h2] <;> rfl
    · refine .inl ⟨r.grown c.len n, ?_, .inr ⟨hk', h1, n, h2, rfl⟩⟩
      rw [h3] <;> rfl
    · refine .inr ⟨?_, hk', h1, h2⟩
      rw [h3] <;> rfl

theorem pushAll_eq (xs : List T) (p : Bool) : pushAll std xs p = addAssign std (ones xs) p := by
  induction xs with
  | nil => rfl
  | cons x xs ih => simp only [pushAll, ones, List.map_cons, addAssign, push, ih]

/-! ## what a run does to the memory -/

/-- What holds of the memory before and after any run: it still fits, is not given back, and no decision is undone. -/
structure Later (s s' : State T) : Prop where
  fit : Room.Fit s.1.len s.2 → Room.Fit s'.1.len s'.2
  slots : s.2.slots ≤ s'.2.slots
  allocs : s.2.allocs ≤ s'.2.allocs
  moment : s.2.moment ≤ s'.2.moment

theorem Later.refl (s : State T) : Later s s := ⟨id, Nat.le_refl _, Nat.le_refl _, Nat.le_refl _⟩

theorem Later.trans {s s' s'' : State T} (h : Later s s') (h' : Later s' s'') : Later s s'' :=
  ⟨fun hf => h'.fit (h.fit hf), Nat.le_trans h.slots h'.slots, Nat.le_trans h.allocs h'.allocs,
    Nat.le_trans h.moment h'.moment⟩

theorem grown_allocs (r : Room) (len n : Nat) : r.allocs ≤ (r.grown len n).allocs := by
  show r.allocs ≤ if n = r.slots then r.allocs else r.allocs + 1
  split <;> omega

theorem reserve_later (c : Counter T) (r : Room) (additional : Nat) :
    Later (c, r) (reserve std additional (c, r)).2 ∧ (reserve std additional (c, r)).2.1 = c := by
  refine ⟨?_, rfl⟩
  show Later (c, r) (c, (Room.reserve std c.len additional r).2)
  rcases Room.reserve_cases std c.len additional r with ⟨h1, h2⟩ | ⟨h1, n, h2, h3⟩ | ⟨h1, h2, h3⟩
  · rw [h2]; exact Later.refl _
  · rw [h3]
    refine ⟨fun _ => ⟨?_, Nat.le_refl _⟩, std.keeps h2, grown_allocs r _ n, Nat.le_succ _⟩
    exact Nat.le_trans (Nat.le_add_right _ _) (std.enough h2)
  · rw [h3]
    exact ⟨fun h => h, Nat.le_refl _, Nat.le_refl _, Nat.le_succ _⟩

theorem entryAdd_later (key : T) (val : Nat) (c : Counter T) (r : Room) :
    Later (c, r) (entryAdd std key val (c, r)).2 := by
  rcases entryAdd_cases (std := std) key val c r with ⟨r', h1, h2⟩ | ⟨h1, _⟩
  · rw [h1]
    have hl := bump_len c key val
    rcases h2 with ⟨rfl, h3⟩ | ⟨h3, h4, n, h5, rfl⟩
    · refine ⟨fun hf => ⟨?_, hf.2⟩, Nat.le_refl _, Nat.le_refl _, Nat.le_refl _⟩
      show (bump key val c).2.len ≤ r'.cap
      have := hf.1
      simp only at this
      rw [hl]
      rcases h3 with h3 | h3
      · rw [if_pos h3]; exact this
      · split <;> omega
    · refine ⟨fun hf => ⟨?_, Nat.le_refl _⟩, std.keeps h5, grown_allocs r _ n, Nat.le_succ _⟩
      show (bump key val c).2.len ≤ n
      rw [hl, h3]
      exact std.enough h5
  · rw [h1]
    exact ⟨fun h => h, Nat.le_refl _, Nat.le_refl _, Nat.le_succ _⟩

theorem addAssign_later (order : List (T × Nat)) (p : Bool) (s : State T) :
    Later s (addAssign std order p s).2 := by
  induction order generalizing s with
  | nil => cases p <;> exact Later.refl _
  | cons e es ih =>
    rw [addAssign, M.bind_run]
    have h := entryAdd_later (std := std) e.1 e.2 s.1 s.2
    generalize entryAdd std e.1 e.2 s = q at h ⊢
    obtain ⟨r, s1⟩ := q
    cases r with
    | error f => exact h
    | ok u => exact h.trans (ih s1)

theorem remove_len {m : HMap T Nat} {key : T} (h : (m.get key).isSome) : (m.remove key).len + 1 ≤ m.len := by
  have hmem := HMap.mem_keys.mpr h
  obtain ⟨e, he, rfl⟩ := List.mem_map.mp hmem
  show (m.entries.filter _).length + 1 ≤ m.entries.length
  exact List.length_filter_lt_length_iff_exists.mpr ⟨e, he, by simp⟩

theorem subStep_later (key : T) (val : Nat) (c : Counter T) (r : Room) :
    Later (c, r) (subStep std key val (c, r)).2 ∧ (subStep std key val (c, r)).2.1.len ≤ c.len := by
  unfold subStep
  cases hg : c.counter.get key with
  | none =>
    simp only []
    cases std.eager with
    | false => exact ⟨Later.refl _, Nat.le_refl _⟩
    | true => exact ⟨(reserve_later c r 1).1, Nat.le_refl _⟩
  | some cur =>
    simp only []
    by_cases h : cur ≤ val
    · rw [if_pos h]
      have hr : (c.counter.remove key).len + 1 ≤ c.counter.len := remove_len (by rw [hg]; rfl)
      refine ⟨⟨fun hf => ?_, Nat.le_refl _, Nat.le_refl _, Nat.le_succ _⟩, ?_⟩
      · obtain ⟨h1, h2⟩ := hf
        simp only [Counter.len] at h1
        refine ⟨?_, ?_⟩
        · show (c.counter.remove key).len ≤ if std.scar r.moment then r.cap - 1 else r.cap
          split <;> omega
        · show (if std.scar r.moment then r.cap - 1 else r.cap) ≤ r.slots
          simp only at h2
          split <;> omega
      · show (c.counter.remove key).len ≤ c.counter.len
        omega
    · rw [if_neg h]
      cases usub cur val with
      | error e => exact ⟨Later.refl _, Nat.le_refl _⟩
      | ok v =>
        have hl : (c.counter.insert key v).len = c.counter.len := by rw [HMap.len_insert, hg] <;> rfl
        refine ⟨⟨fun hf => ⟨?_, hf.2⟩, Nat.le_refl _, Nat.le_refl _, Nat.le_refl _⟩, ?_⟩
        · show (c.counter.insert key v).len ≤ r.cap
          rw [hl]; exact hf.1
        · show (c.counter.insert key v).len ≤ c.counter.len
          exact Nat.le_of_eq hl

theorem subAssign_later (order : List (T × Nat)) (p : Bool) (s : State T) :
    Later s (subAssign std order p s).2 := by
  induction order generalizing s with
  | nil => cases p <;> exact Later.refl _
  | cons e es ih =>
    rw [subAssign, M.bind_run]
    have h := (subStep_later (std := std) e.1 e.2 s.1 s.2).1
    generalize subStep std e.1 e.2 s = q at h ⊢
    obtain ⟨r, s1⟩ := q
    cases r with
    | error f => exact h
    | ok u => exact h.trans (ih s1)

theorem extend_later (hint : Nat) (xs : List T) (p : Bool) (s : State T) : Later s (extend std hint xs p s).2 := by
  rw [extend, M.bind_run, pushAll_eq]
  have h := (reserve_later (std := std) s.1 s.2 hint).1
  generalize reserve std hint s = q at h ⊢
  obtain ⟨r, s1⟩ := q
  cases r with
  | error f => exact h
  | ok u => exact h.trans (addAssign_later _ _ s1)

theorem call_later (call : Call T) (s : State T) : Later s (call.run std s).2 := by
  cases call with
  | push x => exact entryAdd_later x 1 s.1 s.2
  | extend h xs p => exact extend_later h xs p s
  | addAssign o p => exact addAssign_later o p s
  | subAssign o p => exact subAssign_later o p s

/-! ## contents -/

/-- `m` does what `p` does, or is refused memory and has then done what `q n` does for some `n`. -/
def Does (std : Std) (m : M (State T) Unit) (p : M (Counter T) Unit) (q : Nat → M (Counter T) Unit) : Prop :=
  ∀ (c : Counter T) (r : Room),
    (∃ r', m (c, r) = ((p c).1, (p c).2, r')) ∨
    (∃ n r' c', m (c, r) = (.error .capacityOverflow, c', r') ∧ q n c = (.ok (), c') ∧
      ∃ moment slots need, std.grow moment slots need = none)

theorem loop_does {α : Type} (step : α → M (State T) Unit) (pstep : α → M (Counter T) Unit)
    (loop : List α → Bool → M (State T) Unit) (ploop : List α → Bool → M (Counter T) Unit)
    (hstep : ∀ a, Does std (step a) (pstep a) (fun _ => pure ()))
    (hnil : ∀ p, loop [] p = if p then M.throw .user else pure ())
    (hcons : ∀ a as p, loop (a :: as) p = (do step a; loop as p))
    (pnil : ∀ p, ploop [] p = if p then M.throw .user else pure ())
    (pcons : ∀ a as p, ploop (a :: as) p = (do pstep a; ploop as p))
    (as : List α) (p : Bool) : Does std (loop as p) (ploop as p) (fun n => ploop (as.take n) false) := by
  induction as with
  | nil =>
    intro c r
    refine .inl ⟨r, ?_⟩
    rw [hnil, pnil]
    cases p <;> rfl
  | cons a as ih =>
    intro c r
    rw [hcons, pcons, M.bind_run, M.bind_run]
    rcases hstep a c r with ⟨r', h⟩ | ⟨n, r', c', h, hq, hg⟩
    · rw [h]
      generalize hpa : pstep a c = pa
      obtain ⟨res, c1⟩ := pa
      cases res with
      | error f => exact .inl ⟨r', rfl⟩
      | ok u =>
        rcases ih c1 r' with ⟨r'', h2⟩ | ⟨n, r'', c'', h2, hq, hg⟩
        · exact .inl ⟨r'', h2⟩
        · refine .inr ⟨n + 1, r'', c'', h2, ?_, hg⟩
          show ploop ((a :: as).take (n + 1)) false c = _
          rw [List.take_succ_cons, pcons, M.bind_ok hpa]
          exact hq
    · refine .inr ⟨0, r', c', ?_, ?_, hg⟩
      · rw [h]
      · show ploop ((a :: as).take 0) false c = _
        rw [List.take_zero, pnil]
        exact hq

theorem entryAdd_does (key : T) (val : Nat) : Does std (entryAdd std key val) (bump key val) (fun _ => pure ()) := by
  intro c r
  rcases entryAdd_cases (std := std) key val c r with ⟨r', h1, _⟩ | ⟨h1, _, _, h4⟩
  · exact .inl ⟨r', h1⟩
  · exact .inr ⟨0, _, c, h1, rfl, _, _, _, h4⟩

theorem subStep_does (key : T) (val : Nat) :
    Does std (subStep std key val) (Counter.subAssignStep key val) (fun _ => pure ()) := by
  intro c r
  unfold subStep Counter.subAssignStep
  cases hg : c.counter.get key with
  | none =>
    simp only [hg]
    cases std.eager with
    | false => exact .inl ⟨r, rfl⟩
    | true =>
      simp only [if_true, reserve]
      rcases Room.reserve_cases std c.len 1 r with ⟨h1, h2⟩ | ⟨h1, n, h2, h3⟩ | ⟨h1, h2, h3⟩
      · exact .inl ⟨r, by rw [h2]⟩
      · exact .inl ⟨_, by rw [h3]⟩
      · exact .inr ⟨0, _, c, by rw [h3], rfl, _, _, _, h2⟩
  | some cur =>
    simp only [hg]
    by_cases h : cur ≤ val
    · exact .inl ⟨r.removed std, by rw [if_pos h, if_pos h]⟩
    · rw [if_neg h]
      refine .inl ⟨r, ?_⟩
      rw [if_neg h]
      cases usub cur val <;> rfl

theorem addAssign_does (order : List (T × Nat)) (p : Bool) :
    Does std (addAssign std order p) (addLoop order p) (fun n => addLoop (order.take n) false) :=
  loop_does (fun e => entryAdd std e.1 e.2) (fun e => bump e.1 e.2) (addAssign std) addLoop
    (fun e => entryAdd_does e.1 e.2) (fun _ => rfl) (fun _ _ _ => rfl) (fun _ => rfl) (fun _ _ _ => rfl) order p

theorem subAssign_does (order : List (T × Nat)) (p : Bool) :
    Does std (subAssign std order p) (Counter.subAssign order p) (fun n => Counter.subAssign (order.take n) false) :=
  loop_does (fun e => subStep std e.1 e.2) (fun e => Counter.subAssignStep e.1 e.2) (subAssign std) Counter.subAssign
    (fun e => subStep_does e.1 e.2) (fun _ => by rw [subAssign]) (fun _ _ _ => by rw [subAssign])
    (fun _ => by rw [Counter.subAssign]) (fun _ _ _ => by rw [Counter.subAssign]) order p

theorem ones_take (xs : List T) (n : Nat) : (ones xs).take n = ones (xs.take n) := by
  simp [ones, List.map_take]

theorem call_does (call : Call T) : Does std (call.run std) call.plain (fun n => (call.first n).plain) := by
  cases call with
  | push x =>
    intro c r
    rcases entryAdd_does (std := std) x 1 c r with h | ⟨n, r', c', h1, h2, h3⟩
    · exact .inl h
    · exact .inr ⟨0, r', c', h1, h2, h3⟩
  | extend hint xs p =>
    intro c r
    show (∃ r', extend std hint xs p (c, r) = ((Counter.extend xs p c).1, (Counter.extend xs p c).2, r')) ∨
      ∃ n r' c', extend std hint xs p (c, r) = (.error .capacityOverflow, c', r') ∧
        Counter.extend (xs.take n) false c = (.ok (), c') ∧ _
    rw [extend, M.bind_run, pushAll_eq]
    simp only [reserve, Cnt.extend_eq, ← ones_take]
    rcases Room.reserve_cases std c.len hint r with ⟨h1, h2⟩ | ⟨h1, n, h2, h3⟩ | ⟨h1, h2, h3⟩
    · rw [h2]
      exact addAssign_does (ones xs) p c r
    · rw [h3]
      exact addAssign_does (ones xs) p c _
    · rw [h3]
      exact .inr ⟨0, _, c, rfl, rfl, _, _, _, h2⟩
  | addAssign o p =>
    show Does std (addAssign std o p) (Counter.addAssign o p) (fun n => Counter.addAssign (o.take n) false)
    simp only [Cnt.addAssign_eq]
    exact addAssign_does o p
  | subAssign o p => exact subAssign_does o p

/-! ## no growth -/

theorem addLoop_len_le (order : List (T × Nat)) (p : Bool) (c : Counter T) : c.len ≤ (addLoop order p c).2.len := by
  induction order generalizing c with
  | nil => cases p <;> exact Nat.le_refl _
  | cons e es ih =>
    rw [addLoop, M.bind_run]
    have h := bump_len c e.1 e.2
    generalize bump e.1 e.2 c = q at h ⊢
    obtain ⟨r, c1⟩ := q
    have h1 : c.len ≤ c1.len := by
      simp only at h
      rw [h]; split <;> omega
    cases r with
    | error f => exact h1
    | ok u => exact Nat.le_trans h1 (ih c1)

theorem addAssign_quiet (order : List (T × Nat)) (p : Bool) (c : Counter T) (r : Room)
    (h : (addLoop order p c).2.len ≤ r.cap) :
    addAssign std order p (c, r) = ((addLoop order p c).1, (addLoop order p c).2, r) := by
  induction order generalizing c with
  | nil => cases p <;> rfl
  | cons e es ih =>
    rw [addLoop, M.bind_run] at h ⊢
    rw [addAssign, M.bind_run]
    have hl := bump_len c e.1 e.2
    have hc : (bump e.1 e.2 c).2.len ≤ r.cap := by
      generalize bump e.1 e.2 c = q at h ⊢
      obtain ⟨res, c1⟩ := q
      cases res with
      | error f => exact h
      | ok u => exact Nat.le_trans (addLoop_len_le es p c1) h
    rcases entryAdd_cases (std := std) e.1 e.2 c r with ⟨r', h1, h2⟩ | ⟨h1, h2, h3, _⟩
    · rw [h1]
      have hr : r' = r := by
        rcases h2 with ⟨rfl, _⟩ | ⟨h3, h4, _⟩
        · rfl
        · rw [h3] at hl
          simp only [Bool.false_eq_true, if_false] at hl
          omega
      subst hr
      generalize bump e.1 e.2 c = q at h ⊢
      obtain ⟨res, c1⟩ := q
      cases res with
      | error f => rfl
      | ok u => exact ih c1 h
    · rw [h2] at hl
      simp only [Bool.false_eq_true, if_false] at hl
      omega

theorem addAssign_moves (order : List (T × Nat)) (p : Bool) (c : Counter T) (r : Room) (hf : c.len ≤ r.cap)
    (h : r.cap < (addLoop order p c).2.len) : r.moment < (addAssign std order p (c, r)).2.2.moment := by
  induction order generalizing c with
  | nil => cases p <;> exact absurd h (Nat.not_lt.mpr hf)
  | cons e es ih =>
    rw [addLoop, M.bind_run] at h
    rw [addAssign, M.bind_run]
    have hl := bump_len c e.1 e.2
    rcases entryAdd_cases (std := std) e.1 e.2 c r with ⟨r', h1, h2⟩ | ⟨h1, _⟩
    · rw [h1]
      generalize bump e.1 e.2 c = q at h hl ⊢
      obtain ⟨res, c1⟩ := q
      rcases h2 with ⟨rfl, h3⟩ | ⟨_, _, n, _, rfl⟩
      · have hc1 : c1.len ≤ r'.cap := by
          simp only at hl
          rw [hl]
          rcases h3 with h3 | h3
          · rw [if_pos h3]; exact hf
          · split <;> omega
        cases res with
        | error f => exact absurd h (Nat.not_lt.mpr hc1)
        | ok u => exact ih c1 hc1 h
      · cases res with
        | error f => exact Nat.lt_succ_self _
        | ok u => exact Nat.lt_of_lt_of_le (Nat.lt_succ_self r.moment) (addAssign_later es p (c1, r.grown c.len n)).moment
    · rw [h1]
      exact Nat.lt_succ_self _

theorem addAssign_quiet_iff (order : List (T × Nat)) (p : Bool) (c : Counter T) (r : Room) (hf : c.len ≤ r.cap) :
    addAssign std order p (c, r) = ((addLoop order p c).1, (addLoop order p c).2, r) ↔
      (addLoop order p c).2.len ≤ r.cap := by
  refine ⟨fun h => Nat.not_lt.mp fun hlt => ?_, addAssign_quiet order p c r⟩
  have := addAssign_moves (std := std) order p c r hf hlt
  rw [h] at this
  exact Nat.lt_irrefl _ this

/-! ## how much memory -/

variable {a b : Nat}

theorem entryAdd_slots (hm : std.Modest a b) (key : T) (val : Nat) (c : Counter T) (r : Room) :
    (entryAdd std key val (c, r)).2.2.slots ≤ max r.slots (a * (entryAdd std key val (c, r)).2.1.len + b) ∧
      c.len ≤ (entryAdd std key val (c, r)).2.1.len := by
  have hl := bump_len c key val
  rcases entryAdd_cases (std := std) key val c r with ⟨r', h1, h2⟩ | ⟨h1, _⟩
  · rw [h1]
    refine ⟨?_, ?_⟩
    · rcases h2 with ⟨rfl, _⟩ | ⟨h3, _, n, h5, rfl⟩
      · exact Nat.le_max_left _ _
      · show n ≤ max r.slots (a * (bump key val c).2.len + b)
        rw [hl, h3]
        exact hm h5
    · show c.len ≤ (bump key val c).2.len
      rw [hl]; split <;> omega
  · rw [h1]
    exact ⟨Nat.le_max_left _ _, Nat.le_refl _⟩

theorem addAssign_slots (hm : std.Modest a b) (order : List (T × Nat)) (p : Bool) (s : State T) :
    (addAssign std order p s).2.2.slots ≤ max s.2.slots (a * (addAssign std order p s).2.1.len + b) ∧
      s.1.len ≤ (addAssign std order p s).2.1.len := by
  induction order generalizing s with
  | nil => cases p <;> exact ⟨Nat.le_max_left _ _, Nat.le_refl _⟩
  | cons e es ih =>
    rw [addAssign, M.bind_run]
    obtain ⟨h1, h2⟩ := entryAdd_slots hm e.1 e.2 s.1 s.2
    generalize entryAdd std e.1 e.2 s = q at h1 h2 ⊢
    obtain ⟨r, s1⟩ := q
    cases r with
    | error f => exact ⟨h1, h2⟩
    | ok u =>
      obtain ⟨h3, h4⟩ := ih s1
      refine ⟨?_, Nat.le_trans h2 h4⟩
      show (addAssign std es p s1).2.2.slots ≤ max s.2.slots (a * (addAssign std es p s1).2.1.len + b)
      have : a * s1.1.len ≤ a * (addAssign std es p s1).2.1.len := Nat.mul_le_mul_left _ h4
      simp only at h1
      omega

theorem reserve_slots (hm : std.Modest a b) (c : Counter T) (r : Room) (n : Nat) :
    (reserve std n (c, r)).2.2.slots ≤ max r.slots (a * (c.len + n) + b) := by
  show (Room.reserve std c.len n r).2.slots ≤ _
  rcases Room.reserve_cases std c.len n r with ⟨h1, h2⟩ | ⟨h1, n, h2, h3⟩ | ⟨h1, h2, h3⟩
  · rw [h2]; exact Nat.le_max_left _ _
  · rw [h3]; exact hm h2
  · rw [h3]; exact Nat.le_max_left _ _

theorem subStep_slots (hm : std.Modest a b) (key : T) (val : Nat) (c : Counter T) (r : Room) :
    (subStep std key val (c, r)).2.2.slots ≤ max r.slots (a * (c.len + 1) + b) := by
  unfold subStep
  cases hg : c.counter.get key with
  | none =>
    simp only []
    cases std.eager with
    | false => exact Nat.le_max_left _ _
    | true => exact reserve_slots hm c r 1
  | some cur =>
    simp only []
    by_cases h : cur ≤ val
    · rw [if_pos h]
      exact Nat.le_max_left _ _
    · rw [if_neg h]
      cases usub cur val <;> exact Nat.le_max_left _ _

theorem subAssign_slots (hm : std.Modest a b) (order : List (T × Nat)) (p : Bool) (s : State T) :
    (subAssign std order p s).2.2.slots ≤ max s.2.slots (a * (s.1.len + 1) + b) ∧
      (subAssign std order p s).2.1.len ≤ s.1.len := by
  induction order generalizing s with
  | nil => cases p <;> exact ⟨Nat.le_max_left _ _, Nat.le_refl _⟩
  | cons e es ih =>
    rw [subAssign, M.bind_run]
    have h1 := subStep_slots hm e.1 e.2 s.1 s.2
    have h2 := (subStep_later (std := std) e.1 e.2 s.1 s.2).2
    generalize subStep std e.1 e.2 s = q at h1 h2 ⊢
    obtain ⟨r, s1⟩ := q
    cases r with
    | error f => exact ⟨h1, h2⟩
    | ok u =>
      obtain ⟨h3, h4⟩ := ih s1
      refine ⟨?_, Nat.le_trans h4 h2⟩
      show (subAssign std es p s1).2.2.slots ≤ max s.2.slots (a * (s.1.len + 1) + b)
      have : a * (s1.1.len + 1) ≤ a * (s.1.len + 1) := Nat.mul_le_mul_left _ (by simp only at h2; omega)
      simp only at h1
      omega

theorem subStep_ok (key : T) (val : Nat) (c : Counter T) : (Counter.subAssignStep key val c).1 = .ok () := by
  unfold Counter.subAssignStep
  cases c.counter.get key with
  | none => rfl
  | some cur =>
    simp only []
    by_cases h : cur ≤ val
    · rw [if_pos h]
    · rw [if_neg h, usub, if_pos (by omega)]

theorem subAssign_ok (order : List (T × Nat)) (c : Counter T) : (Counter.subAssign order false c).1 = .ok () := by
  induction order generalizing c with
  | nil => rfl
  | cons e es ih =>
    rw [Counter.subAssign, M.bind_run]
    have h := subStep_ok e.1 e.2 c
    generalize Counter.subAssignStep e.1 e.2 c = q at h ⊢
    obtain ⟨r, c1⟩ := q
    simp only at h
    subst h
    exact ih c1

/-- a lazy `entry` takes no memory -/
theorem subAssign_lazy (he : std.eager = false) (order : List (T × Nat)) (p : Bool) (s : State T) :
    (subAssign std order p s).1 ≠ .error .capacityOverflow ∧ (subAssign std order p s).2.2.slots = s.2.slots ∧
      (subAssign std order p s).2.2.allocs = s.2.allocs := by
  induction order generalizing s with
  | nil => cases p <;> exact ⟨by simp [subAssign, M.throw, pure], rfl, rfl⟩
  | cons e es ih =>
    rw [subAssign, M.bind_run]
    have h : (subStep std e.1 e.2 s).1 = .ok () ∧ (subStep std e.1 e.2 s).2.2.slots = s.2.slots ∧
        (subStep std e.1 e.2 s).2.2.allocs = s.2.allocs := by
      unfold subStep
      cases s.1.counter.get e.1 with
      | none => simp only [he]; exact ⟨rfl, rfl, rfl⟩
      | some cur =>
        simp only []
        by_cases h : cur ≤ e.2
        · rw [if_pos h]; exact ⟨rfl, rfl, rfl⟩
        · rw [if_neg h, usub, if_pos (by omega)]; exact ⟨rfl, rfl, rfl⟩
    generalize subStep std e.1 e.2 s = q at h ⊢
    obtain ⟨r, s1⟩ := q
    obtain ⟨h1, h2, h3⟩ := h
    simp only at h1 h2 h3
    subst h1
    obtain ⟨i1, i2, i3⟩ := ih s1
    exact ⟨i1, i2.trans h2, i3.trans h3⟩

theorem extend_slots (hm : std.Modest a b) (hint : Nat) (xs : List T) (p : Bool) (s : State T) :
    (extend std hint xs p s).2.2.slots ≤
      max s.2.slots (a * max (s.1.len + hint) (extend std hint xs p s).2.1.len + b) ∧
      s.1.len ≤ (extend std hint xs p s).2.1.len := by
  rw [extend, M.bind_run, pushAll_eq]
  have h1 := reserve_slots hm s.1 s.2 hint
  have h2 := (reserve_later (std := std) s.1 s.2 hint).2
  change (reserve std hint s).2.2.slots ≤ _ at h1
  change (reserve std hint s).2.1 = _ at h2
  generalize reserve std hint s = q at h1 h2 ⊢
  obtain ⟨r, s1⟩ := q
  simp only at h1 h2
  have mono : ∀ x y : Nat, x ≤ y → a * x ≤ a * y := fun _ _ h => Nat.mul_le_mul_left _ h
  cases r with
  | error f =>
    refine ⟨?_, Nat.le_of_eq (by rw [h2])⟩
    have := mono _ _ (Nat.le_max_left (s.1.len + hint) s1.1.len)
    show s1.2.slots ≤ max s.2.slots (a * max (s.1.len + hint) s1.1.len + b)
    omega
  | ok u =>
    obtain ⟨h3, h4⟩ := addAssign_slots hm (ones xs) p s1
    refine ⟨?_, by rw [← h2]; exact h4⟩
    show (addAssign std (ones xs) p s1).2.2.slots ≤
      max s.2.slots (a * max (s.1.len + hint) (addAssign std (ones xs) p s1).2.1.len + b)
    have := mono _ _ (Nat.le_max_left (s.1.len + hint) (addAssign std (ones xs) p s1).2.1.len)
    have := mono _ _ (Nat.le_max_right (s.1.len + hint) (addAssign std (ones xs) p s1).2.1.len)
    omega

theorem call_slots (hm : std.Modest a b) (call : Call T) (s : State T) :
    (call.run std s).2.2.slots ≤
      max s.2.slots (a * max (s.1.len + max call.hint 1) (call.run std s).2.1.len + b) := by
  have mono : ∀ x y : Nat, x ≤ y → a * x ≤ a * y := fun _ _ h => Nat.mul_le_mul_left _ h
  cases call with
  | push x =>
    have h := (entryAdd_slots hm x 1 s.1 s.2).1
    have := mono _ _ (Nat.le_max_right (s.1.len + 1) (entryAdd std x 1 s).2.1.len)
    show (entryAdd std x 1 s).2.2.slots ≤ max s.2.slots (a * max (s.1.len + 1) (entryAdd std x 1 s).2.1.len + b)
    change (entryAdd std x 1 s).2.2.slots ≤ max s.2.slots (a * (entryAdd std x 1 s).2.1.len + b) at h
    omega
  | extend hint xs p =>
    have h := (extend_slots hm hint xs p s).1
    show (extend std hint xs p s).2.2.slots ≤
      max s.2.slots (a * max (s.1.len + max hint 1) (extend std hint xs p s).2.1.len + b)
    have := mono (max (s.1.len + hint) (extend std hint xs p s).2.1.len)
      (max (s.1.len + max hint 1) (extend std hint xs p s).2.1.len) (by omega)
    omega
  | addAssign o p =>
    have h := (addAssign_slots hm o p s).1
    show (addAssign std o p s).2.2.slots ≤ max s.2.slots (a * max (s.1.len + 1) (addAssign std o p s).2.1.len + b)
    have := mono _ _ (Nat.le_max_right (s.1.len + 1) (addAssign std o p s).2.1.len)
    omega
  | subAssign o p =>
    have h := (subAssign_slots hm o p s).1
    show (subAssign std o p s).2.2.slots ≤ max s.2.slots (a * max (s.1.len + 1) (subAssign std o p s).2.1.len + b)
    have := mono _ _ (Nat.le_max_left (s.1.len + 1) (subAssign std o p s).2.1.len)
    omega

end
end Cnt.Mem
