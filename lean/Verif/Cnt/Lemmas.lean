import Verif.Cnt.Spec
/-!
# Lemmas about counters
-/

open Rust
namespace Cnt
open Counter

section
variable {T : Type} [DecidableEq T] [Cfg]

/-- one `+=` on an entry -/
def bump (key : T) (val : Nat) : M (Counter T) Unit := fun self =>
  let (r, m) := entryAdd self.counter key val
  (r, { self with counter := m })

theorem push_eq (x : T) : push x = bump x 1 := rfl

/-- the common shape of all counting and adding loops -/
def addLoop : List (T × Nat) → Bool → M (Counter T) Unit
  | [], panics => if panics then M.throw .user else pure ()
  | (key, val) :: rest, panics => do
    bump key val
    addLoop rest panics

/-- each item once -/
def ones (items : List T) : List (T × Nat) := items.map fun x => (x, 1)

theorem fromIterLoop_eq (items : List T) (p : Bool) : fromIterLoop items p = addLoop (ones items) p := by
  induction items with
  | nil => rfl
  | cons x xs ih => simp only [fromIterLoop, ones, List.map_cons, addLoop, push_eq, ih]

theorem fromIterRefLoop_eq (items : List T) (p : Bool) :
    fromIterRefLoop items p = addLoop (ones items) p := by
  induction items with
  | nil => rfl
  | cons x xs ih => simp only [fromIterRefLoop, ones, List.map_cons, addLoop, push_eq, ih]

theorem extend_eq (items : List T) (p : Bool) : extend items p = addLoop (ones items) p := by
  induction items with
  | nil => rfl
  | cons x xs ih => simp only [extend, ones, List.map_cons, addLoop, push_eq, ih]

theorem extendRef_eq (items : List T) (p : Bool) : extendRef items p = addLoop (ones items) p := by
  induction items with
  | nil => rfl
  | cons x xs ih => simp only [extendRef, ones, List.map_cons, addLoop, push_eq, ih]

theorem addAssign_eq (order : List (T × Nat)) (p : Bool) : addAssign order p = addLoop order p := by
  induction order with
  | nil => rfl
  | cons x xs ih => simp only [addAssign, addLoop, ih]; rfl

theorem addAssignRef_eq (order : List (T × Nat)) (p : Bool) : addAssignRef order p = addLoop order p := by
  induction order with
  | nil => rfl
  | cons x xs ih => simp only [addAssignRef, addLoop, ih]; rfl

theorem addRefLoop_eq (order : List (T × Nat)) (p : Bool) : addRefLoop order p = addLoop order p := by
  induction order with
  | nil => rfl
  | cons x xs ih => simp only [addRefLoop, addLoop, ih]; rfl

theorem subAssignRef_eq (order : List (T × Nat)) (p : Bool) : subAssignRef order p = subAssign order p := by
  induction order with
  | nil => rfl
  | cons x xs ih => simp only [subAssignRef, subAssign, ih]; rfl

theorem subRefLoop_eq (order : List (T × Nat)) (p : Bool) : subRefLoop order p = subAssign order p := by
  induction order with
  | nil => rfl
  | cons x xs ih => simp only [subRefLoop, subAssign, ih]; rfl

theorem add_def (order : List (T × Nat)) (a : Counter T) : add order a = owned (addLoop order false) a := by
  rw [add, addAssign_eq]
theorem addRef_def (order : List (T × Nat)) (a : Counter T) :
    addRef order a = owned (addLoop order false) a := by
  rw [addRef, addRefLoop_eq]
theorem sub_def (order : List (T × Nat)) (a : Counter T) : sub order a = owned (subAssign order false) a := rfl
theorem subRef_def (order : List (T × Nat)) (a : Counter T) : subRef order a = owned (subAssign order false) a := by
  rw [subRef, subRefLoop_eq]

/-! ### one `+=` -/

theorem mult_of_some {c : Counter T} {k : T} {n : Nat} (h : c.get k = some n) : mult c k = n := by
  simp [mult, h]
theorem mult_of_none {c : Counter T} {k : T} (h : c.get k = none) : mult c k = 0 := by
  simp [mult, h]

theorem mult_le {c : Counter T} (h : Valid c) (k : T) : mult c k ≤ usizeMax := by
  cases hg : c.get k with
  | none => rw [mult_of_none hg]; omega
  | some n => rw [mult_of_some hg]; exact h.2 k n hg

theorem valid_new : Valid (Counter.new : Counter T) :=
  ⟨HMap.valid_empty, fun _ _ h => by cases h⟩

theorem noZero_new : NoZero (Counter.new : Counter T) := fun _ h => by cases h

theorem valid_insert {c : Counter T} (h : Valid c) {k : T} {n : Nat} (hn : n ≤ usizeMax) :
    Valid { counter := c.counter.insert k n } := by
  refine ⟨HMap.valid_insert h.1, fun k' m hm => ?_⟩
  rw [Counter.get, HMap.get_insert] at hm
  split at hm
  · cases hm; exact hn
  · exact h.2 _ _ hm

theorem valid_remove {c : Counter T} (h : Valid c) {k : T} :
    Valid { counter := c.counter.remove k } := by
  refine ⟨HMap.valid_remove h.1, fun k' m hm => ?_⟩
  rw [Counter.get, HMap.get_remove] at hm
  split at hm
  · cases hm
  · exact h.2 _ _ hm

theorem bump_ok {c : Counter T} (h : Valid c) {key : T} {val : Nat}
    (hv : (Cfg.overflowChecks = false) ∨ mult c key + val ≤ usizeMax) :
    ∃ c', bump key val c = (.ok (), c') ∧ Valid c' ∧
      ∀ k, c'.get k = if k = key then some ((mult c key + val) % (usizeMax + 1)) else c.get k := by
  have hu : uadd (mult c key) val = .ok ((mult c key + val) % (usizeMax + 1)) := by
    unfold uadd
    by_cases hle : mult c key + val ≤ usizeMax
    · rw [if_pos hle, Nat.mod_eq_of_lt (by omega)]
    · rcases hv with hv | hv
      · simp [hle, hv]
      · exact absurd hv hle
  have hlt : (mult c key + val) % (usizeMax + 1) ≤ usizeMax := by
    have := Nat.mod_lt (mult c key + val) (y := usizeMax + 1) (by omega)
    omega
  cases hg : c.counter.get key with
  | some n =>
    have hm : mult c key = n := mult_of_some hg
    rw [hm] at hu hlt ⊢
    refine ⟨{ counter := c.counter.insert key ((n + val) % (usizeMax + 1)) }, ?_, valid_insert h hlt, ?_⟩
    · simp [bump, entryAdd, HMap.orInsert, hg, hu]
    · intro k; simp only [Counter.get, HMap.get_insert]
  | none =>
    have hm : mult c key = 0 := mult_of_none hg
    rw [hm] at hu hlt ⊢
    refine ⟨{ counter := (c.counter.insert key 0).insert key ((0 + val) % (usizeMax + 1)) }, ?_,
      valid_insert (c := { counter := c.counter.insert key 0 }) (valid_insert h (Nat.zero_le _)) hlt, ?_⟩
    · simp [bump, entryAdd, HMap.orInsert, hg, hu]
    · intro k; simp only [Counter.get, HMap.get_insert]; split <;> rfl

theorem bump_overflow {c : Counter T} {key : T} {val : Nat} (hval : val ≤ usizeMax)
    (hc : Cfg.overflowChecks = true) (hv : usizeMax < mult c key + val) :
    bump key val c = (.error .overflow, c) := by
  cases hg : c.counter.get key with
  | none =>
    have hm : mult c key = 0 := mult_of_none hg
    omega
  | some n =>
    have hm : mult c key = n := mult_of_some hg
    have hu : uadd n val = .error .overflow := by
      unfold uadd
      rw [if_neg (by omega), if_pos hc]
    simp [bump, entryAdd, HMap.orInsert, hg, hu]

/-! ### the loop -/

/-- the total a list of pairs gives to a key -/
def sumFor (k : T) : List (T × Nat) → Nat
  | [] => 0
  | e :: es => (if e.1 = k then e.2 else 0) + sumFor k es

theorem sumFor_not_mem {k : T} {ps : List (T × Nat)} (h : k ∉ ps.map (·.1)) : sumFor k ps = 0 := by
  induction ps with
  | nil => rfl
  | cons e es ih =>
    simp only [List.map_cons, List.mem_cons, not_or] at h
    simp [sumFor, ih h.2, Ne.symm h.1]

theorem sumFor_append (k : T) (xs ys : List (T × Nat)) : sumFor k (xs ++ ys) = sumFor k xs + sumFor k ys := by
  induction xs with
  | nil => simp [sumFor]
  | cons x xs ih => simp only [List.cons_append, sumFor, ih]; omega

theorem sumFor_perm {k : T} {ps qs : List (T × Nat)} (h : ps.Perm qs) : sumFor k ps = sumFor k qs := by
  induction h with
  | nil => rfl
  | cons e _ ih => simp [sumFor, ih]
  | swap e f _ => simp only [sumFor]; omega
  | trans _ _ ih1 ih2 => rw [ih1, ih2]

theorem sumFor_lookup {ps : List (T × Nat)} (h : (ps.map (·.1)).Nodup) (k : T) :
    sumFor k ps = (HMap.lookup k ps).getD 0 := by
  induction ps with
  | nil => rfl
  | cons e es ih =>
    simp only [List.map_cons, List.nodup_cons] at h
    simp only [sumFor, HMap.lookup]
    split
    · rename_i he
      rw [sumFor_not_mem (he ▸ h.1)]; simp
    · simpa using ih h.2

theorem sumFor_ones (k : T) (items : List T) : sumFor k (ones items) = items.count k := by
  induction items with
  | nil => rfl
  | cons x xs ih =>
    simp only [ones, List.map_cons, sumFor, List.count_cons] at ih ⊢
    rw [ih]
    by_cases h : x = k <;> simp [h]; omega

theorem keys_ones (items : List T) : (ones items).map (·.1) = items := by
  simp [ones, Function.comp_def]

theorem iterOf_sumFor {b : Counter T} (hb : Valid b) {order : List (T × Nat)} (ho : IterOf order b) (k : T) :
    sumFor k order = mult b k := by
  rw [sumFor_perm ho, sumFor_lookup hb.1]; rfl

theorem iterOf_keys {b : Counter T} {order : List (T × Nat)} (ho : IterOf order b) (k : T) :
    k ∈ order.map (·.1) ↔ (b.get k).isSome := by
  rw [(ho.map (·.1)).mem_iff]; exact HMap.mem_keys

theorem iterOf_le {b : Counter T} (hb : Valid b) {order : List (T × Nat)} (ho : IterOf order b) :
    ∀ e ∈ order, e.2 ≤ usizeMax := by
  intro e he
  exact hb.2 e.1 e.2 ((HMap.get_eq_some hb.1).mpr (ho.mem_iff.mp he))

theorem iterOf_pos {b : Counter T} (hb : Valid b) (hz : NoZero b) {order : List (T × Nat)}
    (ho : IterOf order b) : ∀ e ∈ order, 0 < e.2 := by
  intro e he
  have h := (HMap.get_eq_some hb.1).mpr (ho.mem_iff.mp he)
  rcases Nat.eq_zero_or_pos e.2 with h0 | h0
  · rw [h0] at h; exact absurd h (hz e.1)
  · exact h0

theorem iterOf_nodup {b : Counter T} (hb : Valid b) {order : List (T × Nat)}
    (ho : IterOf order b) : (order.map (·.1)).Nodup :=
  (List.Perm.nodup_iff (ho.map Prod.fst)).mpr hb.1

theorem iterUpTo_full {b : Counter T} {order : List (T × Nat)} (ho : IterOf order b) (p : Bool) :
    IterUpTo p order b := ⟨[], by rw [List.append_nil]; exact ho, fun _ => rfl⟩

theorem iterUpTo_le {b : Counter T} (hb : Valid b) {p : Bool} {order : List (T × Nat)} (ho : IterUpTo p order b) :
    ∀ e ∈ order, e.2 ≤ usizeMax := by
  obtain ⟨rest, h, _⟩ := ho
  exact fun e he => iterOf_le hb h e (List.mem_append_left _ he)

theorem iterUpTo_pos {b : Counter T} (hb : Valid b) (hz : NoZero b) {p : Bool} {order : List (T × Nat)}
    (ho : IterUpTo p order b) : ∀ e ∈ order, 0 < e.2 := by
  obtain ⟨rest, h, _⟩ := ho
  exact fun e he => iterOf_pos hb hz h e (List.mem_append_left _ he)

/-- a key is reached with its whole count or not at all -/
theorem iterUpTo_sumFor {b : Counter T} (hb : Valid b) {p : Bool} {order : List (T × Nat)}
    (ho : IterUpTo p order b) {k : T} (hk : k ∈ order.map (·.1)) : (b.get k).isSome ∧ sumFor k order = mult b k := by
  obtain ⟨rest, h, _⟩ := ho
  have hnd := iterOf_nodup hb h
  refine ⟨(iterOf_keys h k).mp (by rw [List.map_append]; exact List.mem_append_left _ hk), ?_⟩
  rw [← iterOf_sumFor hb h k, sumFor_append]
  rw [List.map_append, List.nodup_append] at hnd
  rw [sumFor_not_mem fun hm => hnd.2.2 k hk k hm rfl, Nat.add_zero]

/-- what the loops return when nothing overflows -/
def endOf (p : Bool) : Except Fault Unit := if p then .error .user else .ok ()

/-- The loop finishes iff no key exceeds `usize::MAX` or the build wraps; the counts are the sums. -/
theorem addLoop_ok (ps : List (T × Nat)) (p : Bool) {c : Counter T} (h : Valid c)
    (hps : ∀ e ∈ ps, e.2 ≤ usizeMax)
    (hv : (Cfg.overflowChecks = false) ∨ ∀ k, mult c k + sumFor k ps ≤ usizeMax) :
    ∃ c', addLoop ps p c = (endOf p, c') ∧ Valid c' ∧
      ∀ k, c'.get k = if k ∈ ps.map (·.1) then some ((mult c k + sumFor k ps) % (usizeMax + 1))
        else c.get k := by
  induction ps generalizing c with
  | nil =>
    refine ⟨c, ?_, h, fun k => by simp⟩
    cases p <;> rfl
  | cons e es ih =>
    obtain ⟨key, val⟩ := e
    obtain ⟨c1, hb, h1, hg1⟩ := bump_ok h (key := key) (val := val) (by
      rcases hv with hv | hv
      · exact .inl hv
      · have := hv key
        simp only [sumFor, if_true] at this
        exact .inr (by omega))
    have hm1 : ∀ k, mult c1 k = if k = key then (mult c key + val) % (usizeMax + 1) else mult c k := by
      intro k; simp only [mult, hg1]; split <;> rfl
    obtain ⟨c', hl, h', hg'⟩ := ih h1 (fun e he => hps e (List.mem_cons_of_mem _ he)) (by
      rcases hv with hv | hv
      · exact .inl hv
      · refine .inr fun k => ?_
        have := hv k
        simp only [sumFor] at this
        rw [hm1]
        split
        · rename_i hk; subst hk
          simp only [if_true] at this
          have hle := Nat.mod_le (mult c k + val) (usizeMax + 1)
          omega
        · omega)
    refine ⟨c', ?_, h', fun k => ?_⟩
    · rw [addLoop, M.bind_ok hb, hl]
    · rw [hg', hm1, hg1]
      by_cases hk : k = key
      · subst hk
        simp only [if_true, List.map_cons, List.mem_cons, true_or, sumFor]
        by_cases hmem : k ∈ es.map (·.1)
        · rw [if_pos hmem, Nat.mod_add_mod]; congr 2; omega
        · rw [if_neg hmem, sumFor_not_mem hmem]; simp
      · simp only [if_neg hk, List.map_cons, List.mem_cons, hk, false_or, sumFor, Ne.symm hk, if_false,
          Nat.zero_add]

/-- With overflow checks the loop panics when some key exceeds `usize::MAX`; every key then holds its old
count or a partial sum. -/
theorem addLoop_overflow (ps : List (T × Nat)) (p : Bool) {c : Counter T} (h : Valid c)
    (hps : ∀ e ∈ ps, e.2 ≤ usizeMax) (hc : Cfg.overflowChecks = true)
    (hv : ∃ k, usizeMax < mult c k + sumFor k ps) :
    ∃ c', addLoop ps p c = (.error .overflow, c') ∧ Valid c' ∧
      (∀ k, ∃ m ≤ sumFor k ps, mult c' k = mult c k + m) ∧
      ∃ done key val rest, ps = done ++ (key, val) :: rest ∧ usizeMax < mult c key + sumFor key done + val ∧
        ∀ k, c'.get k = if k ∈ done.map (·.1) then some (mult c k + sumFor k done) else c.get k := by
  induction ps generalizing c with
  | nil =>
    obtain ⟨k, hk⟩ := hv
    have := mult_le h k
    simp only [sumFor] at hk
    omega
  | cons e es ih =>
    obtain ⟨key, val⟩ := e
    have hval : val ≤ usizeMax := hps (key, val) List.mem_cons_self
    by_cases ho : mult c key + val ≤ usizeMax
    · obtain ⟨c1, hb, h1, hg1⟩ := bump_ok h (key := key) (val := val) (.inr ho)
      rw [Nat.mod_eq_of_lt (by omega)] at hg1
      have hm1 : ∀ k, mult c1 k = if k = key then mult c key + val else mult c k := by
        intro k; simp only [mult, hg1]; split <;> rfl
      obtain ⟨c', hl, h', hs, done, key', val', rest, hps', hex, hg'⟩ := ih h1
        (fun e he => hps e (List.mem_cons_of_mem _ he)) (by
          obtain ⟨k, hk⟩ := hv
          refine ⟨k, ?_⟩
          simp only [sumFor] at hk
          rw [hm1]
          by_cases hkk : k = key
          · subst hkk; simp only [if_true] at hk ⊢; omega
          · simp only [if_neg hkk, if_neg (Ne.symm hkk)] at hk ⊢; omega)
      refine ⟨c', ?_, h', fun k => ?_, (key, val) :: done, key', val', rest, by rw [hps']; rfl, ?_, ?_⟩
      · rw [addLoop, M.bind_ok hb, hl]
      · obtain ⟨m, hm, hmm⟩ := hs k
        rw [hm1] at hmm
        by_cases hk : k = key
        · subst hk
          simp only [if_true, sumFor] at hmm ⊢
          exact ⟨val + m, by omega, by omega⟩
        · simp only [if_neg hk, if_neg (Ne.symm hk), sumFor] at hmm ⊢
          exact ⟨m, by omega, by omega⟩
      · rw [hm1] at hex
        by_cases hk : key' = key
        · subst hk
          simp only [if_true, sumFor] at hex ⊢
          omega
        · simp only [if_neg hk, if_neg (Ne.symm hk), sumFor] at hex ⊢
          omega
      · intro k
        rw [hg', hm1, hg1]
        by_cases hk : k = key
        · subst hk
          simp only [if_true, List.map_cons, List.mem_cons, true_or, sumFor]
          by_cases hmem : k ∈ done.map (·.1)
          · rw [if_pos hmem]; congr 1; omega
          · rw [if_neg hmem, sumFor_not_mem hmem]; simp
        · simp only [if_neg hk, List.map_cons, List.mem_cons, hk, false_or, sumFor, Ne.symm hk, if_false,
            Nat.zero_add]
    · have hb := bump_overflow (c := c) (key := key) (val := val) hval hc (by omega)
      refine ⟨c, ?_, h, fun k => ⟨0, Nat.zero_le _, rfl⟩, [], key, val, es, rfl, ?_, fun k => by simp⟩
      · rw [addLoop, M.bind_error hb]
      · simp only [List.nil_append, sumFor]; omega

theorem addLoop_valid (ps : List (T × Nat)) (p : Bool) {c : Counter T} (h : Valid c)
    (hps : ∀ e ∈ ps, e.2 ≤ usizeMax) : Valid (addLoop ps p c).2 := by
  by_cases hv : (Cfg.overflowChecks = false) ∨ ∀ k, mult c k + sumFor k ps ≤ usizeMax
  · obtain ⟨c', h1, h2, _⟩ := addLoop_ok ps p h hps hv
    rw [h1]; exact h2
  · simp only [not_or, not_forall, Bool.not_eq_false, Nat.not_le] at hv
    obtain ⟨c', h1, h2, _⟩ := addLoop_overflow ps p h hps hv.1 hv.2
    rw [h1]; exact h2

/-! ### subtraction -/

theorem subAssignStep_ok {c : Counter T} (h : Valid c) (key : T) (val : Nat) :
    ∃ c', subAssignStep key val c = (.ok (), c') ∧ Valid c' ∧
      ∀ k, c'.get k = if k = key then (if mult c key ≤ val then none else some (mult c key - val))
        else c.get k := by
  cases hg : c.counter.get key with
  | none =>
    have hm : mult c key = 0 := mult_of_none hg
    refine ⟨c, by simp [subAssignStep, hg], h, fun k => ?_⟩
    split
    · rename_i hk; subst hk
      rw [hm, if_pos (Nat.zero_le _)]; exact hg
    · rfl
  | some n =>
    have hm : mult c key = n := mult_of_some hg
    rw [hm]
    by_cases hle : n ≤ val
    · refine ⟨{ counter := c.counter.remove key }, by simp [subAssignStep, hg, hle], valid_remove h,
        fun k => ?_⟩
      simp only [Counter.get, HMap.get_remove, if_pos hle]
    · refine ⟨{ counter := c.counter.insert key (n - val) }, ?_, valid_insert h ?_, fun k => ?_⟩
      · simp [subAssignStep, hg, hle, usub_ok (Nat.le_of_lt (Nat.lt_of_not_le hle))]
      · have := h.2 key n hg; omega
      · simp only [Counter.get, HMap.get_insert, if_neg hle]

theorem subAssign_ok (ps : List (T × Nat)) (p : Bool) {c : Counter T} (h : Valid c) :
    ∃ c', subAssign ps p c = (endOf p, c') ∧ Valid c' ∧
      ∀ k, c'.get k = if k ∈ ps.map (·.1) then
          (if mult c k ≤ sumFor k ps then none else some (mult c k - sumFor k ps))
        else c.get k := by
  induction ps generalizing c with
  | nil => exact ⟨c, by cases p <;> rfl, h, fun k => by simp⟩
  | cons e es ih =>
    obtain ⟨key, val⟩ := e
    obtain ⟨c1, hb, h1, hg1⟩ := subAssignStep_ok h key val
    obtain ⟨c', hl, h', hg'⟩ := ih h1
    have hm1 : ∀ k, mult c1 k = if k = key then mult c key - val else mult c k := by
      intro k
      rw [mult, hg1]
      by_cases hk : k = key
      · rw [if_pos hk, if_pos hk]
        by_cases hle : mult c key ≤ val
        · rw [if_pos hle]; simp only [Option.getD_none]; omega
        · rw [if_neg hle]; rfl
      · rw [if_neg hk, if_neg hk]; rfl
    refine ⟨c', by rw [subAssign, M.bind_ok hb, hl], h', fun k => ?_⟩
    rw [hg', hm1, hg1]
    by_cases hk : k = key
    · subst hk
      simp only [if_true, List.map_cons, List.mem_cons, true_or, sumFor]
      by_cases hmem : k ∈ es.map (·.1)
      · rw [if_pos hmem]
        by_cases hle : mult c k ≤ val + sumFor k es
        · rw [if_pos hle, if_pos (by omega)]
        · rw [if_neg hle, if_neg (by omega)]; congr 1; omega
      · rw [if_neg hmem, sumFor_not_mem hmem]; rfl
    · simp only [if_neg hk, List.map_cons, List.mem_cons, hk, false_or, sumFor, Ne.symm hk, if_false,
        Nat.zero_add]

/-! ### whole operations -/

theorem owned_ok {α : Type} {m : M (Counter T) α} {a c : Counter T} :
    owned m a = .ok c ↔ ∃ x, m a = (.ok x, c) := by
  unfold owned
  rcases hm : m a with ⟨r, s⟩
  cases r <;> simp

theorem owned_of_ok {α : Type} {m : M (Counter T) α} {a c : Counter T} {x : α} (h : m a = (.ok x, c)) :
    owned m a = .ok c := owned_ok.mpr ⟨x, h⟩

theorem owned_of_error {α : Type} {m : M (Counter T) α} {a c : Counter T} {e : Fault}
    (h : m a = (.error e, c)) : owned m a = .error e := by
  unfold owned; rw [h]

/-- what `a + b` looks like -/
def IsSum (a b c : Counter T) : Prop :=
  Valid c ∧ ∀ k, c.get k =
    if (b.get k).isSome then some ((mult a k + mult b k) % (usizeMax + 1)) else a.get k

/-- the sum does not overflow, or the build wraps -/
def Fits (a b : Counter T) : Prop :=
  (Cfg.overflowChecks = false) ∨ ∀ k, mult a k + mult b k ≤ usizeMax

theorem addLoop_fits {a b : Counter T} (ha : Valid a) (hb : Valid b) {order : List (T × Nat)}
    (ho : IterOf order b) (h : Fits a b) : ∃ c, addLoop order false a = (.ok (), c) ∧ IsSum a b c := by
  obtain ⟨c, h1, h2, h3⟩ := addLoop_ok order false ha (iterOf_le hb ho)
    (by simp only [iterOf_sumFor hb ho]; exact h)
  refine ⟨c, h1, h2, fun k => ?_⟩
  rw [h3]
  simp only [iterOf_keys ho, iterOf_sumFor hb ho]

theorem addLoop_not_fits {a b : Counter T} (ha : Valid a) (hb : Valid b) {order : List (T × Nat)}
    (ho : IterOf order b) (h : ¬ Fits a b) : ∃ c, addLoop order false a = (.error .overflow, c) ∧ Valid c ∧
      ∀ k, c.get k = a.get k ∨ (b.get k).isSome ∧ c.get k = some (mult a k + mult b k) := by
  simp only [Fits, not_or, not_forall, Nat.not_le, Bool.not_eq_false] at h
  obtain ⟨c, h1, h2, h3, done, key, val, rest, h4, h5, h6⟩ :=
    addLoop_overflow order false ha (iterOf_le hb ho) h.1 (by simpa only [iterOf_sumFor hb ho] using h.2)
  refine ⟨c, h1, h2, fun k => ?_⟩
  rw [h6]
  by_cases hk : k ∈ done.map (·.1)
  · rw [if_pos hk]
    have hnd := iterOf_nodup hb ho
    refine .inr ⟨(iterOf_keys ho k).mp (by rw [h4, List.map_append]; exact List.mem_append_left _ hk), ?_⟩
    rw [← iterOf_sumFor hb ho k, h4]
    rw [h4, List.map_append, List.nodup_append] at hnd
    have hnk : k ∉ ((key, val) :: rest).map (·.1) := fun hm => hnd.2.2 k hk k hm rfl
    rw [sumFor_append, sumFor_not_mem hnk, Nat.add_zero]
  · rw [if_neg hk]; exact .inl rfl

theorem IsSum.mult {a b c : Counter T} (ha : Valid a) (h : IsSum a b c) (k : T) :
    mult c k = (mult a k + mult b k) % (usizeMax + 1) := by
  have hle := mult_le ha k
  rw [Cnt.mult, h.2]
  cases hb : b.get k with
  | some n => simp
  | none =>
    rw [mult_of_none hb, Nat.add_zero, Nat.mod_eq_of_lt (by omega)]
    rfl

theorem IsSum.isSome {a b c : Counter T} (h : IsSum a b c) (k : T) :
    (c.get k).isSome = ((a.get k).isSome || (b.get k).isSome) := by
  rw [h.2]
  cases b.get k <;> simp

theorem mult_fits {a b : Counter T} (hc : Cfg.overflowChecks = true) (h : Fits a b) (k : T) :
    (mult a k + mult b k) % (usizeMax + 1) = mult a k + mult b k := by
  rcases h with h | h
  · rw [hc] at h; cases h
  · exact Nat.mod_eq_of_lt (by have := h k; omega)

theorem get_eq_of {a b : Counter T} (h1 : ∀ k, (a.get k).isSome = (b.get k).isSome)
    (h2 : ∀ k, mult a k = mult b k) (k : T) : a.get k = b.get k := by
  have e1 := h1 k
  have e2 := h2 k
  simp only [mult] at e2
  cases ha : a.get k <;> cases hb : b.get k <;> simp_all

theorem add_iff {a b : Counter T} (ha : Valid a) (hb : Valid b) {order : List (T × Nat)}
    (ho : IterOf order b) {c : Counter T} (h : add order a = .ok c) : Fits a b ∧ IsSum a b c := by
  rw [add_def] at h
  by_cases hf : Fits a b
  · obtain ⟨c', h1, h2⟩ := addLoop_fits ha hb ho hf
    rw [owned_of_ok h1] at h
    cases h
    exact ⟨hf, h2⟩
  · obtain ⟨c', h1, _⟩ := addLoop_not_fits ha hb ho hf
    rw [owned_of_error h1] at h
    cases h

theorem add_fits {a b : Counter T} (ha : Valid a) (hb : Valid b) {order : List (T × Nat)}
    (ho : IterOf order b) (h : Fits a b) : ∃ c, add order a = .ok c ∧ IsSum a b c := by
  obtain ⟨c, h1, h2⟩ := addLoop_fits ha hb ho h
  exact ⟨c, by rw [add_def, owned_of_ok h1], h2⟩

/-- what `a - b` looks like -/
def IsDiff (a b c : Counter T) : Prop :=
  Valid c ∧ ∀ k, c.get k =
    if (b.get k).isSome then (if mult a k ≤ mult b k then none else some (mult a k - mult b k))
    else a.get k

theorem subAssign_diff {a b : Counter T} (ha : Valid a) (hb : Valid b) {order : List (T × Nat)}
    (ho : IterOf order b) : ∃ c, subAssign order false a = (.ok (), c) ∧ IsDiff a b c := by
  obtain ⟨c, h1, h2, h3⟩ := subAssign_ok order false ha
  refine ⟨c, h1, h2, fun k => ?_⟩
  rw [h3]
  simp only [iterOf_keys ho, iterOf_sumFor hb ho]

theorem sub_diff {a b : Counter T} (ha : Valid a) (hb : Valid b) {order : List (T × Nat)}
    (ho : IterOf order b) : ∃ c, sub order a = .ok c ∧ IsDiff a b c := by
  obtain ⟨c, h1, h2⟩ := subAssign_diff ha hb ho
  exact ⟨c, by rw [sub_def, owned_of_ok h1], h2⟩

theorem IsDiff.mult {a b c : Counter T} (h : IsDiff a b c) (k : T) : mult c k = mult a k - mult b k := by
  rw [Cnt.mult, h.2]
  cases hb : b.get k with
  | none => rw [mult_of_none hb]; simp [Cnt.mult]
  | some n =>
    rw [mult_of_some hb]
    simp only [Option.isSome_some, if_true]
    split
    · simp only [Option.getD_none]; omega
    · rfl

theorem IsDiff.noZero {a b c : Counter T} (h : IsDiff a b c) (hz : NoZero a) : NoZero c := by
  intro k hk
  rw [h.2] at hk
  split at hk
  · split at hk
    · cases hk
    · simp only [Option.some.injEq] at hk; omega
  · exact hz k hk

/-- subtracting stores no zero, also when it is cut short -/
theorem subAssign_noZero (ps : List (T × Nat)) (p : Bool) {c : Counter T} (h : Valid c) (hz : NoZero c) :
    NoZero (subAssign ps p c).2 := by
  obtain ⟨c', h1, _, h3⟩ := subAssign_ok ps p h
  rw [h1]
  intro k hk
  rw [h3] at hk
  split at hk
  · split at hk
    · cases hk
    · simp only [Option.some.injEq] at hk; omega
  · exact hz k hk

/-- adding positive counts keeps a checked counter free of zeros, also when it panics -/
theorem addLoop_noZero (hc : Cfg.overflowChecks = true) (ps : List (T × Nat)) (p : Bool) {c : Counter T}
    (h : Valid c) (hz : NoZero c) (hps : ∀ e ∈ ps, 0 < e.2 ∧ e.2 ≤ usizeMax) : NoZero (addLoop ps p c).2 := by
  induction ps generalizing c with
  | nil => cases p <;> exact hz
  | cons e es ih =>
    obtain ⟨key, val⟩ := e
    have hval := hps (key, val) List.mem_cons_self
    rw [addLoop]
    by_cases ho : mult c key + val ≤ usizeMax
    · obtain ⟨c1, hb, h1, hg1⟩ := bump_ok h (key := key) (val := val) (.inr ho)
      rw [M.bind_ok hb]
      refine ih h1 (fun k hk => ?_) fun e he => hps e (List.mem_cons_of_mem _ he)
      rw [hg1] at hk
      split at hk
      · rw [Nat.mod_eq_of_lt (by omega)] at hk
        simp only [Option.some.injEq] at hk
        simp only at hval
        omega
      · exact hz k hk
    · have hb := bump_overflow (c := c) (key := key) (val := val) hval.2 hc (by omega)
      rw [M.bind_error hb]
      exact hz

theorem ones_le (items : List T) : ∀ e ∈ ones items, 0 < e.2 ∧ e.2 ≤ usizeMax := by
  intro e he
  obtain ⟨x, _, rfl⟩ := List.mem_map.mp he
  have h1 := two_isizeMax
  have h2 := isizeMax_pos
  exact ⟨Nat.one_pos, by show 1 ≤ usizeMax; omega⟩

theorem push_as_loop (x : T) (a : Counter T) : addLoop (ones [x]) false a = push x a := by
  show ((push x : M (Counter T) Unit) >>= fun _ => pure ()) a = _
  rw [M.bind_run]; rcases push x a with ⟨r, s⟩; cases r <;> rfl

theorem built_valid {c : Counter T} (h : Built c) : Valid c := by
  induction h with
  | new => exact valid_new
  | @fromIter items p c h =>
    rw [Counter.fromIter, fromIterLoop_eq] at h
    obtain ⟨x, hx⟩ := owned_ok.mp h
    have := addLoop_valid (ones items) p valid_new fun e he => (ones_le items e he).2
    rw [hx] at this; exact this
  | @fromIterRef items p c h =>
    rw [Counter.fromIterRef, fromIterRefLoop_eq] at h
    obtain ⟨x, hx⟩ := owned_ok.mp h
    have := addLoop_valid (ones items) p valid_new fun e he => (ones_le items e he).2
    rw [hx] at this; exact this
  | @push a r c x _ h ih =>
    have := addLoop_valid (ones [x]) false ih fun e he => (ones_le [x] e he).2
    rw [push_as_loop, h] at this; exact this
  | @extend a r c items p _ h ih =>
    rw [extend_eq] at h
    have := addLoop_valid (ones items) p ih fun e he => (ones_le items e he).2
    rw [h] at this; exact this
  | @extendRef a r c items p _ h ih =>
    rw [extendRef_eq] at h
    have := addLoop_valid (ones items) p ih fun e he => (ones_le items e he).2
    rw [h] at this; exact this
  | @addAssign a b order p r c _ _ ho h iha ihb =>
    rw [addAssign_eq] at h
    have := addLoop_valid order p iha (iterUpTo_le ihb ho)
    rw [h] at this; exact this
  | @subAssign a b order p r c _ _ ho h iha ihb =>
    obtain ⟨c', h1, h2, _⟩ := subAssign_ok order p iha
    rw [h1] at h; cases h; exact h2
  | @add a b order c _ _ ho h iha ihb => exact (add_iff iha ihb ho h).2.1
  | @addRef a b order c _ _ ho h iha ihb =>
    rw [addRef_def, ← add_def] at h
    exact (add_iff iha ihb ho h).2.1
  | @addAssignRef a b order p r c _ _ ho h iha ihb =>
    rw [addAssignRef_eq] at h
    have := addLoop_valid order p iha (iterUpTo_le ihb ho)
    rw [h] at this; exact this
  | @sub a b order c _ _ ho h iha ihb =>
    obtain ⟨c', h1, h2⟩ := sub_diff iha ihb ho
    rw [h1] at h; cases h; exact h2.1
  | @subRef a b order c _ _ ho h iha ihb =>
    rw [subRef_def, ← sub_def] at h
    obtain ⟨c', h1, h2⟩ := sub_diff iha ihb ho
    rw [h1] at h; cases h; exact h2.1
  | @subAssignRef a b order p r c _ _ ho h iha ihb =>
    rw [subAssignRef_eq] at h
    obtain ⟨c', h1, h2, _⟩ := subAssign_ok order p iha
    rw [h1] at h; cases h; exact h2

theorem built_noZero (hc : Cfg.overflowChecks = true) {c : Counter T} (h : Built c) : NoZero c := by
  induction h with
  | new => exact noZero_new
  | @fromIter items p c h =>
    rw [Counter.fromIter, fromIterLoop_eq] at h
    obtain ⟨x, hx⟩ := owned_ok.mp h
    have := addLoop_noZero hc (ones items) p valid_new noZero_new (ones_le items)
    rw [hx] at this; exact this
  | @fromIterRef items p c h =>
    rw [Counter.fromIterRef, fromIterRefLoop_eq] at h
    obtain ⟨x, hx⟩ := owned_ok.mp h
    have := addLoop_noZero hc (ones items) p valid_new noZero_new (ones_le items)
    rw [hx] at this; exact this
  | @push a r c x ha h ih =>
    have := addLoop_noZero hc (ones [x]) false (built_valid ha) ih (ones_le [x])
    rw [push_as_loop, h] at this; exact this
  | @extend a r c items p ha h ih =>
    rw [extend_eq] at h
    have := addLoop_noZero hc (ones items) p (built_valid ha) ih (ones_le items)
    rw [h] at this; exact this
  | @extendRef a r c items p ha h ih =>
    rw [extendRef_eq] at h
    have := addLoop_noZero hc (ones items) p (built_valid ha) ih (ones_le items)
    rw [h] at this; exact this
  | @addAssign a b order p r c ha hb ho h iha ihb =>
    rw [addAssign_eq] at h
    have := addLoop_noZero hc order p (built_valid ha) iha fun e he =>
      ⟨iterUpTo_pos (built_valid hb) ihb ho e he, iterUpTo_le (built_valid hb) ho e he⟩
    rw [h] at this; exact this
  | @subAssign a b order p r c ha hb ho h iha ihb =>
    have := subAssign_noZero order p (built_valid ha) iha
    rw [h] at this; exact this
  | @add a b order c ha hb ho h iha ihb =>
    rw [add_def] at h
    obtain ⟨x, hx⟩ := owned_ok.mp h
    have := addLoop_noZero hc order false (built_valid ha) iha fun e he =>
      ⟨iterOf_pos (built_valid hb) ihb ho e he, iterOf_le (built_valid hb) ho e he⟩
    rw [hx] at this; exact this
  | @addRef a b order c ha hb ho h iha ihb =>
    rw [addRef_def] at h
    obtain ⟨x, hx⟩ := owned_ok.mp h
    have := addLoop_noZero hc order false (built_valid ha) iha fun e he =>
      ⟨iterOf_pos (built_valid hb) ihb ho e he, iterOf_le (built_valid hb) ho e he⟩
    rw [hx] at this; exact this
  | @addAssignRef a b order p r c ha hb ho h iha ihb =>
    rw [addAssignRef_eq] at h
    have := addLoop_noZero hc order p (built_valid ha) iha fun e he =>
      ⟨iterUpTo_pos (built_valid hb) ihb ho e he, iterUpTo_le (built_valid hb) ho e he⟩
    rw [h] at this; exact this
  | @sub a b order c ha hb ho h iha ihb =>
    obtain ⟨c', h1, h2⟩ := sub_diff (built_valid ha) (built_valid hb) ho
    rw [h1] at h; cases h; exact h2.noZero iha
  | @subRef a b order c ha hb ho h iha ihb =>
    rw [subRef_def, ← sub_def] at h
    obtain ⟨c', h1, h2⟩ := sub_diff (built_valid ha) (built_valid hb) ho
    rw [h1] at h; cases h; exact h2.noZero iha
  | @subAssignRef a b order p r c ha hb ho h iha ihb =>
    rw [subAssignRef_eq] at h
    have := subAssign_noZero order p (built_valid ha) iha
    rw [h] at this; exact this

/-! ### equality -/

theorem eq_iff {a b : Counter T} (ha : Valid a) (hb : Valid b) : a.eq b = true ↔ ∀ k, a.get k = b.get k :=
  HMap.eq_iff ha.1 hb.1

/-! ### totals -/

theorem sum_perm {xs ys : List Nat} (h : xs.Perm ys) : xs.sum = ys.sum := by
  induction h with
  | nil => rfl
  | cons _ _ ih => simp [ih]
  | swap _ _ _ => simp only [List.sum_cons]; omega
  | trans _ _ h1 h2 => rw [h1, h2]

theorem sum_zero {α : Type} {f : α → Nat} {xs : List α} (h : ∀ x ∈ xs, f x = 0) : (xs.map f).sum = 0 := by
  induction xs with
  | nil => rfl
  | cons x xs ih =>
    simp only [List.map_cons, List.sum_cons, h x List.mem_cons_self,
      ih fun y hy => h y (List.mem_cons_of_mem _ hy)]

theorem sum_add {α : Type} {f g : α → Nat} (xs : List α) :
    (xs.map fun x => f x + g x).sum = (xs.map f).sum + (xs.map g).sum := by
  induction xs with
  | nil => rfl
  | cons x xs ih => simp only [List.map_cons, List.sum_cons, ih]; omega

/-- The total is the sum of the multiplicities over any list of keys covering the counter. -/
theorem total_eq {c : Counter T} (h : Valid c) {ks : List T} (hn : ks.Nodup)
    (hk : ∀ k, (c.get k).isSome → k ∈ ks) : total c = (ks.map (mult c)).sum := by
  have hp : ks.Perm (c.counter.entries.map (·.1) ++ ks.filter fun k => (c.get k).isNone) := by
    rw [List.perm_ext_iff_of_nodup hn]
    · intro k
      simp only [List.mem_append, List.mem_filter]
      rw [HMap.mem_keys]
      constructor
      · intro hm
        cases hg : c.counter.get k with
        | none => exact .inr ⟨hm, by simp [Counter.get, hg]⟩
        | some _ => exact .inl rfl
      · rintro (h1 | h1)
        · exact hk k h1
        · exact h1.1
    · rw [List.nodup_append]
      refine ⟨h.1, hn.filter _, ?_⟩
      intro a ha b hb hab
      subst hab
      rw [HMap.mem_keys] at ha
      have := (List.mem_filter.mp hb).2
      simp only [Counter.get] at this
      cases hg : c.counter.get a <;> simp [hg] at ha this
  rw [sum_perm (hp.map (mult c)), List.map_append, List.sum_append, sum_zero (xs := ks.filter _)]
  · rw [List.map_map, total, Nat.add_zero]
    congr 1
    apply List.map_congr_left
    intro e he
    exact (mult_of_some ((HMap.get_eq_some h.1).mpr he)).symm
  · intro k hk'
    have := (List.mem_filter.mp hk').2
    exact mult_of_none (by simpa using this)

/-- The number of items is the sum of their multiplicities. -/
theorem sum_count (items : List T) {ks : List T} (hn : ks.Nodup) (hk : ∀ k ∈ items, k ∈ ks) :
    (ks.map fun k => items.count k).sum = items.length := by
  induction items with
  | nil => exact sum_zero (by simp)
  | cons x xs ih =>
    have h1 : (ks.map fun k => if x = k then 1 else 0).sum = 1 := by
      have hx := hk x List.mem_cons_self
      clear ih hk
      induction ks with
      | nil => cases hx
      | cons k ks ih =>
        rw [List.nodup_cons] at hn
        rw [List.map_cons, List.sum_cons]
        by_cases hxk : x = k
        · subst hxk
          rw [if_pos rfl, sum_zero]
          intro y hy
          rw [if_neg]
          intro e; subst e; exact hn.1 hy
        · rw [if_neg hxk, ih hn.2 (by simpa [hxk] using hx)]
    have h2 : (fun k => (x :: xs).count k) = fun k => xs.count k + if x = k then 1 else 0 := by
      funext k
      rw [List.count_cons]
      simp
    rw [h2, sum_add, ih fun k hk' => hk k (List.mem_cons_of_mem _ hk'), h1, List.length_cons]

end

namespace Demo

/-- a 64-bit build with overflow checks -/
scoped instance demoCfg : Cfg := ⟨64, true, true, by decide, by decide⟩
/-- a 16-bit build that wraps around -/
def wrapCfg : Cfg := ⟨16, false, false, by decide, by decide⟩

/-- two sevens and an eight -/
def ca : Counter Nat := ⟨⟨[(7, 2), (8, 1)]⟩⟩
/-- one seven and three nines -/
def cb : Counter Nat := ⟨⟨[(9, 3), (7, 1)]⟩⟩
/-- `usize::MAX` sevens -/
def full : Counter Nat := ⟨⟨[(7, 2 ^ 64 - 1)]⟩⟩

theorem ca_valid : Valid ca := ⟨by unfold HMap.Valid; decide, fun k n h => by
  have := (HMap.get_eq_some (m := ca.counter) (by unfold HMap.Valid; decide)).mp h
  simp only [ca, List.mem_cons, Prod.mk.injEq, List.not_mem_nil, or_false] at this
  have h2 : usizeMax = 2 ^ 64 - 1 := rfl
  omega⟩
theorem cb_valid : Valid cb := ⟨by unfold HMap.Valid; decide, fun k n h => by
  have := (HMap.get_eq_some (m := cb.counter) (by unfold HMap.Valid; decide)).mp h
  simp only [cb, List.mem_cons, Prod.mk.injEq, List.not_mem_nil, or_false] at this
  have h2 : usizeMax = 2 ^ 64 - 1 := rfl
  omega⟩
theorem full_valid : Valid full := ⟨by unfold HMap.Valid; decide, fun k n h => by
  have := (HMap.get_eq_some (m := full.counter) (by unfold HMap.Valid; decide)).mp h
  simp only [full, List.mem_cons, Prod.mk.injEq, List.not_mem_nil, or_false] at this
  have h2 : usizeMax = 2 ^ 64 - 1 := rfl
  omega⟩
theorem ca_noZero : NoZero ca := fun k h => by
  have := (HMap.get_eq_some (m := ca.counter) (by unfold HMap.Valid; decide)).mp h
  simp [ca] at this
theorem ca_cb_fit (k : Nat) : mult ca k + mult cb k ≤ usizeMax := by
  have h2 : usizeMax = 2 ^ 64 - 1 := rfl
  have h1 : mult ca k ≤ 2 := by
    simp only [mult, Counter.get, HMap.get, HMap.lookup, ca]; split <;> (try split) <;> simp
  have h3 : mult cb k ≤ 3 := by
    simp only [mult, Counter.get, HMap.get, HMap.lookup, cb]; split <;> (try split) <;> simp
  omega

end Demo
end Cnt
