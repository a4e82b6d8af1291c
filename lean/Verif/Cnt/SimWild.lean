import Verif.Cnt.ModelWild
import Verif.Cnt.Props
/-!
# Counters of items with a wrong `Hash` or `Eq`: vocabulary and lemmas
-/

open Rust
namespace Cnt.Wild

variable {T : Type}

/-- the sum of all counts -/
def total (c : Counter T) : Nat := (c.counter.entries.map (·.2)).sum

/-- every count fits into a `usize` -/
def Fits [Cfg] (c : Counter T) : Prop := ∀ e ∈ c.counter.entries, e.2 ≤ usizeMax

/-- The calls that count and subtract, on one counter. Every item comes with what the table finds for it. The entries
of the other counter come in its iteration order. A `Bool` says that the user's code panics after the given items. -/
inductive Deed (T : Type)
  | push (x : T) (c : Option Nat)
  | extend (items : List (T × Option Nat)) (p : Bool)
  | add (order : List ((T × Nat) × Option Nat)) (p : Bool)
  | sub (order : List ((T × Nat) × Option Nat)) (p : Bool)

namespace Deed

/-- the items handed over to be counted, with their numbers -/
def gives : Deed T → List (T × Nat)
  | push x _ => [(x, 1)]
  | extend items _ => items.map fun e => (e.1, 1)
  | add order _ => order.map (·.1)
  | sub _ _ => []

/-- the numbers handed over to be subtracted -/
def takes : Deed T → List Nat
  | sub order _ => order.map (·.1.2)
  | _ => []

/-- whether the user's code panics -/
def panics : Deed T → Bool
  | push _ _ => false
  | extend _ p => p
  | add _ p => p
  | sub _ p => p

/-- the call on the model -/
def run [Cfg] : Deed T → M (Counter T) Unit
  | push x c => Wild.push x c
  | extend items p => Wild.extend items p
  | add order p => addAssign order p
  | sub order p => subAssign order p

/-- the numbers of the other counter fit into a `usize` -/
def Fits [Cfg] (d : Deed T) : Prop := ∀ e ∈ d.gives, e.2 ≤ usizeMax

end Deed

/-- a history of calls, panics being caught -/
def runAll [Cfg] : List (Deed T) → Counter T → List (Except Fault Unit) × Counter T
  | [], c => ([], c)
  | d :: ds, c => ((d.run c).1 :: (runAll ds (d.run c).2).1, (runAll ds (d.run c).2).2)

/-- the sum of the numbers -/
def amount (es : List (T × Nat)) : Nat := (es.map (·.2)).sum

/-! ## one entry -/

theorem search_some {c : Option Nat} {m : HMap T Nat} {i : Nat} {e : T × Nat} (h : search c m = some (i, e)) :
    m.entries[i]? = some e := by
  cases c with
  | none => cases h
  | some j =>
    unfold search at h
    simp only [Option.bind_some] at h
    cases hj : m.entries[j]? with
    | none => rw [hj] at h; cases h
    | some e' => rw [hj] at h; cases h; exact hj

theorem sum_set {es : List (T × Nat)} {i : Nat} {e : T × Nat} (h : es[i]? = some e) (f : T × Nat) :
    ((es.set i f).map (·.2)).sum + e.2 = (es.map (·.2)).sum + f.2 := by
  induction es generalizing i with
  | nil => cases h
  | cons a es ih =>
    cases i with
    | zero => cases h; simp only [List.set_cons_zero, List.map_cons, List.sum_cons]; omega
    | succ i =>
      have := ih (i := i) h
      simp only [List.set_cons_succ, List.map_cons, List.sum_cons]; omega

theorem sum_eraseIdx {es : List (T × Nat)} {i : Nat} {e : T × Nat} (h : es[i]? = some e) :
    ((es.eraseIdx i).map (·.2)).sum + e.2 = (es.map (·.2)).sum := by
  induction es generalizing i with
  | nil => cases h
  | cons a es ih =>
    cases i with
    | zero => cases h; simp only [List.eraseIdx_cons_zero, List.map_cons, List.sum_cons]; omega
    | succ i =>
      have := ih (i := i) h
      simp only [List.eraseIdx_cons_succ, List.map_cons, List.sum_cons]; omega

variable [Cfg]

/-- What one addition to an entry does. -/
theorem entryAdd_cases (m : HMap T Nat) (key : T) (c : Option Nat) {val : Nat} (hv : val ≤ usizeMax)
    (hf : Fits ⟨m⟩) :
    (∃ m', entryAdd m key c val = (.ok (), m') ∧ Fits ⟨m'⟩ ∧
      (∀ e ∈ m'.entries, e.1 = key ∨ e.1 ∈ m.entries.map (·.1)) ∧
      total ⟨m'⟩ % (usizeMax + 1) = (total ⟨m⟩ + val) % (usizeMax + 1) ∧
      (Cfg.overflowChecks = true → total ⟨m'⟩ = total ⟨m⟩ + val ∧
        (0 < val → (∀ e ∈ m.entries, 0 < e.2) → ∀ e ∈ m'.entries, 0 < e.2))) ∨
    (Cfg.overflowChecks = true ∧ entryAdd m key c val = (.error .overflow, m) ∧
      ∃ e ∈ m.entries, usizeMax < e.2 + val) := by
  unfold entryAdd
  cases hs : search c m with
  | none =>
    left
    refine ⟨⟨(key, val) :: m.entries⟩, ?_, ?_, ?_, ?_, ?_⟩
    · simp only [uadd_ok (a := 0) (b := val) (by omega), Nat.zero_add]
    · intro e he
      rcases List.mem_cons.mp he with rfl | he
      · exact hv
      · exact hf e he
    · intro e he
      rcases List.mem_cons.mp he with rfl | he
      · exact .inl rfl
      · exact .inr (List.mem_map_of_mem he)
    · have : total ⟨⟨(key, val) :: m.entries⟩⟩ = total ⟨m⟩ + val := by
        unfold total; simp only [List.map_cons, List.sum_cons]; omega
      rw [this]
    · intro _
      refine ⟨by unfold total; simp only [List.map_cons, List.sum_cons]; omega, ?_⟩
      intro h0 hp e he
      rcases List.mem_cons.mp he with rfl | he
      · exact h0
      · exact hp e he
  | some q =>
    obtain ⟨i, e⟩ := q
    have hi := search_some hs
    have hm := List.mem_of_getElem? hi
    have hsum := fun f => sum_set hi f
    by_cases ho : e.2 + val ≤ usizeMax
    · left
      refine ⟨⟨m.entries.set i (e.1, e.2 + val)⟩, ?_, ?_, ?_, ?_, ?_⟩
      · simp only [uadd_ok ho]
      · intro f hf'
        rcases List.mem_or_eq_of_mem_set hf' with h | rfl
        · exact hf f h
        · exact ho
      · intro f hf'
        rcases List.mem_or_eq_of_mem_set hf' with h | rfl
        · exact .inr (List.mem_map_of_mem h)
        · exact .inr (List.mem_map.mpr ⟨e, hm, rfl⟩)
      · have := hsum (e.1, e.2 + val)
        have : total ⟨⟨m.entries.set i (e.1, e.2 + val)⟩⟩ = total ⟨m⟩ + val := by
          unfold total; simp only at this ⊢; omega
        rw [this]
      · intro _
        have := hsum (e.1, e.2 + val)
        refine ⟨by unfold total; simp only at this ⊢; omega, ?_⟩
        intro h0 hp f hf'
        rcases List.mem_or_eq_of_mem_set hf' with h | rfl
        · exact hp f h
        · show 0 < e.2 + val; omega
    · by_cases hc : Cfg.overflowChecks = true
      · right
        refine ⟨hc, ?_, e, hm, by omega⟩
        simp only [uadd, if_neg ho, hc, if_true]
      · left
        have hlt : (e.2 + val) % (usizeMax + 1) ≤ usizeMax := by
          have := Nat.mod_lt (e.2 + val) (show 0 < usizeMax + 1 by omega); omega
        refine ⟨⟨m.entries.set i (e.1, (e.2 + val) % (usizeMax + 1))⟩, ?_, ?_, ?_, ?_, fun h => absurd h hc⟩
        · simp only [uadd, if_neg ho, hc, Bool.false_eq_true, if_false]
        · intro f hf'
          rcases List.mem_or_eq_of_mem_set hf' with h | rfl
          · exact hf f h
          · exact hlt
        · intro f hf'
          rcases List.mem_or_eq_of_mem_set hf' with h | rfl
          · exact .inr (List.mem_map_of_mem h)
          · exact .inr (List.mem_map.mpr ⟨e, hm, rfl⟩)
        · have h1 := hsum (e.1, (e.2 + val) % (usizeMax + 1))
          have h2 : total ⟨⟨m.entries.set i (e.1, (e.2 + val) % (usizeMax + 1))⟩⟩ + e.2 =
              total ⟨m⟩ + (e.2 + val) % (usizeMax + 1) := h1
          have h3 := Nat.div_add_mod (e.2 + val) (usizeMax + 1)
          have h4 : total ⟨m⟩ + val =
              total ⟨⟨m.entries.set i (e.1, (e.2 + val) % (usizeMax + 1))⟩⟩ +
                (usizeMax + 1) * ((e.2 + val) / (usizeMax + 1)) := by omega
          rw [h4, Nat.add_mul_mod_self_left]

/-! ## loops -/

/-- What a loop of additions does: it counts a first part of the items, all of them unless a count overflows. -/
structure Counts (es : List (T × Nat)) (p : Bool) (c : Counter T) (r : Except Fault Unit) (c' : Counter T)
    (n : Nat) : Prop where
  le : n ≤ es.length
  fits : Fits c'
  keys : ∀ e ∈ c'.counter.entries, e.1 ∈ c.counter.entries.map (·.1) ∨ e.1 ∈ (es.take n).map (·.1)
  modulo : total c' % (usizeMax + 1) = (total c + amount (es.take n)) % (usizeMax + 1)
  exact : Cfg.overflowChecks = true → total c' = total c + amount (es.take n)
  pos : Cfg.overflowChecks = true → (∀ e ∈ es, 0 < e.2) → (∀ e ∈ c.counter.entries, 0 < e.2) →
    ∀ e ∈ c'.counter.entries, 0 < e.2
  result : (n = es.length ∧ r = if p then .error .user else .ok ()) ∨
    (n < es.length ∧ r = .error .overflow ∧ Cfg.overflowChecks = true ∧
      ∃ e ∈ c'.counter.entries, ∃ f, es[n]? = some f ∧ usizeMax < e.2 + f.2)

/-- one round of the loops of additions -/
def bump (key : T) (ch : Option Nat) (val : Nat) : M (Counter T) Unit := fun self =>
  ((entryAdd self.counter key ch val).1, ⟨(entryAdd self.counter key ch val).2⟩)

theorem addAssign_cons (key : T) (val : Nat) (ch : Option Nat) (order : List ((T × Nat) × Option Nat)) (p : Bool)
    (c : Counter T) : addAssign (((key, val), ch) :: order) p c =
      match entryAdd c.counter key ch val with
      | (.ok _, m) => addAssign order p ⟨m⟩
      | (.error f, m) => (.error f, ⟨m⟩) := by
  have : addAssign (((key, val), ch) :: order) p = (bump key ch val >>= fun _ => addAssign order p) := by
    simp only [addAssign]; rfl
  rw [this, M.bind_run, bump]
  generalize entryAdd c.counter key ch val = q
  obtain ⟨r, m⟩ := q
  cases r <;> rfl

theorem addAssign_counts (order : List ((T × Nat) × Option Nat)) (p : Bool) : ∀ {c : Counter T}, Fits c →
    (∀ e ∈ order, e.1.2 ≤ usizeMax) →
    ∃ n, Counts (order.map (·.1)) p c (addAssign order p c).1 (addAssign order p c).2 n := by
  induction order with
  | nil =>
    intro c hf _
    refine ⟨0, ⟨Nat.le_refl _, ?_, ?_, ?_, ?_, ?_, .inl ⟨rfl, by cases p <;> rfl⟩⟩⟩
    · cases p <;> exact hf
    · intro e he; left; cases p <;> exact List.mem_map_of_mem he
    · cases p <;> rfl
    · intro _; cases p <;> rfl
    · intro _ _ h; cases p <;> exact h
  | cons e order ih =>
    intro c hf hv
    obtain ⟨⟨key, val⟩, ch⟩ := e
    have hstep := addAssign_cons key val ch order p c
    rcases entryAdd_cases c.counter key ch (hv _ List.mem_cons_self) (show Fits ⟨c.counter⟩ from hf) with
      ⟨m', h1, h2, h3, h4, h5⟩ | ⟨hc, h1, e, he, h2⟩
    · have : addAssign (((key, val), ch) :: order) p c = addAssign order p ⟨m'⟩ := by
        rw [hstep, h1]
      rw [this]
      obtain ⟨n, hn⟩ := ih (c := ⟨m'⟩) h2 fun e he => hv e (List.mem_cons_of_mem _ he)
      have ha : amount ((((key, val), ch) :: order).map (·.1) |>.take (n + 1)) =
          val + amount ((order.map (·.1)).take n) := by
        unfold amount; simp only [List.map_cons, List.take_succ_cons, List.sum_cons]
      refine ⟨n + 1, ⟨?_, hn.fits, ?_, ?_, ?_, ?_, ?_⟩⟩
      · have := hn.le; simp only [List.map_cons, List.length_cons]; omega
      · intro e he
        rcases hn.keys e he with h | h
        · obtain ⟨f, hf1, hf2⟩ := List.mem_map.mp h
          rcases h3 f hf1 with h | h
          · right; simp only [List.map_cons, List.take_succ_cons]; rw [← hf2, h]; exact List.mem_cons_self
          · left; rw [← hf2]; exact h
        · right; simp only [List.map_cons, List.take_succ_cons]; exact List.mem_cons_of_mem _ h
      · rw [ha]
        refine hn.modulo.trans ?_
        rw [← Nat.add_assoc, Nat.add_mod, h4, ← Nat.add_mod]
      · intro hc
        rw [ha, hn.exact hc, (h5 hc).1]
        show total c + val + _ = _
        omega
      · intro hc hp hp0
        refine hn.pos hc (fun e he => hp e (List.mem_cons_of_mem _ he)) ?_
        exact (h5 hc).2 (hp (key, val) List.mem_cons_self) hp0
      · rcases hn.result with ⟨g1, g2⟩ | ⟨g1, g2, g3, e, g4, f, g5, g6⟩
        · exact .inl ⟨by rw [g1]; rfl, g2⟩
        · exact .inr ⟨Nat.succ_lt_succ g1, g2, g3, e, g4, f, g5, g6⟩
    · have : addAssign (((key, val), ch) :: order) p c = (.error .overflow, c) := by
        rw [hstep, h1]
      rw [this]
      refine ⟨0, ⟨Nat.zero_le _, hf, fun e he => .inl (List.mem_map_of_mem he), rfl, fun _ => rfl,
        fun _ _ h => h, .inr ⟨Nat.succ_pos _, rfl, hc, e, he, (key, val), rfl, h2⟩⟩⟩

theorem extend_eq (items : List (T × Option Nat)) (p : Bool) :
    extend items p = addAssign (items.map fun e => ((e.1, 1), e.2)) p := by
  induction items with
  | nil => rfl
  | cons e items ih =>
    show (push e.1 e.2 >>= fun _ => extend items p) = _
    rw [ih]; rfl

theorem push_eq (x : T) (c : Option Nat) : push x c = addAssign [((x, 1), c)] false := by
  funext s
  show push x c s = (push x c >>= fun _ => pure ()) s
  rw [M.bind_run]
  generalize push x c s = q
  obtain ⟨r, s'⟩ := q
  cases r <;> rfl

theorem one_le_usizeMax : 1 ≤ usizeMax := by
  have h := Cfg.bits_ge
  have : 2 ^ 16 ≤ 2 ^ Cfg.bits := Nat.pow_le_pow_right (by decide) h
  unfold usizeMax; omega

/-- What a loop of subtractions does. -/
theorem subAssign_takes (order : List ((T × Nat) × Option Nat)) (p : Bool) : ∀ {c : Counter T}, Fits c →
    (subAssign order p c).1 = (if p then .error .user else .ok ()) ∧ Fits (subAssign order p c).2 ∧
    total (subAssign order p c).2 ≤ total c ∧
    total c ≤ total (subAssign order p c).2 + (order.map (·.1.2)).sum ∧
    (∀ e ∈ (subAssign order p c).2.counter.entries, ∃ n, (e.1, n) ∈ c.counter.entries ∧ e.2 ≤ n) ∧
    ((∀ e ∈ c.counter.entries, 0 < e.2) → ∀ e ∈ (subAssign order p c).2.counter.entries, 0 < e.2) := by
  induction order with
  | nil =>
    intro c hf
    have : subAssign [] p c = (if p then .error .user else .ok (), c) := by cases p <;> rfl
    rw [this]
    exact ⟨rfl, hf, Nat.le_refl _, Nat.le_refl _, fun e he => ⟨e.2, he, Nat.le_refl _⟩, fun h => h⟩
  | cons e order ih =>
    intro c hf
    obtain ⟨⟨key, val⟩, ch⟩ := e
    have hstep : subAssign (((key, val), ch) :: order) p c = (subStep ch val >>= fun _ => subAssign order p) c := rfl
    have one : ∃ c1, subStep ch val c = (.ok (), c1) ∧ Fits c1 ∧ total c1 ≤ total c ∧ total c ≤ total c1 + val ∧
        (∀ e ∈ c1.counter.entries, ∃ n, (e.1, n) ∈ c.counter.entries ∧ e.2 ≤ n) ∧
        ((∀ e ∈ c.counter.entries, 0 < e.2) → ∀ e ∈ c1.counter.entries, 0 < e.2) := by
      unfold subStep
      cases hs : search ch c.counter with
      | none => exact ⟨c, rfl, hf, Nat.le_refl _, by omega, fun e he => ⟨e.2, he, Nat.le_refl _⟩, fun h => h⟩
      | some q =>
        obtain ⟨i, e⟩ := q
        have hi := search_some hs
        have hm := List.mem_of_getElem? hi
        simp only
        by_cases hle : e.2 ≤ val
        · rw [if_pos hle]
          have hsum : total ⟨⟨c.counter.entries.eraseIdx i⟩⟩ + e.2 = total c := sum_eraseIdx hi
          refine ⟨_, rfl, ?_, by omega, by omega, ?_, ?_⟩
          · intro f hf'; exact hf f (List.mem_of_mem_eraseIdx hf')
          · intro f hf'; exact ⟨f.2, List.mem_of_mem_eraseIdx hf', Nat.le_refl _⟩
          · intro h f hf'; exact h f (List.mem_of_mem_eraseIdx hf')
        · rw [if_neg hle, usub_ok (by omega)]
          have hsum : total ⟨⟨c.counter.entries.set i (e.1, e.2 - val)⟩⟩ + e.2 = total c + (e.2 - val) := sum_set hi _
          refine ⟨_, rfl, ?_, by omega, by omega, ?_, ?_⟩
          · intro f hf'
            rcases List.mem_or_eq_of_mem_set hf' with h | rfl
            · exact hf f h
            · have := hf e hm; show e.2 - val ≤ _; omega
          · intro f hf'
            rcases List.mem_or_eq_of_mem_set hf' with h | rfl
            · exact ⟨f.2, h, Nat.le_refl _⟩
            · exact ⟨e.2, hm, Nat.sub_le _ _⟩
          · intro h f hf'
            rcases List.mem_or_eq_of_mem_set hf' with h' | rfl
            · exact h f h'
            · show 0 < e.2 - val; omega
    obtain ⟨c1, h1, h2, h3, h4, h5, h6⟩ := one
    rw [hstep, M.bind_ok h1]
    obtain ⟨g1, g2, g3, g4, g5, g6⟩ := ih h2
    refine ⟨g1, g2, by omega, ?_, ?_, fun h => g6 (h6 h)⟩
    · simp only [List.map_cons, List.sum_cons]; omega
    · intro e he
      obtain ⟨n, k1, k2⟩ := g5 e he
      obtain ⟨n', k3, k4⟩ := h5 _ k1
      exact ⟨n', k3, Nat.le_trans k2 k4⟩

/-! ## a proper `Hash` and `Eq` -/

section
variable [DecidableEq T]

omit [Cfg] in
theorem lookup_place {es : List (T × Nat)} {k : T} {v : Nat} (h : HMap.lookup k es = some v) :
    ∃ i, es[i]? = some (k, v) ∧ (∀ w, HMap.update k w es = es.set i (k, w)) ∧
      ((es.map (·.1)).Nodup → es.filter (fun e => decide (e.1 ≠ k)) = es.eraseIdx i) := by
  induction es with
  | nil => cases h
  | cons e es ih =>
    unfold HMap.lookup at h
    by_cases he : e.1 = k
    · rw [if_pos he] at h
      cases h
      subst he
      refine ⟨0, rfl, fun w => by simp [HMap.update], fun hn => ?_⟩
      rw [List.map_cons, List.nodup_cons] at hn
      rw [List.eraseIdx_cons_zero, List.filter_cons_of_neg (by simp)]
      apply List.filter_eq_self.mpr
      intro f hf
      have : f.1 ≠ e.1 := fun h => hn.1 (h ▸ List.mem_map_of_mem hf)
      simpa using this
    · rw [if_neg he] at h
      obtain ⟨i, h1, h2, h3⟩ := ih h
      refine ⟨i + 1, h1, fun w => ?_, fun hn => ?_⟩
      · simp only [HMap.update, if_neg he, h2, List.set_cons_succ]
      · rw [List.map_cons, List.nodup_cons] at hn
        rw [List.eraseIdx_cons_succ, List.filter_cons_of_pos (by simpa using he), h3 hn.2]

omit [Cfg] in
theorem lookup_cons_self (k : T) (v : Nat) (es : List (T × Nat)) : HMap.lookup k ((k, v) :: es) = some v := by
  simp [HMap.lookup]

/-- with a proper `Eq` the table finds the entry of the key -/
theorem entryAdd_lawful (m : HMap T Nat) (key : T) (val : Nat) :
    ∃ c, entryAdd m key c val = Counter.entryAdd m key val := by
  cases h : m.get key with
  | none =>
    refine ⟨none, ?_⟩
    have ho : m.orInsert key 0 = (0, ⟨(key, 0) :: m.entries⟩) := by
      unfold HMap.orInsert HMap.insert; simp only [h]
    unfold entryAdd Counter.entryAdd
    rw [ho]
    simp only [search, Option.bind_none]
    cases uadd 0 val with
    | error e => rfl
    | ok v =>
      have : (⟨(key, 0) :: m.entries⟩ : HMap T Nat).insert key v = ⟨(key, v) :: m.entries⟩ := by
        unfold HMap.insert HMap.get
        simp only [lookup_cons_self, HMap.update, if_true]
      simp only [this]
  | some w =>
    obtain ⟨i, h1, h2, -⟩ := lookup_place h
    refine ⟨some i, ?_⟩
    have ho : m.orInsert key 0 = (w, m) := by unfold HMap.orInsert; simp only [h]
    unfold entryAdd Counter.entryAdd
    rw [ho]
    simp only [search, Option.bind_some, h1, Option.map_some]
    cases uadd w val with
    | error e => rfl
    | ok v =>
      have : m.insert key v = ⟨m.entries.set i (key, v)⟩ := by unfold HMap.insert; simp only [h, h2]
      simp only [this]

theorem subStep_lawful (s : Counter T) (hv : s.counter.Valid) (key : T) (val : Nat) :
    ∃ c, subStep c val s = Counter.subAssignStep key val s := by
  cases h : s.counter.get key with
  | none => exact ⟨none, by unfold subStep Counter.subAssignStep; simp [search, h]⟩
  | some w =>
    obtain ⟨i, h1, h2, h3⟩ := lookup_place h
    refine ⟨some i, ?_⟩
    unfold subStep Counter.subAssignStep
    have hr : s.counter.remove key = ⟨s.counter.entries.eraseIdx i⟩ := by
      unfold HMap.remove; rw [h3 hv]
    have hi : ∀ v, s.counter.insert key v = ⟨s.counter.entries.set i (key, v)⟩ := by
      intro v; unfold HMap.insert; simp only [h, h2]
    simp only [search, Option.bind_some, h1, Option.map_some, h, hr, hi] <;> rfl

theorem addAssign_lawful (order : List (T × Nat)) (p : Bool) : ∀ s : Counter T,
    ∃ o : List ((T × Nat) × Option Nat), o.map (·.1) = order ∧ addAssign o p s = Counter.addAssign order p s := by
  induction order with
  | nil => intro s; exact ⟨[], rfl, rfl⟩
  | cons e order ih =>
    intro s
    obtain ⟨c, hc⟩ := entryAdd_lawful s.counter e.1 e.2
    obtain ⟨o, h1, h2⟩ := ih ⟨(Counter.entryAdd s.counter e.1 e.2).2⟩
    refine ⟨(e, c) :: o, by rw [List.map_cons, h1], ?_⟩
    rw [addAssign_cons, hc]
    have : Counter.addAssign (e :: order) p = (Cnt.bump e.1 e.2 >>= fun _ => Counter.addAssign order p) := by
      simp only [Counter.addAssign]; rfl
    rw [this, M.bind_run, Cnt.bump]
    generalize Counter.entryAdd s.counter e.1 e.2 = q at h2
    obtain ⟨r, s'⟩ := q
    cases r with
    | error e => rfl
    | ok _ => exact h2

end
end Cnt.Wild
