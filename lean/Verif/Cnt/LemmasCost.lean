import Verif.Cnt.SpecCost
import Verif.Cnt.Props
import Mathlib.Data.Fintype.Perm
import Mathlib.Data.List.Sort
import Mathlib.Data.Nat.Factorial.Basic
import Mathlib.Data.Fintype.Lattice
/-!
# Lemmas on costs of counters
-/

open Rust
namespace Cnt.Cost

/-! ## the calls -/

section
variable {T : Type} [DecidableEq T] [Cfg]

/-- `m` does what `p` does, with exactly `n` searches (fewer if it overflows) and, if `ref`, at most as many clones. -/
def Costs (m : M (State T) Unit) (p : M (Counter T) Unit) (n : Nat) (ref : Bool) : Prop :=
  ∀ (c : Counter T) (k : Spent), ∃ d e,
    m (c, k) = ((p c).1, (p c).2, ⟨k.searches + d, k.clones + e⟩) ∧ d ≤ n ∧ ((p c).1 ≠ .error .overflow → d = n) ∧
      e = if ref then d else 0

theorem entryAdd_costs (key : T) (val : Nat) :
    Costs (entryAdd key val)
      (fun self => let (r, m) := Counter.entryAdd self.counter key val; (r, { self with counter := m })) 1 false :=
  fun _ _ => ⟨1, 0, rfl, Nat.le_refl _, fun _ => rfl, rfl⟩

theorem subStep_costs (key : T) (val : Nat) :
    Costs (subStep key val) (Counter.subAssignStep key val) 1 false := by
  intro c k
  refine ⟨1, 0, ?_, Nat.le_refl _, fun _ => rfl, rfl⟩
  rw [subStep, Counter.subAssignStep]
  simp only []
  cases c.counter.get key with
  | none => rfl
  | some cur =>
    simp only []
    by_cases h : cur ≤ val
    · rw [if_pos h, if_pos h] <;> rfl
    · rw [if_neg h, if_neg h]
      cases usub cur val <;> rfl

theorem clone_costs {m : M (State T) Unit} {p : M (Counter T) Unit} (hm : Costs m p 1 false)
    (hd : ∀ c k, (m (c, k)).2.2.searches = k.searches + 1) :
    Costs (do cloneKey; m) p 1 true := by
  intro c k
  obtain ⟨d, e, h1, h2, h3, h4⟩ := hm c ⟨k.searches, k.clones + 1⟩
  have h5 := hd c ⟨k.searches, k.clones + 1⟩
  rw [h1] at h5
  have hd1 : d = 1 := by simpa using h5
  subst hd1
  refine ⟨1, 1, ?_, Nat.le_refl _, fun _ => rfl, rfl⟩
  rw [M.bind_run]
  show m (c, ⟨k.searches, k.clones + 1⟩) = _
  rw [h1, h4] <;> rfl

theorem end_costs (panics ref : Bool) :
    Costs (T := T) (if panics then M.throw .user else pure ()) (if panics then M.throw .user else pure ()) 0 ref := by
  intro c k
  refine ⟨0, 0, ?_, Nat.le_refl _, fun _ => rfl, ?_⟩
  · cases panics <;> rfl
  · cases ref <;> rfl

theorem seq_costs {m m' : M (State T) Unit} {p p' : M (Counter T) Unit} {a b : Nat} {ref : Bool}
    (h : Costs m p a ref) (ho : ∀ c f, (p c).1 = .error f → f = .overflow) (h' : Costs m' p' b ref) :
    Costs (do m; m') (do p; p') (a + b) ref := by
  intro c k
  obtain ⟨d, e, h1, h2, h3, h4⟩ := h c k
  have hc := ho c
  rw [M.bind_run, M.bind_run, h1]
  generalize p c = pc at h3 hc ⊢
  obtain ⟨r, c1⟩ := pc
  cases r with
  | error f =>
    refine ⟨d, e, rfl, by omega, fun hf => ?_, h4⟩
    exact absurd (by rw [hc f rfl]) hf
  | ok u =>
    obtain ⟨d', e', g1, g2, g3, g4⟩ := h' c1 ⟨k.searches + d, k.clones + e⟩
    refine ⟨d + d', e + e', ?_, by omega, fun hf => ?_, ?_⟩
    · show m' (c1, ⟨k.searches + d, k.clones + e⟩) = _
      rw [g1]
      simp only [Nat.add_assoc]
    · rw [h3 (by simp), g3 hf]
    · cases ref <;> simp_all

theorem entryAdd_error (key : T) (val : Nat) (c : Counter T) (f : Fault)
    (h : (Counter.entryAdd c.counter key val).1 = .error f) : f = .overflow := by
  simp only [Counter.entryAdd] at h
  generalize c.counter.orInsert key 0 = q at h
  obtain ⟨cur, m⟩ := q
  simp only [uadd] at h
  split at h
  · simp at h
  · next e he =>
    simp only at h
    cases h
    split at he
    · simp at he
    · split at he <;> simp_all

theorem subStep_error (key : T) (val : Nat) (c : Counter T) (f : Fault)
    (h : (Counter.subAssignStep key val c).1 = .error f) : f = .overflow := by
  simp only [Counter.subAssignStep, usub] at h
  cases hg : c.counter.get key with
  | none => simp [hg] at h
  | some cur =>
    simp only [hg] at h
    by_cases hle : cur ≤ val
    · simp [hle] at h
    · rw [if_neg hle, if_pos (by omega)] at h
      simp at h

theorem clone_assoc (m m' : M (State T) Unit) :
    (do cloneKey; m; m' : M (State T) Unit) = (do (do cloneKey; m); m') := rfl

theorem extend_costs (xs : List T) (p : Bool) : Costs (extend xs p) (Counter.extend xs p) xs.length false := by
  induction xs with
  | nil => exact end_costs p false
  | cons x xs ih =>
    rw [List.length_cons, Nat.add_comm]
    exact seq_costs (entryAdd_costs x 1) (fun c f => entryAdd_error x 1 c f) ih

theorem extendRef_costs (xs : List T) (p : Bool) :
    Costs (extendRef xs p) (Counter.extendRef xs p) xs.length true := by
  induction xs with
  | nil => exact end_costs p true
  | cons x xs ih =>
    rw [List.length_cons, Nat.add_comm]
    rw [extendRef, clone_assoc]
    exact seq_costs (clone_costs (entryAdd_costs x 1) fun _ _ => rfl) (fun c f => entryAdd_error x 1 c f) ih

theorem addAssign_costs (xs : List (T × Nat)) (p : Bool) :
    Costs (addAssign xs p) (Counter.addAssign xs p) xs.length false := by
  induction xs with
  | nil => exact end_costs p false
  | cons x xs ih =>
    rw [List.length_cons, Nat.add_comm]
    exact seq_costs (entryAdd_costs x.1 x.2) (fun c f => entryAdd_error x.1 x.2 c f) ih

theorem addAssignRef_costs (xs : List (T × Nat)) (p : Bool) :
    Costs (addAssignRef xs p) (Counter.addAssignRef xs p) xs.length true := by
  induction xs with
  | nil => exact end_costs p true
  | cons x xs ih =>
    rw [List.length_cons, Nat.add_comm]
    rw [addAssignRef, clone_assoc]
    exact seq_costs (clone_costs (entryAdd_costs x.1 x.2) fun _ _ => rfl)
      (fun c f => entryAdd_error x.1 x.2 c f) ih

theorem subStep_searches (key : T) (val : Nat) (c : Counter T) (k : Spent) :
    (subStep key val (c, k)).2.2.searches = k.searches + 1 := by
  rw [subStep]
  repeat' split
  all_goals rfl

theorem subAssign_costs (xs : List (T × Nat)) (p : Bool) :
    Costs (subAssign xs p) (Counter.subAssign xs p) xs.length false := by
  induction xs with
  | nil => exact end_costs p false
  | cons x xs ih =>
    rw [List.length_cons, Nat.add_comm]
    exact seq_costs (subStep_costs x.1 x.2) (fun c f => subStep_error x.1 x.2 c f) ih

theorem subAssignRef_costs (xs : List (T × Nat)) (p : Bool) :
    Costs (subAssignRef xs p) (Counter.subAssignRef xs p) xs.length true := by
  induction xs with
  | nil => exact end_costs p true
  | cons x xs ih =>
    rw [List.length_cons, Nat.add_comm]
    rw [subAssignRef, clone_assoc]
    exact seq_costs (clone_costs (subStep_costs x.1 x.2) (subStep_searches x.1 x.2))
      (fun c f => subStep_error x.1 x.2 c f) ih

theorem call_costs (call : Call T) : Costs call.run call.plain call.size call.byRef := by
  cases call with
  | push x => exact entryAdd_costs x 1
  | extend xs p => exact extend_costs xs p
  | extendRef xs p => exact extendRef_costs xs p
  | addAssign xs p => exact addAssign_costs xs p
  | addAssignRef xs p => exact addAssignRef_costs xs p
  | subAssign xs p => exact subAssign_costs xs p
  | subAssignRef xs p => exact subAssignRef_costs xs p

/-! ## sorting -/

omit [DecidableEq T] [Cfg] in
theorem asSort_sortByKey {t : (k : Nat) → SortTree k} (ht : ∀ k, Sorts (t k)) :
    SortByKey (T := T) (asSort t) := by
  intro xs
  obtain ⟨h1, h2⟩ := ht xs.length fun i => xs[i].1
  refine ⟨?_, ?_⟩
  · refine (h1.map _).trans ?_
    have : (List.finRange xs.length).map (fun i => xs[i]) = xs := by
      apply List.ext_getElem <;> simp
    rw [this]
  · exact List.pairwise_map.mpr h2

theorem intoMostCommon_run {t : (k : Nat) → SortTree k} {order : List (T × Nat)}
    (h : ∀ e ∈ order, e.2 ≤ usizeMax) :
    intoMostCommon t order = .ok ((asSort t (order.map fun e => (usizeMax - e.2, e))).map (·.2),
      ((t _).run fun i => (order.map fun e => (usizeMax - e.2, e))[i].1).2) := by
  rw [intoMostCommon, mapM_usub h]
  simp only [asSort, List.map_map]
  rfl

omit [DecidableEq T] [Cfg] in
theorem run_congr (t : (k : Nat) → SortTree k) {k k' : Nat} (h : k = k') (f : Fin k → Nat) (g : Fin k' → Nat)
    (hfg : ∀ i, f i = g (i.cast h)) : ((t k).run f).2 = ((t k').run g).2 := by
  subst h
  have : f = g := funext hfg
  rw [this]

/-- the results reached with at most `d` comparisons -/
def outs {k : Nat} : SortTree k → Nat → Finset (List (Fin k))
  | .done out, _ => {out}
  | .ask _ _ _ _, 0 => ∅
  | .ask _ _ yes no, d + 1 => outs yes d ∪ outs no d

omit [Cfg] in
theorem card_outs {k : Nat} (t : SortTree k) (d : Nat) : (outs t d).card ≤ 2 ^ d := by
  induction t generalizing d with
  | done out => simp only [outs, Finset.card_singleton]; exact Nat.one_le_two_pow
  | ask i j yes no ih1 ih2 =>
    cases d with
    | zero => simp [outs]
    | succ d =>
      have := Finset.card_union_le (outs yes d) (outs no d)
      have := ih1 d
      have := ih2 d
      rw [outs, Nat.pow_succ]
      omega

omit [Cfg] in
theorem mem_outs {k : Nat} (t : SortTree k) (keys : Fin k → Nat) {d : Nat} (h : (t.run keys).2 ≤ d) :
    (t.run keys).1 ∈ outs t d := by
  induction t generalizing d with
  | done out => simp [outs, SortTree.run]
  | ask i j yes no ih1 ih2 =>
    cases d with
    | zero => simp [SortTree.run] at h
    | succ d =>
      simp only [SortTree.run] at h ⊢
      rw [outs, Finset.mem_union]
      by_cases hk : keys i < keys j
      · simp only [hk, if_true] at h ⊢
        exact .inl (ih1 (by omega))
      · simp only [hk, if_false] at h ⊢
        exact .inr (ih2 (by omega))

omit [Cfg] in
/-- some order of `k` different keys takes `n` comparisons with `k! ≤ 2^n` -/
theorem sort_lower {k : Nat} {t : SortTree k} (ht : Sorts t) (key : Fin k → Nat) (hk : ∀ i j, key i ≤ key j → j ≤ i) :
    ∃ σ : Equiv.Perm (Fin k), k.factorial ≤ 2 ^ (t.run fun i => key (σ i)).2 := by
  obtain ⟨σ, hσ⟩ := Finite.exists_max fun σ : Equiv.Perm (Fin k) => (t.run fun i => key (σ i)).2
  refine ⟨σ, ?_⟩
  refine Nat.le_trans ?_ (card_outs t _)
  have : k.factorial = (Finset.univ : Finset (Equiv.Perm (Fin k))).card := by
    rw [Finset.card_univ, Fintype.card_perm, Fintype.card_fin]
  rw [this]
  refine Finset.card_le_card_of_injOn (fun τ => (t.run fun i => key (τ i)).1) (fun τ _ => mem_outs t _ (hσ τ)) ?_
  intro τ _ ρ _ he
  simp only at he
  obtain ⟨p1, s1⟩ := ht fun i => key (τ i)
  obtain ⟨p2, s2⟩ := ht fun i => key (ρ i)
  rw [← he] at p2 s2
  generalize (t.run fun i => key (τ i)).1 = out at p1 s1 p2 s2
  have hp : ∀ f : Equiv.Perm (Fin k), (out.map f).Perm (List.finRange k) := fun f => by
    rw [List.perm_ext_iff_of_nodup ((p1.nodup_iff.mpr (List.nodup_finRange k)).map f.injective) (List.nodup_finRange k)]
    intro a
    simp only [List.mem_map, List.mem_finRange, iff_true]
    exact ⟨f.symm a, p1.mem_iff.mpr (List.mem_finRange _), by simp⟩
  have h1 : (out.map τ).Pairwise (fun a b => b ≤ a) := List.pairwise_map.mpr (s1.imp fun h => hk _ _ h)
  have h2 : (out.map ρ).Pairwise (fun a b => b ≤ a) := List.pairwise_map.mpr (s2.imp fun h => hk _ _ h)
  have h3 : out.map τ = out.map ρ :=
    List.Perm.eq_of_pairwise (fun a b _ _ h h' => le_antisymm h' h) h1 h2 ((hp τ).trans (hp ρ).symm)
  ext i
  have := List.map_inj_left.mp h3 i (p1.mem_iff.mpr (List.mem_finRange i))
  rw [this]

omit [Cfg] in
theorem factorial_large (c : Nat) : 2 ^ (c * 2 ^ (2 * c + 2)) < (2 ^ (2 * c + 2)).factorial := by
  have h : 2 ^ (2 * c + 2) = 2 ^ (2 * c + 1) + 2 ^ (2 * c + 1) := by
    rw [show 2 * c + 2 = (2 * c + 1) + 1 from rfl, Nat.pow_succ 2 (2 * c + 1)]; omega
  have h1 := Nat.factorial_mul_pow_le_factorial (m := 2 ^ (2 * c + 1)) (n := 2 ^ (2 * c + 1))
  rw [← h] at h1
  refine Nat.lt_of_lt_of_le ?_ (Nat.le_trans (Nat.le_mul_of_pos_left _ (Nat.factorial_pos _)) h1)
  refine Nat.lt_of_lt_of_le ?_ (Nat.pow_le_pow_left (Nat.le_succ _) _)
  rw [← Nat.pow_mul]
  apply Nat.pow_lt_pow_right (by omega)
  rw [h]
  have : 0 < 2 ^ (2 * c + 1) := Nat.two_pow_pos _
  generalize 2 ^ (2 * c + 1) = m at this
  have : c * (m + m) = 2 * c * m := by rw [← Nat.two_mul, ← Nat.mul_assoc, Nat.mul_comm c 2]
  rw [this, Nat.add_mul]; omega

/-! ## a sort -/

/-- inserts `x` into a sorted list, then goes on -/
def ins {k : Nat} (x : Fin k) : List (Fin k) → (List (Fin k) → SortTree k) → SortTree k
  | [], cont => cont [x]
  | y :: ys, cont => .ask y x (ins x ys fun l => cont (y :: l)) (cont (x :: y :: ys))

/-- sorts a list, then goes on -/
def insAll {k : Nat} : List (Fin k) → (List (Fin k) → SortTree k) → SortTree k
  | [], cont => cont []
  | x :: xs, cont => insAll xs fun l => ins x l cont

/-- insertion sort -/
def insertionSort (k : Nat) : SortTree k := insAll (List.finRange k) .done

omit [Cfg] in
theorem ins_run {k : Nat} (keys : Fin k → Nat) (x : Fin k) (ys : List (Fin k)) (cont : List (Fin k) → SortTree k) :
    ((ins x ys cont).run keys).1 = ((cont (ys.orderedInsert (fun a b => keys a ≤ keys b) x)).run keys).1 := by
  induction ys generalizing cont with
  | nil => rfl
  | cons y ys ih =>
    rw [ins, SortTree.run, List.orderedInsert]
    by_cases h : keys y < keys x
    · have h' : ¬ keys x ≤ keys y := by omega
      simp only [h, h', if_true, if_false]
      exact ih _
    · have h' : keys x ≤ keys y := by omega
      simp only [h, h', if_true, if_false]

omit [Cfg] in
theorem insAll_run {k : Nat} (keys : Fin k → Nat) (xs : List (Fin k)) (cont : List (Fin k) → SortTree k) :
    ((insAll xs cont).run keys).1 = ((cont (xs.insertionSort fun a b => keys a ≤ keys b)).run keys).1 := by
  induction xs generalizing cont with
  | nil => rfl
  | cons x xs ih =>
    rw [insAll, ih, ins_run] <;> rfl

omit [Cfg] in
theorem insertionSort_sorts (k : Nat) : Sorts (insertionSort k) := by
  intro keys
  rw [insertionSort, insAll_run]
  refine ⟨List.perm_insertionSort _ _, ?_⟩
  have : Std.Total (fun a b : Fin k => keys a ≤ keys b) := ⟨fun a b => Nat.le_total _ _⟩
  have : IsTrans (Fin k) (fun a b => keys a ≤ keys b) := ⟨fun _ _ _ h h' => Nat.le_trans h h'⟩
  exact List.pairwise_insertionSort _ _

end
end Cnt.Cost
