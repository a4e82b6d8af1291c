import Verif.Cnt.ModelKey
import Verif.Cnt.Props
/-!
# Vocabulary and lemmas for C90
-/

open Rust
namespace Cnt.Key

/-! ## vocabulary -/
section
variable {T K : Type} [DecidableEq K] (key : T → K) (clone : T → T)

/-- the counter of keys: what is left when values that compare equal are not told apart -/
def keys (c : Counter T) : Counter K := ⟨KMap.keys key c.counter⟩

/-- the stored value with key `k` -/
def kept (c : Counter T) (k : K) : Option T := KMap.stored key c.counter k

/-- a counter a user can hold: no two stored values compare equal, counts are `usize` values -/
def Valid [Cfg] (c : Counter T) : Prop :=
  KMap.Valid key c.counter ∧ ∀ e ∈ c.counter.entries, e.2 ≤ usizeMax

/-- a possible iteration order of the counter's map -/
def IterOf (order : List (T × Nat)) (c : Counter T) : Prop := order.Perm c.counter.entries

/-- `Clone` returns a value that compares equal. -/
def Faithful : Prop := ∀ x, key (clone x) = key x

/-- the first value with key `k` -/
def first (k : K) (xs : List T) : Option T := xs.find? fun x => decide (key x = k)

/-- A call that changes a counter. The flags say whether the user's code panics after the given items. -/
inductive Call (T : Type)
  | push (x : T)
  | extend (items : List T) (p : Bool)
  | extendRef (items : List T) (p : Bool)
  | addAssign (order : List (T × Nat)) (p : Bool)
  | addAssignRef (order : List (T × Nat)) (p : Bool)
  | subAssign (order : List (T × Nat)) (p : Bool)
  | subAssignRef (order : List (T × Nat)) (p : Bool)

namespace Call
/-- the call -/
def run [Cfg] : Call T → M (Counter T) Unit
  | push x => Key.push key x
  | extend xs p => Key.extend key xs p
  | extendRef xs p => Key.extendRef key xs p
  | addAssign es p => Key.addAssign key es p
  | addAssignRef es p => Key.addAssignRef key clone es p
  | subAssign es p => Key.subAssign key es p
  | subAssignRef es p => Key.subAssignRef key clone es p
/-- the call on the counter of keys, in the model where equal values are the same -/
def runKeys [Cfg] : Call T → M (Counter K) Unit
  | push x => Counter.push (key x)
  | extend xs p => Counter.extend (xs.map key) p
  | extendRef xs p => Counter.extendRef (xs.map key) p
  | addAssign es p => Counter.addAssign (KMap.pairs key es) p
  | addAssignRef es p => Counter.addAssignRef (KMap.pairs key es) p
  | subAssign es p => Counter.subAssign (KMap.pairs key es) p
  | subAssignRef es p => Counter.subAssignRef (KMap.pairs key es) p
/-- the values the call offers to be stored, in order -/
def offers : Call T → List T
  | push x => [x]
  | extend xs _ => xs
  | extendRef xs _ => xs
  | addAssign es _ => es.map (·.1)
  | addAssignRef es _ => es.map fun e => clone e.1
  | subAssign _ _ => []
  | subAssignRef _ _ => []
end Call

/-! ## helper lemmas -/
variable {key clone} [Cfg]

/-- a method and its counterpart on keys -/
def Sim {α : Type} (m : M (Counter T) α) (m' : M (Counter K) α) : Prop :=
  ∀ c, m' (keys key c) = ((m c).1, keys key (m c).2)

omit [DecidableEq K] [Cfg] in
theorem Sim.bind {α β : Type} {m : M (Counter T) α} {m' : M (Counter K) α} {f : α → M (Counter T) β}
    {f' : α → M (Counter K) β} (h : Sim (key := key) m m') (hf : ∀ a, Sim (key := key) (f a) (f' a)) :
    Sim (key := key) (m >>= f) (m' >>= f') := by
  intro c
  rw [M.bind_run, M.bind_run, h c]
  rcases m c with ⟨r, c'⟩
  cases r with
  | ok a => exact hf a c'
  | error e => rfl

omit [DecidableEq K] [Cfg] in
theorem Sim.stop (p : Bool) :
    Sim (key := key) (if p then M.throw .user else pure () : M (Counter T) Unit)
      (if p then M.throw .user else pure ()) := by
  intro c; cases p <;> rfl

/-- the step of all adding loops -/
def bumpK (key : T → K) (x : T) (val : Nat) : M (Counter T) Unit := fun self =>
  let (r, m) := entryAdd key self.counter x val
  (r, { self with counter := m })

theorem bumpK_sim (x : T) (val : Nat) : Sim (key := key) (bumpK key x val) (bump (key x) val) := by
  intro c
  unfold bumpK bump entryAdd Counter.entryAdd
  simp only [keys, KMap.orInsert_keys]
  cases uadd (KMap.orInsert key c.counter x 0).1 val with
  | ok v => simp [KMap.insert_keys]
  | error e => rfl

/-- the common shape of all counting and adding loops -/
def addLoopK (key : T → K) : List (T × Nat) → Bool → M (Counter T) Unit
  | [], panics => if panics then M.throw .user else pure ()
  | (x, val) :: rest, panics => do
    bumpK key x val
    addLoopK key rest panics

theorem addLoopK_sim (es : List (T × Nat)) (p : Bool) :
    Sim (key := key) (addLoopK key es p) (addLoop (KMap.pairs key es) p) := by
  induction es with
  | nil => exact Sim.stop p
  | cons e es ih => exact Sim.bind (bumpK_sim e.1 e.2) fun _ => ih

theorem extend_eq (items : List T) (p : Bool) : extend key items p = addLoopK key (ones items) p := by
  induction items with
  | nil => rfl
  | cons x xs ih => simp only [extend, ones, List.map_cons, addLoopK, ih]; rfl

theorem extendRef_eq (items : List T) (p : Bool) : extendRef key items p = addLoopK key (ones items) p := by
  induction items with
  | nil => rfl
  | cons x xs ih => simp only [extendRef, ones, List.map_cons, addLoopK, ih]; rfl

theorem fromIterRefLoop_eq (items : List T) (p : Bool) :
    fromIterRefLoop key clone items p = addLoopK key (ones (items.map clone)) p := by
  induction items with
  | nil => rfl
  | cons x xs ih => simp only [fromIterRefLoop, ones, List.map_cons, addLoopK, ih]; rfl

theorem addAssign_eq (es : List (T × Nat)) (p : Bool) : addAssign key es p = addLoopK key es p := by
  induction es with
  | nil => rfl
  | cons x xs ih => simp only [addAssign, addLoopK, ih]; rfl

theorem addAssignRef_eq (es : List (T × Nat)) (p : Bool) :
    addAssignRef key clone es p = addLoopK key (es.map fun e => (clone e.1, e.2)) p := by
  induction es with
  | nil => rfl
  | cons x xs ih => simp only [addAssignRef, List.map_cons, addLoopK, ih]; rfl

theorem subAssignRef_eq (es : List (T × Nat)) (p : Bool) :
    subAssignRef key clone es p = subAssign key (es.map fun e => (clone e.1, e.2)) p := by
  induction es with
  | nil => rfl
  | cons x xs ih => simp only [subAssignRef, List.map_cons, subAssign, ih]

omit [DecidableEq K] [Cfg] in
theorem pairs_ones (items : List T) : KMap.pairs key (ones items) = ones (items.map key) := by
  simp [KMap.pairs, ones, Function.comp_def]

omit [DecidableEq K] [Cfg] in
theorem pairs_clone (hc : Faithful key clone) (es : List (T × Nat)) :
    KMap.pairs key (es.map fun e => (clone e.1, e.2)) = KMap.pairs key es := by
  simp [KMap.pairs, Function.comp_def, hc _]

theorem subAssignStep_sim (x : T) (val : Nat) :
    Sim (key := key) (subAssignStep key x val) (Counter.subAssignStep (key x) val) := by
  intro c
  unfold subAssignStep Counter.subAssignStep
  simp only [keys, KMap.get_keys]
  cases KMap.get key c.counter x with
  | none => rfl
  | some cur =>
    simp only
    by_cases h : cur ≤ val
    · simp only [h, ↓reduceIte, KMap.remove_keys]
    · simp only [h, ↓reduceIte]
      cases usub cur val with
      | ok v => simp only [KMap.insert_keys]
      | error e => rfl

theorem subAssign_sim (es : List (T × Nat)) (p : Bool) :
    Sim (key := key) (subAssign key es p) (Counter.subAssign (KMap.pairs key es) p) := by
  induction es with
  | nil => exact Sim.stop p
  | cons e es ih => exact Sim.bind (subAssignStep_sim e.1 e.2) fun _ => ih

omit [DecidableEq K] [Cfg] in
theorem owned_sim {m : M (Counter T) Unit} {m' : M (Counter K) Unit} (h : Sim (key := key) m m') (c : Counter T) :
    Counter.owned m' (keys key c) = (Counter.owned m c).map (keys key) := by
  unfold Counter.owned
  rw [h c]
  rcases m c with ⟨r, c'⟩
  cases r <;> rfl

omit [DecidableEq K] [Cfg] in
theorem owned_ok' {m : M (Counter T) Unit} {a c : Counter T} (h : Counter.owned m a = .ok c) :
    ∃ x, m a = (.ok x, c) := by
  unfold Counter.owned at h
  rcases hm : m a with ⟨r, c'⟩
  rw [hm] at h
  cases r with
  | ok x => cases h; exact ⟨x, rfl⟩
  | error e => cases h

omit [Cfg] in
theorem mem_iff {c : Counter T} (hv : KMap.Valid key c.counter) (x : T) (n : Nat) :
    (x, n) ∈ c.counter.entries ↔ kept key c (key x) = some x ∧ (keys key c).get (key x) = some n := by
  have hg : (keys key c).get (key x) = (KMap.find key (key x) c.counter.entries).map (·.2) := KMap.lookup_pairs _ _
  rw [hg]
  unfold kept KMap.stored
  constructor
  · intro hm
    rw [(KMap.find_eq_some hv).mpr ⟨hm, rfl⟩]; exact ⟨rfl, rfl⟩
  · rintro ⟨h1, h2⟩
    cases hf : KMap.find key (key x) c.counter.entries with
    | none => rw [hf] at h1; cases h1
    | some e =>
      rw [hf] at h1 h2
      cases h1; cases h2
      exact (KMap.find_key hf).2

omit [DecidableEq K] in
theorem mapM_usub' {order : List (T × Nat)} (h : ∀ e ∈ order, e.2 ≤ usizeMax) :
    (order.mapM fun e => (do return (← usub usizeMax e.2, e) : Except Fault (Nat × (T × Nat)))) =
      .ok (order.map fun e => (usizeMax - e.2, e)) := by
  induction order with
  | nil => rfl
  | cons e es ih =>
    rw [List.mapM_cons, usub_ok (h e List.mem_cons_self), ih fun x hx => h x (List.mem_cons_of_mem _ hx)]
    rfl

omit [DecidableEq K] in
theorem sorted_desc {order : List (T × Nat)} (h : ∀ e ∈ order, e.2 ≤ usizeMax)
    {sort : List (Nat × (T × Nat)) → List (Nat × (T × Nat))} (hs : SortByKey sort) :
    ((sort (order.map fun e => (usizeMax - e.2, e))).map (·.2)).Perm order ∧
    ((sort (order.map fun e => (usizeMax - e.2, e))).map (·.2)).Pairwise fun x y => y.2 ≤ x.2 := by
  obtain ⟨hp, hsorted⟩ := hs (order.map fun e => (usizeMax - e.2, e))
  refine ⟨(hp.map (·.2)).trans (by rw [List.map_map]; simp [Function.comp_def]), ?_⟩
  rw [List.pairwise_map]
  refine hsorted.imp_of_mem fun {x y} hx hy hxy => ?_
  obtain ⟨e, he, rfl⟩ := List.mem_map.mp (hp.mem_iff.mp hx)
  obtain ⟨f, hf, rfl⟩ := List.mem_map.mp (hp.mem_iff.mp hy)
  have h1 := h e he
  have h2 := h f hf
  simp only at hxy ⊢
  omega

omit [DecidableEq K] [Cfg] in
theorem keys_ones' (items : List T) : (ones items).map (·.1) = items := by
  simp [ones, Function.comp_def]

/-! ### what is kept -/

theorem bumpK_kept (x : T) (val : Nat) (c : Counter T) (k : K) :
    kept key (bumpK key x val c).2 k = (kept key c k).or (if key x = k then some x else none) := by
  unfold bumpK entryAdd kept
  simp only
  have h := KMap.stored_orInsert (key := key) c.counter x 0 k
  cases uadd (KMap.orInsert key c.counter x 0).1 val with
  | ok v =>
    simp only [KMap.stored_insert, h]
    cases KMap.stored key c.counter k <;> simp
  | error e => exact h

theorem bumpK_fault {x : T} {val : Nat} {c : Counter T} {e : Fault} (h : (bumpK key x val c).1 = .error e) :
    e = .overflow := by
  unfold bumpK entryAdd at h
  simp only at h
  unfold uadd at h
  split at h
  · rename_i h'; split at h' <;> [skip; split at h'] <;> simp_all
  · rename_i h'; split at h' <;> [skip; split at h'] <;> simp_all

omit [Cfg] in
theorem first_cons (k : K) (x : T) (xs : List T) :
    first key k (x :: xs) = (if key x = k then some x else none).or (first key k xs) := by
  unfold first
  rw [List.find?_cons]
  by_cases h : key x = k <;> simp [h]

theorem addLoopK_kept (es : List (T × Nat)) (p : Bool) (c : Counter T)
    (h : (addLoopK key es p c).1 ≠ .error .overflow) (k : K) :
    kept key (addLoopK key es p c).2 k = (kept key c k).or (first key k (es.map (·.1))) := by
  induction es generalizing c with
  | nil =>
    show kept key ((if p then M.throw .user else pure () : M (Counter T) Unit) c).2 k = _
    rw [show first key k (([] : List (T × Nat)).map (·.1)) = none from rfl, Option.or_none]
    cases p <;> rfl
  | cons e es ih =>
    have hb : addLoopK key (e :: es) p c = (bumpK key e.1 e.2 >>= fun _ => addLoopK key es p) c := rfl
    rw [hb] at h ⊢
    rw [M.bind_run] at h ⊢
    have hk := bumpK_kept (key := key) e.1 e.2 c k
    have hf := @bumpK_fault _ _ _ key _ e.1 e.2 c
    rcases hm : bumpK key e.1 e.2 c with ⟨r, c'⟩
    rw [hm] at h hk hf
    cases r with
    | ok a =>
      simp only at h hk ⊢
      rw [ih c' h, hk, List.map_cons, first_cons, Option.or_assoc]
    | error f =>
      rw [hf rfl] at h
      exact absurd rfl h

theorem addLoopK_kept_overflow (es : List (T × Nat)) (p : Bool) (c : Counter T)
    (h : (addLoopK key es p c).1 = .error .overflow) :
    ∃ n < es.length, ∀ k, kept key (addLoopK key es p c).2 k =
      (kept key c k).or (first key k ((es.map (·.1)).take (n + 1))) := by
  induction es generalizing c with
  | nil =>
    have h : ((if p then M.throw .user else pure () : M (Counter T) Unit) c).1 = .error .overflow := h
    cases p <;> cases h
  | cons e es ih =>
    have hb : addLoopK key (e :: es) p c = (bumpK key e.1 e.2 >>= fun _ => addLoopK key es p) c := rfl
    rw [hb] at h ⊢
    rw [M.bind_run] at h ⊢
    have hk := bumpK_kept (key := key) e.1 e.2 c
    rcases hm : bumpK key e.1 e.2 c with ⟨r, c'⟩
    rw [hm] at h hk
    cases r with
    | ok a =>
      simp only at h hk ⊢
      obtain ⟨n, hn, ih⟩ := ih c' h
      refine ⟨n + 1, by simpa using hn, fun k => ?_⟩
      rw [ih, hk, List.map_cons, List.take_succ_cons, first_cons, Option.or_assoc]
    | error f =>
      refine ⟨0, by simp, fun k => ?_⟩
      rw [List.map_cons, List.take_succ_cons, List.take_zero, first_cons,
        show first key k [] = none from rfl, Option.or_none]
      exact hk k

theorem subAssignStep_kept (x : T) (val : Nat) (c : Counter T) (k : K) :
    kept key (subAssignStep key x val c).2 k =
      if (kept key (subAssignStep key x val c).2 k).isSome then kept key c k else none := by
  have hs : ∀ {o o' : Option T}, (o = o' ∨ o = none) → o = if o.isSome then o' else none := by
    rintro o o' (rfl | rfl)
    · cases o <;> rfl
    · rfl
  apply hs
  unfold subAssignStep
  cases hg : KMap.get key c.counter x with
  | none => exact .inl rfl
  | some cur =>
    simp only
    by_cases h : cur ≤ val
    · simp only [h, ↓reduceIte, kept, KMap.stored_remove]
      split
      · exact .inr rfl
      · exact .inl rfl
    · simp only [h, ↓reduceIte]
      cases usub cur val with
      | ok v =>
        simp only [kept, KMap.stored_insert]
        left
        by_cases hk : key x = k
        · subst hk
          have : (KMap.stored key c.counter (key x)).isSome := by rw [KMap.stored_isSome, hg]; rfl
          cases hs : KMap.stored key c.counter (key x) with
          | none => rw [hs] at this; cases this
          | some y => rfl
        · rw [if_neg hk, Option.or_none]
      | error e => exact .inl rfl

theorem subAssign_no_overflow (es : List (T × Nat)) (p : Bool) (c : Counter T) :
    (subAssign key es p c).1 ≠ .error .overflow := by
  induction es generalizing c with
  | nil =>
    show ((if p then M.throw .user else pure () : M (Counter T) Unit) c).1 ≠ _
    cases p <;> intro h <;> cases h
  | cons e es ih =>
    have hb : subAssign key (e :: es) p c = (subAssignStep key e.1 e.2 >>= fun _ => subAssign key es p) c := rfl
    have hok : (subAssignStep key e.1 e.2 c).1 = .ok () := by
      unfold subAssignStep
      cases KMap.get key c.counter e.1 with
      | none => rfl
      | some cur =>
        simp only
        split
        · rfl
        · rw [usub, if_pos (by omega)]
    rw [hb, M.bind_run]
    generalize subAssignStep key e.1 e.2 c = q at hok ⊢
    obtain ⟨r, c'⟩ := q
    cases hok
    exact ih c'

theorem subAssign_kept (es : List (T × Nat)) (p : Bool) (c : Counter T) (k : K) :
    kept key (subAssign key es p c).2 k = kept key c k ∨ kept key (subAssign key es p c).2 k = none := by
  induction es generalizing c with
  | nil => left; show kept key ((if p then M.throw .user else pure () : M (Counter T) Unit) c).2 k = _; cases p <;> rfl
  | cons e es ih =>
    have hb : subAssign key (e :: es) p c = (subAssignStep key e.1 e.2 >>= fun _ => subAssign key es p) c := rfl
    rw [hb, M.bind_run]
    have hk := subAssignStep_kept (key := key) e.1 e.2 c k
    generalize subAssignStep key e.1 e.2 c = q at hk ⊢
    obtain ⟨r, c'⟩ := q
    have h' : kept key c' k = kept key c k ∨ kept key c' k = none := by
      by_cases hs : (kept key c' k).isSome
      · left
        have hk' : kept key c' k = if (kept key c' k).isSome then kept key c k else none := hk
        rwa [if_pos hs] at hk'
      · right; simpa using hs
    cases r with
    | ok a =>
      rcases ih c' with h | h
      · rw [h]; exact h'
      · exact .inr h
    | error f => exact h'

omit [Cfg] in
theorem kept_isSome (c : Counter T) (k : K) : (kept key c k).isSome = ((keys key c).get k).isSome := by
  show _ = ((HMap.lookup k (KMap.pairs key c.counter.entries))).isSome
  rw [KMap.lookup_pairs]
  unfold kept KMap.stored
  cases KMap.find key k c.counter.entries <;> rfl

omit [DecidableEq K] in
theorem valid_keys [DecidableEq K] {c : Counter T} (h : Valid key c) : Cnt.Valid (keys key c) := by
  refine ⟨KMap.valid_keys.mp h.1, fun k n hn => ?_⟩
  have hm := HMap.mem_of_lookup hn
  obtain ⟨e, he, heq⟩ := List.mem_map.mp hm
  cases heq
  exact h.2 e he

omit [DecidableEq K] [Cfg] in
theorem iterOf_keys {order : List (T × Nat)} {c : Counter T} (h : IterOf order c) :
    Cnt.IterOf (KMap.pairs key order) (keys key c) := h.map _

theorem first_iterOf {order : List (T × Nat)} {c : Counter T} (hv : Valid key c) (h : IterOf order c) (k : K) :
    first key k (order.map (·.1)) = kept key c k := by
  unfold first kept KMap.stored
  rw [← KMap.find_map_fst, KMap.find_perm h hv.1]

omit [Cfg] in
theorem first_clone (hc : Faithful key clone) (k : K) (xs : List T) :
    first key k (xs.map clone) = (first key k xs).map clone := by
  induction xs with
  | nil => rfl
  | cons x xs ih =>
    rw [List.map_cons, first_cons, first_cons, ih, hc]
    split <;> rfl

omit [Cfg] in
theorem fromIter_stored (es : List (T × Nat)) (k : K) :
    KMap.stored key (KMap.fromIter key es) k = first key k (es.map (·.1)) := by
  have : ∀ m : HMap T Nat, KMap.stored key (es.foldl (fun m e => KMap.insert key m e.1 e.2) m) k =
      (KMap.stored key m k).or (first key k (es.map (·.1))) := by
    induction es with
    | nil => intro m; rw [show first key k (([] : List (T × Nat)).map (·.1)) = none from rfl, Option.or_none]; rfl
    | cons e es ih =>
      intro m
      rw [List.foldl_cons, ih, KMap.stored_insert, List.map_cons, first_cons, Option.or_assoc]
  exact this ⟨[]⟩

end
end Cnt.Key
