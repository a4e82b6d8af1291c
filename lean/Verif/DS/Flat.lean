import Verif.DS.Cost
/-!
# Path compression leaves short paths
-/

open Rust
namespace DS

/-- a search that returns does the same with a larger stack -/
theorem find_more {n m i r : Nat} {d e : List Data} (h : find n i d = (.ok r, e)) (hnm : n ≤ m) :
    find m i d = (.ok r, e) := by
  induction n generalizing m i d r e with
  | zero => cases h
  | succ n ih =>
    obtain ⟨m, rfl⟩ : ∃ k, m = k + 1 := ⟨m - 1, by omega⟩
    rw [find] at h ⊢
    rcases hv : at' i d with ⟨z, dz⟩
    cases z with
    | error err => rw [M.bind_error hv] at h; cases h
    | ok w =>
      rw [M.bind_ok hv] at h ⊢
      by_cases hw : w.parent ≠ i
      · rw [if_pos hw] at h ⊢
        rcases ha : find n w.parent dz with ⟨z1, e1⟩
        cases z1 with
        | error err => rw [M.bind_error ha] at h; cases h
        | ok q =>
          rw [M.bind_ok ha] at h
          rw [M.bind_ok (ih ha (by omega))]
          exact h
      · rw [if_neg hw] at h ⊢
        exact h

/-- what a search does to the forest: the node points to its root, every other node keeps its parent or points
to its root -/
theorem find_shape {stack : Nat} {d : List Data} (g : Good d) (hs : d.length < 2 ^ stack) {i r : Nat}
    (hi : i < d.length) (h : Root d i r) :
    ∃ d', find stack i d = (.ok r, d') ∧ Sim d d' ∧ par d' i = r ∧
      ∀ j, par d' j = par d j ∨ Root d j (par d' j) := by
  have h1 := g.rank_lt hi h hs
  obtain ⟨d', n, f, s, p, c, _⟩ := find_cost (a := rk d r) stack g.forest hi h (by omega) (lt_A_one _) 0
  obtain ⟨n', e⟩ := Counted.erases_find stack i d 0
  rw [f] at e
  have e1 : (find stack i d).1 = .ok r := (congrArg (fun q => q.1) e).symm
  have e2 : (find stack i d).2 = d' := (congrArg (fun q => q.2.1) e).symm
  exact ⟨d', by rw [← e1, ← e2], s, p, fun j => (c j).imp id And.left⟩

/-- a node that points to its root keeps doing so -/
theorem flat_keep {d d' : List Data} (s : Sim d d') (c : ∀ j, par d' j = par d j ∨ Root d j (par d' j)) {j : Nat}
    (h : par d (par d j) = par d j) : par d' j = par d j ∧ par d' (par d' j) = par d' j := by
  have e : par d' j = par d j := by
    rcases c j with e | e
    · exact e
    · have hr : Root d j (par d j) := by
        by_cases hj : par d j = j
        · rw [hj]; exact .root hj
        · exact .step hj (.root h)
      exact e.functional hr
  refine ⟨e, ?_⟩
  rw [e]
  exact (s.isRoot _).mpr h

/-- searching from a node that points to its root takes two frames and changes nothing -/
theorem find_flat {stack : Nat} (hk : 2 ≤ stack) {d : List Data} (hf : Forest d) {i : Nat} (hi : i < d.length)
    (h : par d (par d i) = par d i) : find stack i d = (.ok (par d i), d) := by
  obtain ⟨k, rfl⟩ : ∃ k, stack = k + 1 + 1 := ⟨stack - 2, by omega⟩
  have hat : ∀ j, j < d.length → at' j d = (.ok ⟨par d j, rk d j⟩, d) := fun j hj => by
    rw [at', get_of_lt hj]
  have hroot : ∀ j, j < d.length → par d j = j → find (k + 1) j d = (.ok j, d) := fun j hj hp => by
    rw [find, M.bind_ok (hat j hj), if_neg (by simp [hp]), M.pure_run, hp]
  rw [find, M.bind_ok (hat i hi)]
  by_cases hp : par d i = i
  · rw [if_neg (by simp [hp]), M.pure_run]
  · rw [if_pos hp, M.bind_ok (hroot _ (hf.range i hi) h)]
    have hset : setParent i (par d i) d = (.ok (), d) := by
      rw [setParent, get_of_lt hi]
      simp only
      congr 1
      have := get_of_lt hi
      apply List.ext_getElem?
      intro n
      rw [List.getElem?_set]
      by_cases hn : i = n
      · subst hn; rw [if_pos rfl, if_pos hi, this]
      · rw [if_neg hn]
    rw [M.bind_ok hset, M.pure_run]

/-- every node points to its root -/
def AllFlat (d : List Data) : Prop := ∀ i, par d (par d i) = par d i

variable {T : Type} [DecidableEq T]

theorem makeOrGetSet_flat {s : DSet T} {b : Abs T} (r : Rel s b) (hf : AllFlat s.dataById) (x : T) (kp : Bool) :
    AllFlat (DSet.makeOrGetSet x kp s).2.dataById := by
  rw [DSet.makeOrGetSet]
  split
  · exact hf
  · simp only
    split
    · intro i
      simp only
      rw [← r.len, par_append, par_append]
      exact hf i
    · exact hf

theorem extendLoop_flat (items : List T) (p : Bool) {s : DSet T} {b : Abs T} (r : Rel s b)
    (hf : AllFlat s.dataById) : AllFlat (DSet.extendLoop items p s).2.dataById := by
  induction items generalizing s b with
  | nil => cases p <;> exact hf
  | cons x xs ih =>
    obtain ⟨i, s1, h1, _, r1, _⟩ := makeOrGetSet_ok r x
    rw [DSet.extendLoop, M.bind_ok (makeSet_of h1)]
    have := makeOrGetSet_flat r hf x false
    rw [h1] at this
    exact ih r1 this

theorem findOn_flat {stack : Nat} (hk : 2 ≤ stack) {s : DSet T} {b : Abs T} (r : Rel s b) {i : Nat}
    (hi : i < s.dataById.length) (h : par s.dataById (par s.dataById i) = par s.dataById i) :
    (DSet.onData (find stack i) : M (DSet T) Nat) s = (.ok (par s.dataById i), s) := by
  rw [DSet.onData, find_flat hk r.good.forest hi h]

/-- `in_union` of two elements that point to their roots -/
theorem inUnion_flat {stack : Nat} (hk : 2 ≤ stack) {s : DSet T} {b : Abs T} (r : Rel s b) (x y : T)
    (h : ∀ i, (s.ids.get x = some i ∨ s.ids.get y = some i) →
      par s.dataById (par s.dataById i) = par s.dataById i) :
    DSet.inUnion stack x y false false s = (.ok (match s.ids.get x, s.ids.get y with
      | some i, some j => decide (par s.dataById i = par s.dataById j)
      | _, _ => false), s) := by
  have hl : ∀ z, DSet.lookup z false s = (.ok (s.ids.get z), s) := fun z => rfl
  rw [DSet.inUnion, M.bind_ok (hl x)]
  cases hx : s.ids.get x with
  | none => rfl
  | some i =>
    simp only
    rw [M.bind_ok (hl y)]
    cases hy : s.ids.get y with
    | none => rfl
    | some j =>
      simp only
      rw [M.bind_ok (findOn_flat hk r (r.lt x i hx) (h i (.inl hx))),
        M.bind_ok (findOn_flat hk r (r.lt y j hy) (h j (.inr hy))), M.pure_run]

theorem buildLoop_flat {stack : Nat} (hk : 2 ≤ stack) (es : List (T × Nat)) (m : HMap Nat (List T)) {s : DSet T}
    {b : Abs T} (r : Rel s b) (hf : AllFlat s.dataById) (he : ∀ e ∈ es, e.2 < s.dataById.length) :
    (DSet.buildLoop stack es m s).2 = s := by
  induction es generalizing m with
  | nil => rfl
  | cons e es ih =>
    obtain ⟨key, val⟩ := e
    rw [DSet.buildLoop, M.bind_ok (findOn_flat hk r (he _ List.mem_cons_self) (hf _))]
    exact ih _ fun e he' => he e (List.mem_cons_of_mem _ he')

theorem iterate_snd {stack : Nat} {o : List (T × Nat) → List (T × Nat)}
    {o' : List (Nat × List T) → List (Nat × List T)} {s : DSet T} :
    (DSet.iterate stack o o' s).2 = (DSet.buildLoop stack (o s.ids.entries) HMap.empty s).2 := by
  rw [DSet.iterate, M.bind_run, DSet.buildSets]
  rcases DSet.buildLoop stack (o s.ids.entries) HMap.empty s with ⟨q, s'⟩
  cases q <;> rfl

theorem wrap_snd {α : Type} (f : α → Out T) (m : M (DSet T) α) (s : DSet T) : (wrap f m s).2 = (m s).2 := by
  rw [wrap]
  rcases m s with ⟨r, s'⟩
  cases r <;> rfl

/-- the ids of the entries in any order are in range -/
theorem entries_lt {s : DSet T} {b : Abs T} (r : Rel s b) (o : Shuffle (T × Nat)) :
    ∀ e ∈ o.f s.ids.entries, e.2 < s.dataById.length := fun e he =>
  r.lt e.1 e.2 ((HMap.get_eq_some r.valid).mpr ((o.perm _).mem_iff.mp he))

/-- after the grouping loop all its nodes point to their roots -/
theorem buildLoop_flattens {stack : Nat} (es : List (T × Nat)) (m : HMap Nat (List T)) {s : DSet T} {b : Abs T}
    (r : Rel s b) (hs : s.ids.len < 2 ^ stack) (he : ∀ e ∈ es, e.2 < s.dataById.length) :
    (∀ e ∈ es, par (DSet.buildLoop stack es m s).2.dataById (par (DSet.buildLoop stack es m s).2.dataById e.2) =
      par (DSet.buildLoop stack es m s).2.dataById e.2) ∧
    ∀ j, par s.dataById (par s.dataById j) = par s.dataById j →
      par (DSet.buildLoop stack es m s).2.dataById (par (DSet.buildLoop stack es m s).2.dataById j) =
      par (DSet.buildLoop stack es m s).2.dataById j := by
  induction es generalizing m s with
  | nil => exact ⟨fun e h => absurd h List.not_mem_nil, fun j h => h⟩
  | cons e es ih =>
    obtain ⟨key, val⟩ := e
    obtain ⟨q, hq⟩ := Root.total r.good.forest val
    obtain ⟨d', f, sm, p, c⟩ := find_shape r.good (by rw [r.len]; exact hs) (he _ List.mem_cons_self) hq
    have hon : (DSet.onData (find stack val) : M (DSet T) Nat) s = (.ok q, { s with dataById := d' }) := by
      rw [DSet.onData]; simp only [f]
    have tw : Twin s { s with dataById := d' } := ⟨rfl, sm⟩
    rw [DSet.buildLoop, M.bind_ok hon]
    obtain ⟨i1, i2⟩ := ih (m := (m.orInsert q []).2.insert q ((m.orInsert q []).1 ++ [key])) (tw.rel r) hs
      (fun e he' => by simp only; rw [sm.len]; exact he e (List.mem_cons_of_mem _ he'))
    refine ⟨fun e hm => ?_, fun j hj => i2 j (flat_keep sm c hj).2⟩
    rcases List.mem_cons.mp hm with rfl | hm
    · refine i2 val ?_
      simp only
      rw [p]
      exact (sm.isRoot q).mpr hq.is_root
    · exact i1 e hm

/-- iteration leaves every node pointing to its root -/
theorem iterate_flattens {stack : Nat} {s : DSet T} {b : Abs T} (r : Rel s b) (hs : s.ids.len < 2 ^ stack)
    (o : Shuffle (T × Nat)) (o' : Shuffle (Nat × List T)) :
    AllFlat (DSet.iterate stack o.f o'.f s).2.dataById := by
  obtain ⟨s', h1, tw⟩ := iterate_ok (stack := stack) r hs o o'
  have hl : (DSet.iterate stack o.f o'.f s).2.dataById.length = s.dataById.length := by
    rw [h1]; exact tw.sim.len
  rw [iterate_snd] at hl ⊢
  have h := (buildLoop_flattens (stack := stack) (o.f s.ids.entries) HMap.empty r hs (entries_lt r o)).1
  intro i
  by_cases hi : i < s.dataById.length
  · obtain ⟨x, hx⟩ := r.surj i hi
    exact h (x, i) ((o.perm _).mem_iff.mpr ((HMap.get_eq_some r.valid).mp hx))
  · have hp : par (DSet.buildLoop stack (o.f s.ids.entries) HMap.empty s).2.dataById i = i :=
      par_out (by rw [hl]; omega)
    rw [hp, hp]

/-- is the call a `union`? -/
def Op.isUnion : Op T → Bool
  | .union .. => true
  | _ => false

/-- only `union` makes paths longer -/
theorem step_flat [Cfg] {stack : Nat} (hk : 2 ≤ stack) {s : DSet T} {b : Abs T} (r : Rel s b)
    (hf : AllFlat s.dataById) {op : Op T} (ho : op.isUnion = false) : AllFlat (step stack op s).2.dataById := by
  cases op with
  | makeSet x kp =>
    rw [step, wrap_snd, DSet.makeSet, M.bind_run]
    have := makeOrGetSet_flat r hf x kp
    rcases h : DSet.makeOrGetSet x kp s with ⟨q, s'⟩
    rw [h] at this
    cases q <;> exact this
  | union => cases ho
  | inUnion x y xp yp =>
    rw [step, wrap_snd]
    by_cases hp : (xp || yp) = true
    · rw [inUnion_panics x y xp yp hp]; exact hf
    · have e1 : xp = false := by cases xp <;> simp_all
      have e2 : yp = false := by cases yp <;> simp_all
      subst e1; subst e2
      rw [inUnion_flat hk r x y fun i _ => hf i]; exact hf
  | contains x kp => rw [step, wrap_snd]; cases kp <;> exact hf
  | len => exact hf
  | isEmpty => exact hf
  | clear => intro i; rfl
  | reserve n cp => rw [step, wrap_snd]; cases cp <;> exact hf
  | extend hint cp items p =>
    rw [step, wrap_snd]
    cases cp with
    | true => exact hf
    | false => rw [extend_eq]; exact extendLoop_flat items p r hf
  | extendRef hint cp items p =>
    rw [step, wrap_snd]
    cases cp with
    | true => exact hf
    | false => rw [extendRef_eq]; exact extendLoop_flat items p r hf
  | iterate o o' =>
    rw [step, wrap_snd, iterate_snd, buildLoop_flat hk _ _ r hf (entries_lt r o)]
    exact hf

theorem run_flat [Cfg] {stack : Nat} (hk : 64 ≤ stack) {s : DSet T} {b : Abs T} (r : Rel s b)
    (hf : AllFlat s.dataById) {ops : List (Op T)} (ho : ∀ op ∈ ops, op.isUnion = false) (hm : Small b ops) :
    AllFlat (run stack ops s).2.dataById := by
  induction ops generalizing s b with
  | nil => exact hf
  | cons op ops ih =>
    obtain ⟨out, s', h1, r1, _⟩ := step_ok (stack := stack) r op hm.head (lt_two_pow hm.head hk)
    have h2 := step_flat (stack := stack) (by omega) r hf (ho op List.mem_cons_self)
    rw [h1] at h2
    have := ih r1 h2 (fun o h => ho o (List.mem_cons_of_mem _ h)) hm.tail
    rw [run]; simp only [h1]
    exact this

/-! ### a single element -/

/-- the node of `x`, if any, points to its root -/
def FlatAt (s : DSet T) (x : T) : Prop :=
  ∀ i, s.ids.get x = some i → par s.dataById (par s.dataById i) = par s.dataById i

/-- a search keeps what points to its root -/
theorem FlatAt.find {stack : Nat} {s : DSet T} {b : Abs T} {x : T} (h : FlatAt s x) (r : Rel s b)
    (hs : s.ids.len < 2 ^ stack) {j : Nat} (hj : j < s.dataById.length) :
    ∃ q d', (DSet.onData (find stack j) : M (DSet T) Nat) s = (.ok q, { s with dataById := d' }) ∧
      Sim s.dataById d' ∧ par d' q = q ∧ par d' j = q ∧ FlatAt { s with dataById := d' } x := by
  obtain ⟨q, hq⟩ := Root.total r.good.forest j
  obtain ⟨d', f, sm, p, c⟩ := find_shape r.good (by rw [r.len]; exact hs) hj hq
  refine ⟨q, d', by rw [DSet.onData]; simp only [f], sm, (sm.isRoot q).mpr hq.is_root, p, fun i hi => ?_⟩
  exact (flat_keep sm c (h i hi)).2

theorem makeOrGetSet_flatAt {s : DSet T} {b : Abs T} (r : Rel s b) {x : T} (h : FlatAt s x) (y : T) (kp : Bool) :
    FlatAt (DSet.makeOrGetSet y kp s).2 x := by
  rw [DSet.makeOrGetSet]
  split
  · exact h
  · simp only
    split
    · intro i hi
      simp only at hi ⊢
      rw [← r.len, par_append, par_append]
      rw [HMap.get_insert] at hi
      split at hi
      · cases hi
        have hp : par s.dataById s.ids.len = s.ids.len := par_out (Nat.le_of_eq r.len)
        rw [hp, hp]
      · exact h i hi
    · exact h

theorem extendLoop_flatAt (items : List T) (p : Bool) {s : DSet T} {b : Abs T} (r : Rel s b) {x : T}
    (h : FlatAt s x) : FlatAt (DSet.extendLoop items p s).2 x := by
  induction items generalizing s b with
  | nil => cases p <;> exact h
  | cons y ys ih =>
    obtain ⟨i, s1, h1, _, r1, _⟩ := makeOrGetSet_ok r y
    rw [DSet.extendLoop, M.bind_ok (makeSet_of h1)]
    have := makeOrGetSet_flatAt r h y false
    rw [h1] at this
    exact ih r1 this

theorem inUnion_flatAt {stack : Nat} {s : DSet T} {b : Abs T} (r : Rel s b) (hs : s.ids.len < 2 ^ stack) {x : T}
    (h : FlatAt s x) (y z : T) : FlatAt (DSet.inUnion stack y z false false s).2 x := by
  have hl : ∀ z, DSet.lookup z false s = (.ok (s.ids.get z), s) := fun z => rfl
  rw [DSet.inUnion, M.bind_ok (hl y)]
  cases hy : s.ids.get y with
  | none => exact h
  | some i =>
    simp only
    rw [M.bind_ok (hl z)]
    cases hz : s.ids.get z with
    | none => exact h
    | some j =>
      simp only
      obtain ⟨q, d1, f1, sm, _, _, h1⟩ := h.find r hs (r.lt y i hy)
      have tw : Twin s { s with dataById := d1 } := ⟨rfl, sm⟩
      obtain ⟨q', d2, f2, _, _, _, h2⟩ := h1.find (tw.rel r) hs (j := j)
        (by simp only; rw [sm.len]; exact r.lt z j hz)
      rw [M.bind_ok f1, M.bind_ok f2, M.pure_run]
      exact h2

theorem step_flatAt [Cfg] {stack : Nat} {s : DSet T} {b : Abs T} (r : Rel s b) (hs : s.ids.len < 2 ^ stack)
    {x : T} (h : FlatAt s x) {op : Op T} (ho : op.isUnion = false) : FlatAt (step stack op s).2 x := by
  cases op with
  | makeSet y kp =>
    rw [step, wrap_snd, DSet.makeSet, M.bind_run]
    have := makeOrGetSet_flatAt r h y kp
    rcases h : DSet.makeOrGetSet y kp s with ⟨q, s'⟩
    rw [h] at this
    cases q <;> exact this
  | union => cases ho
  | inUnion y z yp zp =>
    rw [step, wrap_snd]
    by_cases hp : (yp || zp) = true
    · rw [inUnion_panics y z yp zp hp]; exact h
    · have e1 : yp = false := by cases yp <;> simp_all
      have e2 : zp = false := by cases zp <;> simp_all
      subst e1; subst e2
      exact inUnion_flatAt r hs h y z
  | contains y kp => rw [step, wrap_snd]; cases kp <;> exact h
  | len => exact h
  | isEmpty => exact h
  | clear => intro i hi; cases hi
  | reserve n cp => rw [step, wrap_snd]; cases cp <;> exact h
  | extend hint cp items p =>
    rw [step, wrap_snd]
    cases cp with
    | true => exact h
    | false => rw [extend_eq]; exact extendLoop_flatAt items p r h
  | extendRef hint cp items p =>
    rw [step, wrap_snd]
    cases cp with
    | true => exact h
    | false => rw [extendRef_eq]; exact extendLoop_flatAt items p r h
  | iterate o o' =>
    rw [step, wrap_snd]
    intro i _
    exact iterate_flattens r hs o o' i

theorem run_flatAt [Cfg] {stack : Nat} (hk : 64 ≤ stack) {s : DSet T} {b : Abs T} (r : Rel s b) {x : T}
    (h : FlatAt s x) {ops : List (Op T)} (ho : ∀ op ∈ ops, op.isUnion = false) (h0 : b.card ≤ usizeMax)
    (hm : Small b ops) : FlatAt (run stack ops s).2 x := by
  induction ops generalizing s b with
  | nil => exact h
  | cons op ops ih =>
    obtain ⟨out, s', h1, r1, _⟩ := step_ok (stack := stack) r op hm.head (lt_two_pow hm.head hk)
    have h2 := step_flatAt (stack := stack) r (by rw [r.card]; exact lt_two_pow h0 hk) h (ho op List.mem_cons_self)
    rw [h1] at h2
    have := ih r1 h2 (fun o h => ho o (List.mem_cons_of_mem _ h)) hm.head hm.tail
    rw [run]; simp only [h1]
    exact this

/-! ### after a union -/

/-- searching from a node whose parent points to its root takes three frames -/
theorem find_short {d : List Data} (hf : Forest d) {i r : Nat} (hi : i < d.length) (h : Root d i r) {stack : Nat}
    (hk : 3 ≤ stack) (hp : par d (par d (par d i)) = par d (par d i)) : ∃ d', find stack i d = (.ok r, d') := by
  obtain ⟨k, rfl⟩ : ∃ k, stack = k + 1 := ⟨stack - 1, by omega⟩
  have hat : at' i d = (.ok ⟨par d i, rk d i⟩, d) := by rw [at', get_of_lt hi]
  rw [find, M.bind_ok hat]
  have e : ∀ {j q}, Root d j q → par d (par d j) = par d j → par d j = q := by
    intro j q hj hp'
    by_cases h1 : par d j = j
    · rw [h1]; exact (Root.root h1).functional hj
    · exact (Root.step h1 (.root hp')).functional hj
  by_cases h1 : par d i = i
  · rw [if_neg (by simp [h1]), M.pure_run, h1]
    exact ⟨d, by rw [(Root.root h1).functional h]⟩
  · rw [if_pos h1, M.bind_ok (find_flat (by omega) hf (hf.range i hi) hp)]
    have hset : ∃ d', setParent i (par d (par d i)) d = (.ok (), d') := by
      rw [setParent, get_of_lt hi]; exact ⟨_, rfl⟩
    obtain ⟨d', hset⟩ := hset
    rw [M.bind_ok hset, M.pure_run]
    have hroot : Root d (par d i) r := by
      cases h with
      | root h => exact absurd h h1
      | step _ h => exact h
    exact ⟨d', by rw [e hroot hp]⟩

/-- after `union` both ids are at most two steps below their root -/
theorem unionIds_short [Cfg] {stack : Nat} {d : List Data} (g : Good d) (hm : d.length ≤ usizeMax)
    (hs : d.length < 2 ^ stack) {x y : Nat} (hx : x < d.length) (hy : y < d.length) :
    ∀ i, i = x ∨ i = y → par (unionIds stack x y d).2 (par (unionIds stack x y d).2 (par (unionIds stack x y d).2 i)) =
      par (unionIds stack x y d).2 (par (unionIds stack x y d).2 i) := by
  obtain ⟨rx, hrx⟩ := Root.total g.forest x
  obtain ⟨ry, hry⟩ := Root.total g.forest y
  obtain ⟨d1, f1, s1, p1, c1⟩ := find_shape g hs hx hrx
  have g1 := s1.good g
  obtain ⟨d2, f2, s2, p2, c2⟩ := find_shape g1 (by rw [s1.len]; exact hs) (by rw [s1.len]; exact hy)
    ((s1.root y ry).mpr hry)
  have s := s1.trans s2
  have g2 := s.good g
  have hxr : par d2 rx = rx := (s.isRoot rx).mpr hrx.is_root
  have hyr : par d2 ry = ry := (s.isRoot ry).mpr hry.is_root
  have px : par d2 x = rx := by
    have := (flat_keep s2 c2 (j := x) (by rw [p1]; exact (s1.isRoot rx).mpr hrx.is_root)).1
    rw [this, p1]
  rw [unionIds_eq, M.bind_ok f1, M.bind_ok f2]
  by_cases hne : rx = ry
  · have : linkIds rx ry d2 = (.ok (), d2) := by unfold linkIds; rw [if_pos hne, M.pure_run]
    rw [this]
    rintro i (rfl | rfl)
    · rw [px, hxr, hxr]
    · rw [p2, hyr, hyr]
  · obtain ⟨d', h1, w⟩ := linkIds_wired g2 (by rw [s.len]; exact hm)
      (by rw [s.len]; exact hrx.lt g.forest hx) (by rw [s.len]; exact hry.lt g.forest hy) hxr hyr hne
    rw [h1]
    simp only
    have key : ∀ q, par d2 q = q → par d' (par d' q) = par d' q := by
      intro q hq
      rw [w.par q]
      by_cases hql : q = loOf d2 rx ry
      · rw [if_pos hql, w.par, if_neg w.ne, w.hi_root]
      · rw [if_neg hql, hq, w.par, if_neg hql, hq]
    have step : ∀ i, par d2 (par d2 i) = par d2 i → par d' (par d' (par d' i)) = par d' (par d' i) := by
      intro i hi
      by_cases hil : i = loOf d2 rx ry
      · have : par d2 i = i := by rw [hil]; exact w.lo_root
        rw [key i this, key i this]
      · have e : par d' i = par d2 i := by rw [w.par, if_neg hil]
        rw [e]; exact key _ hi
    rintro i (rfl | rfl)
    · exact step i (by rw [px, hxr])
    · exact step i (by rw [p2, hyr])

end DS
