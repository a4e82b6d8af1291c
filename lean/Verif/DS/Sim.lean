import Verif.DS.Lemmas
/-!
# Histories of calls
-/

open Rust
namespace DS

section
variable {T : Type} [DecidableEq T]

omit [DecidableEq T] in
theorem wrap_ok {α : Type} {f : α → Out T} {m : M (DSet T) α} {s s' : DSet T} {x : α}
    (h : m s = (.ok x, s')) : wrap f m s = (.ok (f x), s') := by rw [wrap, h]
omit [DecidableEq T] in
theorem wrap_error {α : Type} {f : α → Out T} {m : M (DSet T) α} {s s' : DSet T} {e : Fault}
    (h : m s = (.error e, s')) : wrap f m s = (.error e, s') := by rw [wrap, h]

/-! ### the loops over items -/

theorem makeSet_of {x : T} {kp : Bool} {s s' : DSet T} {i : Nat}
    (h : DSet.makeOrGetSet x kp s = (.ok i, s')) : DSet.makeSet x kp s = (.ok (), s') := by
  rw [DSet.makeSet, M.bind_ok h, M.pure_run]

theorem fromIterLoop_eq (items : List T) (p : Bool) : DSet.fromIterLoop items p = DSet.extendLoop items p := by
  induction items with
  | nil => rfl
  | cons x xs ih => simp only [DSet.fromIterLoop, DSet.extendLoop, ih]
theorem fromIterRefLoop_eq (items : List T) (p : Bool) :
    DSet.fromIterRefLoop items p = DSet.extendLoop items p := by
  induction items with
  | nil => rfl
  | cons x xs ih => simp only [DSet.fromIterRefLoop, DSet.extendLoop, ih]
theorem extendRefLoop_eq (items : List T) (p : Bool) :
    DSet.extendRefLoop items p = DSet.extendLoop items p := by
  induction items with
  | nil => rfl
  | cons x xs ih => simp only [DSet.extendRefLoop, DSet.extendLoop, ih]
theorem extend_eq (hint : Nat) (items : List T) (p : Bool) :
    DSet.extend hint false items p = DSet.extendLoop items p := rfl
theorem extendRef_eq (hint : Nat) (items : List T) (p : Bool) :
    DSet.extendRef hint false items p = DSet.extendLoop items p := by
  rw [← extendRefLoop_eq]; rfl

/-- how a loop over the user's items ends -/
def endOf (p : Bool) : Except Fault Unit := if p then .error .user else .ok ()

theorem extendLoop_ok (items : List T) (p : Bool) {s : DSet T} {a : Abs T} (r : Rel s a) :
    ∃ s', DSet.extendLoop items p s = (endOf p, s') ∧
      Rel s' { a with elems := items.reverse ++ a.elems } := by
  induction items generalizing s a with
  | nil => exact ⟨s, by cases p <;> rfl, r⟩
  | cons x xs ih =>
    obtain ⟨i, s1, h1, _, r1, _⟩ := makeOrGetSet_ok r x
    obtain ⟨s', h2, r2⟩ := ih r1
    refine ⟨s', ?_, ?_⟩
    · rw [DSet.extendLoop, M.bind_ok (makeSet_of h1), h2]
    · simpa using r2

theorem extendLoop_twin (items : List T) (p : Bool) {s t : DSet T} {a : Abs T} (r : Rel s a) (h : Twin s t)
    {s' : DSet T} (hs : DSet.extendLoop items p s = (endOf p, s')) :
    ∃ t', DSet.extendLoop items p t = (endOf p, t') ∧ Twin s' t' := by
  induction items generalizing s t a with
  | nil =>
    have : s' = s := by cases p <;> exact (Prod.mk.inj hs).2.symm
    subst this
    exact ⟨t, by cases p <;> rfl, h⟩
  | cons x xs ih =>
    obtain ⟨i, s1, h1, _, r1, _⟩ := makeOrGetSet_ok r x
    obtain ⟨t1, h2, tw⟩ := makeOrGetSet_twin r h x h1
    rw [DSet.extendLoop, M.bind_ok (makeSet_of h1)] at hs
    obtain ⟨t', h3, h4⟩ := ih r1 tw hs
    exact ⟨t', by rw [DSet.extendLoop, M.bind_ok (makeSet_of h2), h3], h4⟩

/-! ### in_union -/

theorem inUnion_ok {stack : Nat} {s : DSet T} {a : Abs T} (r : Rel s a) (hs : s.ids.len < 2 ^ stack) (x y : T) :
    ∃ b s', DSet.inUnion stack x y false false s = (.ok b, s') ∧ Twin s s' ∧ (b = true ↔ a.Same x y) := by
  have hl : ∀ z, DSet.lookup z false s = (.ok (s.ids.get z), s) := fun z => rfl
  unfold DSet.inUnion
  rw [M.bind_ok (hl x)]
  cases hx : s.ids.get x with
  | none =>
    refine ⟨false, s, rfl, Twin.refl r, ?_⟩
    simp only [Bool.false_eq_true, false_iff]
    intro h
    have := (r.elems x).mpr h.1
    rw [hx] at this; cases this
  | some i =>
    simp only
    rw [M.bind_ok (hl y)]
    cases hy : s.ids.get y with
    | none =>
      refine ⟨false, s, rfl, Twin.refl r, ?_⟩
      simp only [Bool.false_eq_true, false_iff]
      intro h
      have := (r.elems y).mpr h.2.1
      rw [hy] at this; cases this
    | some j =>
      simp only
      obtain ⟨ri, hri⟩ := Root.total r.good.forest i
      obtain ⟨rj, hrj⟩ := Root.total r.good.forest j
      obtain ⟨s1, h1, t1⟩ := findOn_ok r hs (r.lt x i hx) hri
      obtain ⟨s2, h2, t2⟩ := findOn_ok (stack := stack) (t1.rel r) (by rw [t1.ids]; exact hs)
        (by rw [t1.sim.len]; exact r.lt y j hy) ((t1.sim.root j rj).mpr hrj)
      refine ⟨decide (ri = rj), s2, ?_, t1.trans t2, ?_⟩
      · rw [M.bind_ok h1, M.bind_ok h2, M.pure_run]
      · rw [decide_eq_true_iff, Abs.Same, ← r.conn x y i j hx hy]
        constructor
        · intro e
          exact ⟨(r.elems x).mp (by rw [hx]; rfl), (r.elems y).mp (by rw [hy]; rfl), ri, hri, e ▸ hrj⟩
        · rintro ⟨_, _, q, q1, q2⟩
          rw [hri.functional q1, hrj.functional q2]

/-- the answer of `in_union` when a key panics -/
theorem inUnion_panics {stack : Nat} {s : DSet T} (x y : T) (ap bp : Bool) (h : (ap || bp) = true) :
    DSet.inUnion stack x y ap bp s =
      (if ap then .error .user else if (s.ids.get x).isSome then .error .user else .ok false, s) := by
  unfold DSet.inUnion
  cases ap with
  | true => rfl
  | false =>
    have hb : bp = true := by simpa using h
    subst hb
    have hl : DSet.lookup x false s = (.ok (s.ids.get x), s) := rfl
    rw [M.bind_ok hl]
    cases hx : s.ids.get x with
    | none => rfl
    | some i => rfl

/-! ### one call -/

theorem card_congr {a b : Abs T} (h : a.elems = b.elems) : a.card = b.card := by
  rw [Abs.card, Abs.card, h]

/-- A call in a state that represents `a` leaves a state that represents `a.step`, and gives the right
answer. -/
theorem step_ok [Cfg] {stack : Nat} {s : DSet T} {a : Abs T} (r : Rel s a) (op : Op T)
    (hm : (a.step op).card ≤ usizeMax) (hs : (a.step op).card < 2 ^ stack) :
    ∃ out s', step stack op s = (out, s') ∧ Rel s' (a.step op) ∧ a.Answer op out := by
  cases op with
  | makeSet x kp =>
    cases kp with
    | true => exact ⟨.error .user, s, rfl, r, rfl⟩
    | false =>
      obtain ⟨i, s', h1, _, h2, _⟩ := makeOrGetSet_ok r x
      exact ⟨_, s', wrap_ok (makeSet_of h1), h2, rfl⟩
  | union x y xp yp =>
    cases xp with
    | true => exact ⟨.error .user, s, rfl, by simpa [Abs.step] using r, by simp [Abs.Answer]⟩
    | false =>
      obtain ⟨i, s1, h1, hi, r1, _⟩ := makeOrGetSet_ok r x
      cases yp with
      | true =>
        refine ⟨.error .user, s1, ?_, by simpa [Abs.step] using r1, by simp [Abs.Answer]⟩
        have : DSet.union stack x y false true s = (.error .user, s1) := by
          rw [DSet.union, M.bind_ok h1]; rfl
        exact wrap_error this
      | false =>
        obtain ⟨j, s2, h2, hj, r2, keep, _⟩ := makeOrGetSet_ok r1 y
        have hc : s2.ids.len = (a.step (.union x y false false)).card := by
          rw [r2.card]; exact card_congr rfl
        obtain ⟨s3, h3, r3⟩ := union_ids_ok (stack := stack) r2 (by rw [hc]; exact hm) (by rw [hc]; exact hs)
          (keep x i hi) hj
        refine ⟨_, s3, ?_, ?_, rfl⟩
        · have : DSet.union stack x y false false s = (.ok (), s3) := by
            rw [DSet.union, M.bind_ok h1, M.bind_ok h2, h3]
          exact wrap_ok this
        · simpa [Abs.step] using r3
  | inUnion x y xp yp =>
    have hc : s.ids.len < 2 ^ stack := by rw [r.card]; exact hs
    by_cases hp : (xp || yp) = true
    · have h := inUnion_panics (stack := stack) (s := s) x y xp yp hp
      cases xp with
      | true => exact ⟨.error .user, s, wrap_error (f := Out.bool) h, r, by simp [Abs.Answer]⟩
      | false =>
        have hb : yp = true := by simpa using hp
        subst hb
        simp only [Bool.false_eq_true, if_false] at h
        cases hx : s.ids.get x with
        | none =>
          rw [hx] at h
          refine ⟨_, s, wrap_ok h, r, ?_⟩
          simp only [Abs.Answer, Bool.false_eq_true, if_false, if_true]
          refine ⟨fun hm' => ?_, fun _ => trivial⟩
          have := (r.elems x).mpr hm'; rw [hx] at this; cases this
        | some i =>
          rw [hx] at h
          refine ⟨_, s, wrap_error h, r, ?_⟩
          simp only [Abs.Answer, Bool.false_eq_true, if_false, if_true]
          exact ⟨fun _ => trivial, fun hm' => absurd ((r.elems x).mp (by rw [hx]; rfl)) hm'⟩
    · have e1 : xp = false := by cases xp <;> simp_all
      have e2 : yp = false := by cases yp <;> simp_all
      subst e1; subst e2
      obtain ⟨b, s', h1, t, hb⟩ := inUnion_ok r hc x y
      exact ⟨_, s', wrap_ok h1, t.rel r, b, rfl, hb⟩
  | contains x kp =>
    cases kp with
    | true => exact ⟨.error .user, s, rfl, r, by simp [Abs.Answer]⟩
    | false =>
      refine ⟨_, s, rfl, r, ?_⟩
      exact ⟨_, rfl, r.elems x⟩
  | len => exact ⟨_, s, rfl, r, by simp only [Abs.Answer, DSet.len]; rw [r.card]⟩
  | isEmpty =>
    refine ⟨_, s, rfl, r, _, rfl, ?_⟩
    rw [DSet.isEmpty, HMap.isEmpty, List.isEmpty_iff]
    constructor
    · intro h
      apply List.eq_nil_iff_forall_not_mem.mpr
      intro x hx
      have := HMap.mem_keys.mpr ((r.elems x).mpr hx)
      rw [h] at this; cases this
    · intro h
      apply List.eq_nil_iff_forall_not_mem.mpr
      intro e he
      have := (r.elems e.1).mp (HMap.mem_keys.mp (List.mem_map.mpr ⟨e, he, rfl⟩))
      rw [h] at this; cases this
  | clear => exact ⟨_, DSet.new, rfl, rel_new, rfl⟩
  | reserve n cp => cases cp <;> exact ⟨_, s, rfl, r, rfl⟩
  | extend hint cp items p =>
    obtain ⟨s', h1, r1⟩ := extendLoop_ok items p r
    cases cp with
    | true => exact ⟨_, s, rfl, r, rfl⟩
    | false =>
    cases p with
    | true => exact ⟨_, s', wrap_error (m := DSet.extend hint false items true) h1, r1, rfl⟩
    | false => exact ⟨_, s', wrap_ok (m := DSet.extend hint false items false) h1, r1, rfl⟩
  | extendRef hint cp items p =>
    obtain ⟨s', h1, r1⟩ := extendLoop_ok items p r
    cases cp with
    | true => exact ⟨_, s, rfl, r, rfl⟩
    | false =>
    rw [← extendRef_eq hint] at h1
    cases p with
    | true => exact ⟨_, s', wrap_error h1, r1, rfl⟩
    | false => exact ⟨_, s', wrap_ok h1, r1, rfl⟩
  | iterate o o' =>
    have hc : s.ids.len < 2 ^ stack := by rw [r.card]; exact hs
    obtain ⟨s', h1, t⟩ := iterate_ok r hc o o'
    exact ⟨_, s', wrap_ok h1, t.rel r, _, rfl, groups_partition r o o'⟩

/-- Twins answer every call alike and stay twins. -/
theorem step_twin [Cfg] {stack stack' : Nat} {s t : DSet T} {a : Abs T} (r : Rel s a) (h : Twin s t) (op : Op T)
    (hm : (a.step op).card ≤ usizeMax) (hs : (a.step op).card < 2 ^ stack)
    (hs' : (a.step op).card < 2 ^ stack') :
    ∃ out s' t', step stack op s = (out, s') ∧ step stack' op t = (out, t') ∧ Twin s' t' := by
  have rt := h.rel r
  cases op with
  | makeSet x kp =>
    cases kp with
    | true => exact ⟨.error .user, s, t, rfl, rfl, h⟩
    | false =>
      obtain ⟨i, s', h1, _, _, _⟩ := makeOrGetSet_ok r x
      obtain ⟨t', h2, tw⟩ := makeOrGetSet_twin r h x h1
      exact ⟨_, s', t', wrap_ok (makeSet_of h1), wrap_ok (makeSet_of h2), tw⟩
  | union x y xp yp =>
    cases xp with
    | true => exact ⟨.error .user, s, t, rfl, rfl, h⟩
    | false =>
      obtain ⟨i, s1, h1, hi, r1, _⟩ := makeOrGetSet_ok r x
      obtain ⟨t1, g1, tw1⟩ := makeOrGetSet_twin r h x h1
      cases yp with
      | true =>
        refine ⟨.error .user, s1, t1, ?_, ?_, tw1⟩
        · have : DSet.union stack x y false true s = (.error .user, s1) := by
            rw [DSet.union, M.bind_ok h1]; rfl
          exact wrap_error this
        · have : DSet.union stack' x y false true t = (.error .user, t1) := by
            rw [DSet.union, M.bind_ok g1]; rfl
          exact wrap_error this
      | false =>
        obtain ⟨j, s2, h2, hj, r2, keep, _⟩ := makeOrGetSet_ok r1 y
        obtain ⟨t2, g2, tw2⟩ := makeOrGetSet_twin r1 tw1 y h2
        have hc : s2.ids.len = (a.step (.union x y false false)).card := by
          rw [r2.card]; exact card_congr rfl
        obtain ⟨s3, h3, r3⟩ := union_ids_ok (stack := stack) r2 (by rw [hc]; exact hm) (by rw [hc]; exact hs)
          (keep x i hi) hj
        -- more stack makes no difference for `s2`
        obtain ⟨s3', h3', r3'⟩ := union_ids_ok (stack := stack') r2 (by rw [hc]; exact hm)
          (by rw [hc]; exact hs') (keep x i hi) hj
        obtain ⟨t3, g3, tw3⟩ := union_ids_twin r2 tw2 (by rw [hc]; exact hm) (by rw [hc]; exact hs')
          (r2.lt x i (keep x i hi)) (r2.lt y j hj) h3'
        have tws : Twin s3 s3' := by
          obtain ⟨ri, hri⟩ := Root.total r2.good.forest i
          obtain ⟨rj, hrj⟩ := Root.total r2.good.forest j
          obtain ⟨d1, a1, a2, a3⟩ := unionIds_ok (stack := stack) r2.good (by rw [r2.len, hc]; exact hm)
            (by rw [r2.len, hc]; exact hs) (r2.lt x i (keep x i hi)) (r2.lt y j hj) hri hrj
          obtain ⟨d2, b1, b2, b3⟩ := unionIds_ok (stack := stack') r2.good (by rw [r2.len, hc]; exact hm)
            (by rw [r2.len, hc]; exact hs') (r2.lt x i (keep x i hi)) (r2.lt y j hj) hri hrj
          rw [DSet.onData, a1] at h3
          rw [DSet.onData, b1] at h3'
          cases h3; cases h3'
          refine ⟨rfl, ?_⟩
          by_cases hne : ri = rj
          · exact ((a2 hne).symm r2.good.forest).trans (b2 hne)
          · exact linked_sim (Sim.refl r2.good.forest) (a3 hne) (b3 hne)
        refine ⟨.ok .unit, s3, t3, ?_, ?_, tws.trans tw3⟩
        · have : DSet.union stack x y false false s = (.ok (), s3) := by
            rw [DSet.union, M.bind_ok h1, M.bind_ok h2, h3]
          exact wrap_ok this
        · have : DSet.union stack' x y false false t = (.ok (), t3) := by
            rw [DSet.union, M.bind_ok g1, M.bind_ok g2, g3]
          exact wrap_ok this
  | inUnion x y xp yp =>
    have hc : s.ids.len < 2 ^ stack := by rw [r.card]; exact hs
    have hc' : t.ids.len < 2 ^ stack' := by rw [rt.card]; exact hs'
    by_cases hp : (xp || yp) = true
    · have e1 := inUnion_panics (stack := stack) (s := s) x y xp yp hp
      have e2 := inUnion_panics (stack := stack') (s := t) x y xp yp hp
      rw [h.ids] at e2
      cases xp with
      | true => exact ⟨.error .user, s, t, wrap_error (f := Out.bool) e1, wrap_error (f := Out.bool) e2, h⟩
      | false =>
        cases hx : (s.ids.get x).isSome with
        | true =>
          simp only [hx, Bool.false_eq_true, if_false, if_true] at e1 e2
          exact ⟨.error .user, s, t, wrap_error (f := Out.bool) e1, wrap_error (f := Out.bool) e2, h⟩
        | false =>
          simp only [hx, Bool.false_eq_true, if_false] at e1 e2
          exact ⟨_, s, t, wrap_ok (f := Out.bool) e1, wrap_ok (f := Out.bool) e2, h⟩
    · have e1 : xp = false := by cases xp <;> simp_all
      have e2 : yp = false := by cases yp <;> simp_all
      subst e1; subst e2
      obtain ⟨b, s', h1, t1, hb⟩ := inUnion_ok r hc x y
      obtain ⟨b', t', h2, t2, hb'⟩ := inUnion_ok rt hc' x y
      have : b = b' := by rw [Bool.eq_iff_iff, hb, hb']
      subst this
      exact ⟨_, s', t', wrap_ok h1, wrap_ok h2, ((t1.symm r).trans h).trans t2⟩
  | contains x kp =>
    cases kp with
    | true => exact ⟨.error .user, s, t, rfl, rfl, h⟩
    | false =>
      refine ⟨_, s, t, rfl, ?_, h⟩
      show (_, t) = _
      rw [h.ids]
  | len =>
    refine ⟨_, s, t, rfl, ?_, h⟩
    show (_, t) = _
    rw [DSet.len, h.ids]; rfl
  | isEmpty =>
    refine ⟨_, s, t, rfl, ?_, h⟩
    show (_, t) = _
    rw [DSet.isEmpty, h.ids]; rfl
  | clear => exact ⟨_, DSet.new, DSet.new, rfl, rfl, Twin.refl rel_new⟩
  | reserve n cp => cases cp <;> exact ⟨_, s, t, rfl, rfl, h⟩
  | extend hint cp items p =>
    obtain ⟨s', h1, r1⟩ := extendLoop_ok items p r
    obtain ⟨t', h2, tw⟩ := extendLoop_twin items p r h h1
    cases cp with
    | true => exact ⟨_, s, t, rfl, rfl, h⟩
    | false =>
    cases p with
    | true => exact ⟨_, s', t', wrap_error (m := DSet.extend hint false items true) h1,
        wrap_error (m := DSet.extend hint false items true) h2, tw⟩
    | false => exact ⟨_, s', t', wrap_ok (m := DSet.extend hint false items false) h1,
        wrap_ok (m := DSet.extend hint false items false) h2, tw⟩
  | extendRef hint cp items p =>
    obtain ⟨s', h1, r1⟩ := extendLoop_ok items p r
    obtain ⟨t', h2, tw⟩ := extendLoop_twin items p r h h1
    cases cp with
    | true => exact ⟨_, s, t, rfl, rfl, h⟩
    | false =>
    rw [← extendRef_eq hint] at h1 h2
    cases p with
    | true => exact ⟨_, s', t', wrap_error h1, wrap_error h2, tw⟩
    | false => exact ⟨_, s', t', wrap_ok h1, wrap_ok h2, tw⟩
  | iterate o o' =>
    have hc : s.ids.len < 2 ^ stack := by rw [r.card]; exact hs
    have hc' : t.ids.len < 2 ^ stack' := by rw [rt.card]; exact hs'
    obtain ⟨s', h1, t1⟩ := iterate_ok r hc o o'
    obtain ⟨t', h2, t2⟩ := iterate_ok rt hc' o o'
    rw [groups_twin r h] at h2
    exact ⟨_, s', t', wrap_ok h1, wrap_ok h2, ((t1.symm r).trans h).trans t2⟩

/-- a call that only asks -/
def Op.isQuery : Op T → Bool
  | .inUnion .. | .contains .. | .len | .isEmpty | .reserve .. | .iterate .. => true
  | _ => false

omit [DecidableEq T] in
theorem query_step {a : Abs T} {op : Op T} (h : op.isQuery = true) : a.step op = a := by
  cases op <;> first | rfl | cases h

theorem query_twin [Cfg] {stack : Nat} {s : DSet T} {a : Abs T} (r : Rel s a) {op : Op T}
    (hq : op.isQuery = true) (hs : a.card < 2 ^ stack) :
    ∃ out s', step stack op s = (out, s') ∧ Twin s s' := by
  have hc : s.ids.len < 2 ^ stack := by rw [r.card]; exact hs
  cases op with
  | inUnion x y xp yp =>
    by_cases hp : (xp || yp) = true
    · have e1 := inUnion_panics (stack := stack) (s := s) x y xp yp hp
      cases xp with
      | true => exact ⟨.error .user, s, wrap_error (f := Out.bool) e1, Twin.refl r⟩
      | false =>
        cases hx : (s.ids.get x).isSome with
        | true =>
          simp only [hx, Bool.false_eq_true, if_false, if_true] at e1
          exact ⟨.error .user, s, wrap_error (f := Out.bool) e1, Twin.refl r⟩
        | false =>
          simp only [hx, Bool.false_eq_true, if_false] at e1
          exact ⟨_, s, wrap_ok (f := Out.bool) e1, Twin.refl r⟩
    · have e1 : xp = false := by cases xp <;> simp_all
      have e2 : yp = false := by cases yp <;> simp_all
      subst e1; subst e2
      obtain ⟨b, s', h1, t1, hb⟩ := inUnion_ok r hc x y
      exact ⟨_, s', wrap_ok h1, t1⟩
  | contains x kp => cases kp <;> exact ⟨_, s, rfl, Twin.refl r⟩
  | len => exact ⟨_, s, rfl, Twin.refl r⟩
  | isEmpty => exact ⟨_, s, rfl, Twin.refl r⟩
  | reserve n cp => cases cp <;> exact ⟨_, s, rfl, Twin.refl r⟩
  | iterate o o' =>
    obtain ⟨s', h1, t1⟩ := iterate_ok r hc o o'
    exact ⟨_, s', wrap_ok h1, t1⟩
  | makeSet => cases hq
  | union => cases hq
  | clear => cases hq
  | extend => cases hq
  | extendRef => cases hq

/-! ### histories -/

/-- no prefix of the history has more than `usize::MAX` elements -/
def Small [Cfg] (a : Abs T) (ops : List (Op T)) : Prop := ∀ pre, pre <+: ops → (a.run pre).card ≤ usizeMax

theorem Small.head [Cfg] {a : Abs T} {op : Op T} {ops : List (Op T)} (h : Small a (op :: ops)) :
    (a.step op).card ≤ usizeMax :=
  h [op] ⟨ops, rfl⟩

theorem Small.tail [Cfg] {a : Abs T} {op : Op T} {ops : List (Op T)} (h : Small a (op :: ops)) :
    Small (a.step op) ops := by
  intro pre hp
  exact h (op :: pre) (List.prefix_cons_inj op |>.mpr hp)

theorem Small.append [Cfg] {a : Abs T} {xs ys : List (Op T)} :
    Small a (xs ++ ys) ↔ Small a xs ∧ Small (a.run xs) ys := by
  constructor
  · intro h
    refine ⟨fun pre hp => h pre (hp.trans (List.prefix_append _ _)), fun pre hp => ?_⟩
    have := h (xs ++ pre) ((List.prefix_append_right_inj xs).mpr hp)
    rwa [Abs.run, List.foldl_append] at this
  · rintro ⟨h1, h2⟩ pre hp
    rcases List.prefix_or_prefix_of_prefix hp (List.prefix_append xs ys) with h | h
    · exact h1 pre h
    · obtain ⟨zs, rfl⟩ := h
      have := h2 zs ((List.prefix_append_right_inj xs).mp hp)
      rw [Abs.run, List.foldl_append]; exact this

theorem lt_two_pow [Cfg] {n stack : Nat} (h : n ≤ usizeMax) (hs : 64 ≤ stack) : n < 2 ^ stack := by
  have h1 : 2 ^ Cfg.bits ≤ 2 ^ 64 := Nat.pow_le_pow_right (by decide) Cfg.bits_le
  have h2 : 2 ^ 64 ≤ 2 ^ stack := Nat.pow_le_pow_right (by decide) hs
  have h0 : 0 < 2 ^ Cfg.bits := Nat.pow_pos (by decide)
  unfold usizeMax at h; omega

/-- each answer of a history is the one expected in the state it is given in -/
def Answers (a : Abs T) : List (Op T) → List (Except Fault (Out T)) → Prop
  | [], [] => True
  | op :: ops, r :: rs => a.Answer op r ∧ Answers (a.step op) ops rs
  | _, _ => False

theorem run_ok [Cfg] {stack : Nat} (hst : 64 ≤ stack) {s : DSet T} {a : Abs T} (r : Rel s a) (ops : List (Op T))
    (hm : Small a ops) :
    Rel (run stack ops s).2 (a.run ops) ∧ Answers a ops (run stack ops s).1 := by
  induction ops generalizing s a with
  | nil => exact ⟨r, trivial⟩
  | cons op ops ih =>
    obtain ⟨out, s', h1, r1, h2⟩ := step_ok (stack := stack) r op hm.head (lt_two_pow hm.head hst)
    obtain ⟨r2, h3⟩ := ih r1 hm.tail
    rw [run]
    simp only [h1]
    exact ⟨r2, h2, h3⟩

theorem run_twin [Cfg] {stack : Nat} (hst : 64 ≤ stack) {s t : DSet T} {a : Abs T} (r : Rel s a) (h : Twin s t)
    (ops : List (Op T)) (hm : Small a ops) :
    (run stack ops t).1 = (run stack ops s).1 ∧ Twin (run stack ops s).2 (run stack ops t).2 := by
  induction ops generalizing s t a with
  | nil => exact ⟨rfl, h⟩
  | cons op ops ih =>
    have hs := lt_two_pow hm.head hst
    obtain ⟨out, s', t', h1, h2, tw⟩ := step_twin (stack := stack) (stack' := stack) r h op hm.head hs hs
    obtain ⟨out', s'', h1', r1, _⟩ := step_ok (stack := stack) r op hm.head hs
    rw [h1] at h1'; cases h1'
    obtain ⟨h3, h4⟩ := ih r1 tw hm.tail
    rw [run, run]
    simp only [h1, h2, h3]
    exact ⟨trivial, h4⟩

theorem run_append [Cfg] (stack : Nat) (xs ys : List (Op T)) (s : DSet T) :
    run stack (xs ++ ys) s = ((run stack xs s).1 ++ (run stack ys (run stack xs s).2).1,
      (run stack ys (run stack xs s).2).2) := by
  induction xs generalizing s with
  | nil => rfl
  | cons x xs ih => simp only [List.cons_append, run, ih]

theorem start_ok (st : Start T) : ∃ s, st.make = .ok s ∧ Rel s st.abs := by
  have key : ∀ items : List T, ∃ s, DSet.extendLoop items false DSet.new = (.ok (), s) ∧
      Rel s { (Abs.new : Abs T) with elems := items } := by
    intro items
    obtain ⟨s, h1, h2⟩ := extendLoop_ok items false (rel_new (T := T))
    refine ⟨s, h1, h2.congr (fun x => ?_) rfl rfl⟩
    simp [Abs.new]
  cases st with
  | new => exact ⟨_, rfl, rel_new⟩
  | fromIter items =>
    obtain ⟨s, h1, h2⟩ := key items
    exact ⟨s, by rw [Start.make, DSet.fromIter, fromIterLoop_eq, h1], h2⟩
  | fromIterRef items =>
    obtain ⟨s, h1, h2⟩ := key items
    exact ⟨s, by rw [Start.make, DSet.fromIterRef, fromIterRefLoop_eq, h1], h2⟩

theorem Reached.rel [Cfg] {stack : Nat} {st : Start T} {ops : List (Op T)} {s : DSet T} {a : Abs T}
    (h : Reached stack st ops s a) : Rel s a := by
  obtain ⟨s0, h1, h2⟩ := h.made
  obtain ⟨s1, h3, h4⟩ := start_ok st
  rw [h1] at h3; cases h3
  rw [h2, h.abs]
  exact (run_ok h.stack_ge h4 ops h.small).1

theorem Reached.small_now [Cfg] {stack : Nat} {st : Start T} {ops : List (Op T)} {s : DSet T} {a : Abs T}
    (h : Reached stack st ops s a) : a.card ≤ usizeMax := by
  rw [h.abs]; exact h.small ops (List.prefix_refl _)

end
end DS
