import Verif.DS.LemmasMem
import Verif.DS.SpecSpare
/-!
# Lemmas on the elements a refused vector spares
-/

open Rust Mem
namespace DS.Mem

/-! ## a method that works on the first nodes only -/

/-- started on the nodes `p` with `q` behind them, `m` does what it does on `p` and leaves `q` alone -/
def Front {α : Type} (q p : List Data) (m : M (List Data) α) : Prop := m (p ++ q) = ((m p).1, (m p).2 ++ q)

variable {q p : List Data}

theorem front_pure {α : Type} (a : α) : Front q p (pure a) := rfl

theorem front_bind {α β : Type} {m : M (List Data) α} {f : α → M (List Data) β} (hm : Front q p m)
    (hf : ∀ a p', m p = (.ok a, p') → Front q p' (f a)) : Front q p (m >>= f) := by
  unfold Front at hm ⊢
  rw [M.bind_run, M.bind_run, hm]
  generalize m p = r at hf ⊢
  obtain ⟨r, p'⟩ := r
  cases r with
  | error e => rfl
  | ok a => exact hf a p' rfl

theorem front_at {i : Nat} (hi : i < p.length) : Front q p (at' i) := by
  simp only [Front, at', List.getElem?_append_left hi, List.getElem?_eq_getElem hi]

theorem front_setParent {i r : Nat} (hi : i < p.length) : Front q p (setParent i r) := by
  simp only [Front, setParent, List.getElem?_append_left hi, List.getElem?_eq_getElem hi, List.set_append_left _ _ hi]

theorem front_incRank [Cfg] {i : Nat} (hi : i < p.length) : Front q p (incRank i) := by
  simp only [Front, incRank, List.getElem?_append_left hi, List.getElem?_eq_getElem hi]
  cases u32Succ p[i].rank with
  | error e => rfl
  | ok r => simp only [List.set_append_left _ _ hi]

theorem front_find (hf : Forest p) (stack : Nat) {i : Nat} (hi : i < p.length) : Front q p (find stack i) := by
  induction stack generalizing i with
  | zero => rfl
  | succ stack ih =>
    refine front_bind (front_at hi) fun x p' hx => ?_
    have hat : at' i p = (.ok ⟨par p i, rk p i⟩, p) := by rw [at', get_of_lt hi]
    rw [hat] at hx
    obtain ⟨rfl, rfl⟩ : ⟨par p i, rk p i⟩ = x ∧ p = p' := by simpa using hx
    split
    · refine front_bind (ih (hf.range i hi)) fun r p' hr => ?_
      refine front_bind (front_setParent ?_) fun _ _ _ => front_pure _
      have := find_same stack (par p i) p
      rw [hr] at this
      exact Nat.lt_of_lt_of_eq hi this.symm
    · exact front_pure _

/-- what a search leaves -/
theorem find_leaves {stack i : Nat} (g : Good p) (hs : p.length < 2 ^ stack) (hi : i < p.length) :
    ∃ r p', find stack i p = (.ok r, p') ∧ Sim p p' ∧ r < p.length := by
  obtain ⟨r, hr⟩ := Root.total g.forest i
  obtain ⟨p', h1, h2⟩ := find_good g hs hi hr
  exact ⟨r, p', h1, h2, hr.lt g.forest hi⟩

theorem front_unionIds [Cfg] (g : Good p) {stack i j : Nat} (hs : p.length < 2 ^ stack) (hi : i < p.length)
    (hj : j < p.length) : Front q p (unionIds stack i j) := by
  refine front_bind (front_find g.forest stack hi) fun ra p1 h1 => ?_
  obtain ⟨r, p', e, s1, hra⟩ := find_leaves g hs hi
  rw [h1] at e
  obtain ⟨rfl, rfl⟩ : ra = r ∧ p1 = p' := by simpa using e
  refine front_bind (front_find s1.forest stack (by rw [s1.len]; exact hj)) fun rb p2 h2 => ?_
  obtain ⟨r, p', e, s2, hrb⟩ := find_leaves (s1.good g) (by rw [s1.len]; exact hs) (i := j) (stack := stack)
    (by rw [s1.len]; exact hj)
  rw [h2] at e
  obtain ⟨rfl, rfl⟩ : rb = r ∧ p2 = p' := by simpa using e
  have l2 : p2.length = p.length := by rw [s2.len, s1.len]
  rw [s1.len] at hrb
  split
  · exact front_pure _
  · have same : ∀ {k : Nat} {x : Data} {u v : List Data}, at' k u = (.ok x, v) → v = u := by
      intro k x u v h
      have := at_length k u
      rw [h] at this; exact this
    refine front_bind (front_at (by omega)) fun x p3 h3 => ?_
    obtain rfl := same h3
    refine front_bind (front_at (by omega)) fun y p4 h4 => ?_
    obtain rfl := same h4
    have low : ∀ u v : Nat, u < p4.length → v < p4.length → Front q p4 (do
        setParent v u
        let x ← at' u
        let y ← at' v
        if x.rank = y.rank then incRank u : M (List Data) Unit) := by
      intro u v hu hv
      refine front_bind (front_setParent hv) fun _ p5 h5 => ?_
      have l5 : p5.length = p4.length := by have := setParent_length v u p4; rw [h5] at this; exact this
      refine front_bind (front_at (by omega)) fun x' p6 h6 => ?_
      obtain rfl := same h6
      refine front_bind (front_at (by omega)) fun y' p7 h7 => ?_
      obtain rfl := same h7
      split
      · exact front_incRank (by omega)
      · exact front_pure _
    by_cases hr : x.rank < y.rank
    · simp only [if_pos hr]
      exact low rb ra (by omega) (by omega)
    · simp only [if_neg hr]
      exact low ra rb (by omega) (by omega)

/-! ## the elements that were there -/

section
variable {T : Type} [DecidableEq T] {std : Stds}

/-- The first nodes and the keys `ids` are a disjoint set of their own, with the meaning `a`. -/
structure Spared (ids : HMap T Nat) (a : Abs T) (s : DSet T) : Prop where
  rel : ∃ p q, s.dataById = p ++ q ∧ Rel ⟨ids, p⟩ a
  keys : ∀ y i, ids.get y = some i → s.ids.get y = some i

/-- a broken set and what is spared of it -/
structure Broken (ids : HMap T Nat) (x : T) (a : Abs T) (s : DSet T) : Prop where
  poisoned : Poisoned ids.len (fun y => (ids.get y).isSome) x s
  spared : Spared ids a s

variable {ids : HMap T Nat} {x : T} {a : Abs T}

/-- a key that leads to one of the first nodes is one of `ids` -/
theorem Broken.old {s : DSet T} (h : Broken ids x a s) {y : T} {i : Nat} (hy : s.ids.get y = some i)
    (hi : i < ids.len) : ids.get y = some i := by
  cases hg : ids.get y with
  | some j => rw [h.spared.keys y j hg] at hy; exact hy
  | none =>
    have := h.poisoned.young y i hy (by rw [hg]; simp)
    omega

theorem Broken.find {s : DSet T} (h : Broken ids x a s) {stack : Nat} (hs : ids.len < 2 ^ stack) (i : Nat) :
    Broken ids x a (DSet.onData (DS.find stack i) s).2 := by
  refine ⟨poisoned_find stack i h.poisoned, ?_⟩
  by_cases hi : i < ids.len
  · obtain ⟨p, q, hd, r⟩ := h.spared.rel
    have hp : p.length = ids.len := r.len
    obtain ⟨f, p', h1, h2, _⟩ := find_leaves (stack := stack) r.good (by rw [hp]; exact hs) (by rw [hp]; exact hi)
    refine ⟨⟨p', q, ?_, Twin.rel (s := ⟨ids, p⟩) (t := ⟨ids, p'⟩) ⟨rfl, h2⟩ r⟩, h.spared.keys⟩
    show (DS.find stack i s.dataById).2 = p' ++ q
    have := front_find (q := q) r.good.forest stack (i := i) (by rw [hp]; exact hi)
    rw [hd, this, h1]
  · obtain ⟨e, he⟩ := find_dead stack i h.poisoned.dead (Nat.not_lt.mp hi)
    have : (DSet.onData (DS.find stack i) s).2 = s := by rw [DSet.onData, he]
    rw [this]
    exact h.spared

theorem spared_insert {s : DSet T} (h : Spared ids a s) {y : T} (hg : s.ids.get y = none) (n : Nat) (d : List Data) :
    Spared ids a { ids := s.ids.insert y n, dataById := s.dataById ++ d } := by
  obtain ⟨⟨p, q, hd, r⟩, hk⟩ := h
  refine ⟨⟨p, q ++ d, by rw [hd, List.append_assoc], r⟩, fun z i hz => ?_⟩
  have := hk z i hz
  simp only [HMap.get_insert]
  rw [if_neg (fun e => by rw [e, hg] at this; cases this)]
  exact this

theorem Broken.made {y : T} {kp : Bool} {s : State T} {r : Except Fault Nat × State T} (hm : Made std y kp s r)
    (h : Broken ids x a s.set) : Broken ids x a r.2.set := by
  refine ⟨made_poisoned hm h.poisoned, ?_⟩
  cases hm with
  | there hk =>
    have : (DSet.makeOrGetSet y kp s.set).2 = s.set := by
      simp only [DSet.makeOrGetSet]
      cases kp with
      | true => rfl
      | false =>
        cases hg : s.set.ids.get y with
        | none => exact absurd ⟨rfl, hg⟩ hk
        | some j => rfl
    rw [this]
    exact h.spared
  | made hk hg _ _ =>
    subst hk
    have hp : DSet.makeOrGetSet y false s.set = (.ok s.set.ids.len,
        { ids := s.set.ids.insert y s.set.ids.len, dataById := s.set.dataById ++ [Data.new s.set.ids.len] }) := by
      simp [DSet.makeOrGetSet, hg]
    rw [hp]
    exact spared_insert h.spared hg _ _
  | map _ _ _ _ => exact h.spared
  | vec hk hg _ _ _ =>
    have := spared_insert h.spared hg s.set.ids.len []
    rw [List.append_nil] at this
    exact this

/-- the key that `make_or_get_set` found or made, and where it leads -/
theorem makeOrGetSet_leads {y : T} {kp : Bool} {s s' : State T} {i : Nat} (h : makeOrGetSet std y kp s = (.ok i, s')) :
    kp = false ∧ s'.set.ids.get y = some i ∧ (∀ z j, s.set.ids.get z = some j → s'.set.ids.get z = some j) := by
  have hm := makeOrGetSet_made (std := std) y kp s
  rw [h] at hm
  generalize hq : ((Except.ok i, s') : Except Fault Nat × State T) = q at hm
  cases hm with
  | there hk =>
    unfold DSet.makeOrGetSet at hq
    cases kp with
    | true => cases hq
    | false =>
      cases hg : s.set.ids.get y with
      | none => exact absurd ⟨rfl, hg⟩ hk
      | some j =>
        simp only [hg, Bool.false_eq_true, if_false, Prod.mk.injEq, Except.ok.injEq] at hq
        obtain ⟨rfl, rfl⟩ := hq
        exact ⟨rfl, hg, fun _ _ h => h⟩
  | made hk hg _ _ =>
    subst hk
    unfold DSet.makeOrGetSet at hq
    simp only [hg, Bool.false_eq_true, if_false, Prod.mk.injEq, Except.ok.injEq] at hq
    obtain ⟨rfl, rfl⟩ := hq
    refine ⟨rfl, ?_, fun z j hz => ?_⟩
    · simp only [HMap.get_insert, if_true]
    · simp only [HMap.get_insert]
      rw [if_neg (fun e => by rw [e, hg] at hz; cases hz)]
      exact hz
  | map _ _ _ _ => cases hq
  | vec _ _ _ _ _ => cases hq

theorem broken_bind {α β : Type} {m : M (State T) α} {f : α → M (State T) β} {s : State T}
    (hm : Broken ids x a (m s).2.set) (hf : ∀ r s', Broken ids x a s'.set → Broken ids x a (f r s').2.set) :
    Broken ids x a ((m >>= f) s).2.set := by
  rw [M.bind_run]
  generalize m s = q at hm ⊢
  obtain ⟨r, s1⟩ := q
  cases r with
  | error e => exact hm
  | ok r => exact hf r s1 hm

theorem broken_bindD {α β : Type} {m : M (DSet T) α} {f : α → M (DSet T) β} {s : DSet T}
    (hm : Broken ids x a (m s).2) (hf : ∀ r s', Broken ids x a s' → Broken ids x a (f r s').2) :
    Broken ids x a ((m >>= f) s).2 := by
  rw [M.bind_run]
  generalize m s = q at hm ⊢
  obtain ⟨r, s1⟩ := q
  cases r with
  | error e => exact hm
  | ok r => exact hf r s1 hm

theorem Broken.makeSet (y : T) (kp : Bool) {s : State T} (h : Broken ids x a s.set) :
    Broken ids x a (Mem.makeSet std y kp s).2.set :=
  broken_bind (Broken.made (makeOrGetSet_made y kp s) h) fun _ _ h => h

theorem Broken.makeAll (items : List T) (p : Bool) {s : State T} (h : Broken ids x a s.set) :
    Broken ids x a (Mem.makeAll std items p s).2.set := by
  induction items generalizing s with
  | nil => cases p <;> exact h
  | cons y ys ih => exact broken_bind (Broken.makeSet y false h) fun _ _ h => ih h

theorem Broken.buildLoop {stack : Nat} (hs : ids.len < 2 ^ stack) (es : List (T × Nat)) (m : HMap Nat (List T))
    {s : DSet T} (h : Broken ids x a s) : Broken ids x a (DSet.buildLoop stack es m s).2 := by
  induction es generalizing m s with
  | nil => exact h
  | cons e es ih => exact broken_bindD (h.find hs e.2) fun _ _ h => ih _ h

/-- `unionIds` on two of the first nodes -/
theorem Broken.join [Cfg] {stack : Nat} (hm : ids.len ≤ usizeMax) (hs : ids.len < 2 ^ stack) {s : DSet T}
    (h : Broken ids x a s) {y z : T} {i j : Nat} (hy : ids.get y = some i) (hz : ids.get z = some j) :
    (DSet.onData (unionIds stack i j) s).1 = .ok () ∧
      Broken ids x (a.step (.union y z false false)) (DSet.onData (unionIds stack i j) s).2 := by
  obtain ⟨p, q, hd, r⟩ := h.spared.rel
  have hp : p.length = ids.len := r.len
  obtain ⟨t, h1, h2⟩ := union_ids_ok (stack := stack) r hm hs hy hz
  have hf := front_unionIds (q := q) r.good (stack := stack) (by rw [hp]; exact hs) (r.lt y i hy) (r.lt z j hz)
  have e1 : unionIds stack i j p = (.ok (), t.dataById) := by
    have := congrArg Prod.fst h1
    have e2 := congrArg (fun v => v.2.dataById) h1
    exact Prod.ext this e2
  have ei : t.ids = ids := (congrArg (fun v => v.2.ids) h1).symm
  have ed : unionIds stack i j s.dataById = (.ok (), t.dataById ++ q) := by
    unfold Front at hf
    rw [hd, hf, e1]
  refine ⟨by rw [DSet.onData, ed], ?_, ?_⟩
  · exact h.poisoned.step rfl (unionIds_same stack i j s.dataById) fun hd => unionIds_keeps stack i j hd
  · refine ⟨⟨t.dataById, q, by rw [DSet.onData, ed], ?_⟩, h.spared.keys⟩
    have et : t = ⟨ids, t.dataById⟩ := by rw [← ei]
    rw [et] at h2
    have hy' := (r.elems y).mp (by rw [hy]; rfl)
    have hz' := (r.elems z).mp (by rw [hz]; rfl)
    refine h2.congr (fun u => ?_) rfl rfl
    simp only [Abs.step, Bool.false_eq_true, if_false, List.mem_cons]
    constructor
    · rintro (rfl | rfl | h)
      · exact hz'
      · exact hy'
      · exact h
    · exact fun h => .inr (.inr h)

theorem Broken.union [Cfg] {stack : Nat} (hm : ids.len ≤ usizeMax) (hs : ids.len < 2 ^ stack) (y z : T) (yp zp : Bool)
    {s : State T} (h : Broken ids x a s.set) :
    (yp = false → zp = false → (ids.get y).isSome → (ids.get z).isSome →
      (Mem.union std stack y z yp zp s).1 = .ok () ∧
      Broken ids x (a.step (.union y z false false)) (Mem.union std stack y z yp zp s).2.set) ∧
    (¬(yp = false ∧ zp = false ∧ (ids.get y).isSome ∧ (ids.get z).isSome) →
      Broken ids x a (Mem.union std stack y z yp zp s).2.set) := by
  have hi := Broken.made (makeOrGetSet_made (std := std) y yp s) h
  constructor
  · rintro rfl rfl hy hz
    obtain ⟨i, hy⟩ := Option.isSome_iff_exists.mp hy
    obtain ⟨j, hz⟩ := Option.isSome_iff_exists.mp hz
    have e1 : makeOrGetSet std y false s = (.ok i, s) := by simp [makeOrGetSet, h.spared.keys y i hy]
    have e2 : makeOrGetSet std z false s = (.ok j, s) := by simp [makeOrGetSet, h.spared.keys z j hz]
    rw [Mem.union, M.bind_ok e1, M.bind_ok e2]
    exact Broken.join hm hs h hy hz
  · intro hn
    rw [Mem.union, M.bind_run]
    have l1 := fun i s' => makeOrGetSet_leads (std := std) (y := y) (kp := yp) (s := s) (s' := s') (i := i)
    generalize makeOrGetSet std y yp s = r at hi l1 ⊢
    obtain ⟨r, s1⟩ := r
    cases r with
    | error e => exact hi
    | ok i =>
      obtain ⟨k1, k2, k3⟩ := l1 i s1 rfl
      have hj := Broken.made (makeOrGetSet_made (std := std) z zp s1) hi
      show Broken ids x a ((makeOrGetSet std z zp >>= fun j => onSet (DSet.onData (unionIds stack i j))) s1).2.set
      rw [M.bind_run]
      have l2 := fun j s' => makeOrGetSet_leads (std := std) (y := z) (kp := zp) (s := s1) (s' := s') (i := j)
      generalize makeOrGetSet std z zp s1 = r at hj l2 ⊢
      obtain ⟨r, s2⟩ := r
      cases r with
      | error e => exact hj
      | ok j =>
        obtain ⟨m1, m2, m3⟩ := l2 j s2 rfl
        have hb : Broken ids x a s2.set := hj
        show Broken ids x a (DSet.onData (unionIds stack i j) s2.set).2
        have hd := hb.poisoned.dead
        by_cases ho : i < ids.len
        · have hy := hb.old (m3 y i k2) ho
          have hnj : ids.len ≤ j := by
            by_contra hnj
            have hz := hb.old m2 (Nat.not_le.mp hnj)
            exact hn ⟨k1, m1, by rw [hy]; rfl, by rw [hz]; rfl⟩
          have hf := hb.find hs (stack := stack) i
          have : (DSet.onData (unionIds stack i j) s2.set).2 = (DSet.onData (DS.find stack i) s2.set).2 := by
            simp only [DSet.onData, unionIds, M.bind_run]
            have hk := find_keeps stack i hd
            generalize DS.find stack i s2.set.dataById = r at hk ⊢
            obtain ⟨r, d⟩ := r
            cases r with
            | error e => rfl
            | ok r =>
              obtain ⟨e, he⟩ := find_dead stack j hk hnj
              simp only
              simp only at he
              rw [he]
          rw [this]
          exact hf
        · obtain ⟨e, he⟩ := find_dead stack i hd (Nat.not_lt.mp ho)
          have : (DSet.onData (unionIds stack i j) s2.set).2 = s2.set := by
            rw [DSet.onData, unionIds, M.bind_error he]
          rw [this]
          exact hb

theorem Broken.inUnion {stack : Nat} (hs : ids.len < 2 ^ stack) (y z : T) (yp zp : Bool) {s : DSet T}
    (h : Broken ids x a s) : Broken ids x a (DSet.inUnion stack y z yp zp s).2 := by
  have lk : ∀ (y : T) (kp : Bool) (s : DSet T), Broken ids x a s → Broken ids x a (DSet.lookup y kp s).2 := by
    intro y kp s h
    cases kp <;> exact h
  refine broken_bindD (lk y yp s h) fun i s' h' => ?_
  cases i with
  | none => exact h'
  | some i =>
    refine broken_bindD (lk z zp s' h') fun j s'' h'' => ?_
    cases j with
    | none => exact h''
    | some j => exact broken_bindD (h''.find hs i) fun _ _ h => broken_bindD (h.find hs j) fun _ _ h => h

/-- what `in_union` says of two elements that were there -/
theorem Broken.answer {stack : Nat} (hs : ids.len < 2 ^ stack) {s : DSet T} (h : Broken ids x a s) {y z : T}
    (hy : (ids.get y).isSome) (hz : (ids.get z).isSome) :
    ∃ b, (DSet.inUnion stack y z false false s).1 = .ok b ∧ (b = true ↔ a.Same y z) := by
  obtain ⟨p, q, hd, r⟩ := h.spared.rel
  have hp : p.length = ids.len := r.len
  obtain ⟨b, t, h1, _, h2⟩ := inUnion_ok (stack := stack) r hs y z
  refine ⟨b, ?_, h2⟩
  obtain ⟨i, hy⟩ := Option.isSome_iff_exists.mp hy
  obtain ⟨j, hz⟩ := Option.isSome_iff_exists.mp hz
  have ly : ∀ {s : DSet T} {y : T} {i : Nat}, s.ids.get y = some i → DSet.lookup y false s = (.ok (some i), s) := by
    intro s y i h
    rw [← h]; rfl
  have hi : i < p.length := r.lt y i hy
  have hj : j < p.length := r.lt z j hz
  obtain ⟨ri, p1, f1, s1, _⟩ := find_leaves (stack := stack) r.good (by rw [hp]; exact hs) hi
  obtain ⟨rj, p2, f2, _, _⟩ := find_leaves (stack := stack) (s1.good r.good) (by rw [s1.len, hp]; exact hs)
    (by rw [s1.len]; exact hj)
  have g1 := front_find (q := q) r.good.forest stack hi
  have g2 := front_find (q := q) s1.forest stack (i := j) (by rw [s1.len]; exact hj)
  unfold Front at g1 g2
  rw [f1] at g1
  rw [f2] at g2
  rw [DSet.inUnion, M.bind_ok (ly (s := ⟨ids, p⟩) hy)] at h1
  simp only at h1
  rw [M.bind_ok (ly (s := ⟨ids, p⟩) hz)] at h1
  simp only at h1
  have o1 : DSet.onData (T := T) (DS.find stack i) ⟨ids, p⟩ = (.ok ri, ⟨ids, p1⟩) := by rw [DSet.onData, f1]
  have o2 : DSet.onData (T := T) (DS.find stack j) ⟨ids, p1⟩ = (.ok rj, ⟨ids, p2⟩) := by rw [DSet.onData, f2]
  rw [M.bind_ok o1, M.bind_ok o2, M.pure_run] at h1
  have hb := congrArg Prod.fst h1
  rw [DSet.inUnion, M.bind_ok (ly (h.spared.keys y i hy))]
  simp only
  rw [M.bind_ok (ly (h.spared.keys z j hz))]
  simp only
  have o3 : DSet.onData (DS.find stack i) s = (.ok ri, { s with dataById := p1 ++ q }) := by rw [DSet.onData, hd, g1]
  have o4 : DSet.onData (DS.find stack j) { s with dataById := p1 ++ q } = (.ok rj, { s with dataById := p2 ++ q }) := by
    rw [DSet.onData, g2]
  rw [M.bind_ok o3, M.bind_ok o4, M.pure_run]
  exact hb

theorem mem_spared {s : DSet T} (h : Broken ids x a s) (y : T) : (ids.get y).isSome ↔ y ∈ a.elems := by
  obtain ⟨p, q, _, r⟩ := h.spared.rel
  exact r.elems y

theorem Broken.call [Cfg] {stack : Nat} (hm : ids.len ≤ usizeMax) (hs : ids.len < 2 ^ stack) {old : List T}
    (ho : ∀ y, (ids.get y).isSome ↔ y ∈ old) (f : Call T) (hc : f ≠ .clear) {s : State T} (h : Broken ids x a s.set) :
    Broken ids x (a.run (unionsAmong old [f])) (f.run std stack s).2.set := by
  cases f with
  | union y z yp zp =>
    simp only [Call.run, wrapM_snd]
    obtain ⟨k1, k2⟩ := Broken.union (std := std) hm hs y z yp zp h
    by_cases hn : yp = false ∧ zp = false ∧ (ids.get y).isSome ∧ (ids.get z).isSome
    · obtain ⟨rfl, rfl, hy, hz⟩ := hn
      have := (k1 rfl rfl hy hz).2
      rw [unionsAmong, if_pos ⟨(ho y).mp hy, (ho z).mp hz⟩]
      exact this
    · have e : unionsAmong old [Call.union y z yp zp] = [] := by
        cases yp with
        | true => rfl
        | false =>
          cases zp with
          | true => rfl
          | false =>
            rw [unionsAmong, if_neg (fun hh => hn ⟨rfl, rfl, (ho y).mpr hh.1, (ho z).mpr hh.2⟩)]
            rfl
      rw [e]
      exact k2 hn
  | makeSet y kp =>
    simp only [Call.run, wrapM_snd]
    exact Broken.makeSet y kp h
  | reserve k =>
    simp only [Call.run, wrapM_snd]
    rw [(reserve_later (std := std) k s).1]
    exact h
  | extend hint items p =>
    simp only [Call.run, wrapM_snd]
    exact broken_bind (by rw [(reserve_later (std := std) hint s).1]; exact h) fun _ _ h => Broken.makeAll items p h
  | inUnion y z yp zp =>
    show Broken ids x a (DS.wrap .bool (DSet.inUnion stack y z yp zp) s.set).2
    rw [wrap_snd]
    exact Broken.inUnion hs y z yp zp h
  | contains y kp =>
    show Broken ids x a (DS.wrap .bool (DSet.contains y kp) s.set).2
    rw [wrap_snd]
    cases kp <;> exact h
  | len => exact h
  | isEmpty => exact h
  | clear => exact (hc rfl).elim
  | iterate o o' =>
    show Broken ids x a (DS.wrap .groups (DSet.iterate stack o.f o'.f) s.set).2
    rw [wrap_snd]
    exact broken_bindD (Broken.buildLoop hs _ _ h) fun _ _ h => h

theorem unionsAmong_cons (old : List T) (f : Call T) (fs : List (Call T)) :
    unionsAmong old (f :: fs) = unionsAmong old [f] ++ unionsAmong old fs := by
  cases f with
  | union y z yp zp =>
    cases yp with
    | true => rfl
    | false =>
      cases zp with
      | true => rfl
      | false =>
        simp only [unionsAmong]
        split <;> rfl
  | _ => rfl

theorem Broken.history [Cfg] {stack : Nat} (hm : ids.len ≤ usizeMax) (hs : ids.len < 2 ^ stack) {old : List T}
    (ho : ∀ y, (ids.get y).isSome ↔ y ∈ old) (calls : List (Call T)) (hc : ∀ f ∈ calls, f ≠ .clear) {s : State T}
    (h : Broken ids x a s.set) :
    Broken ids x (a.run (unionsAmong old calls)) (runAll std stack calls s).2.set := by
  induction calls generalizing s a with
  | nil => exact h
  | cons f fs ih =>
    rw [unionsAmong_cons, Abs.run, List.foldl_append]
    exact ih (fun g hg => hc g (List.mem_cons_of_mem _ hg)) (Broken.call hm hs ho f (hc f List.mem_cons_self) h)

/-! ## the refused request -/

theorem refused_push (std : Stds) (s : State T) (hlen : s.set.dataById.length = s.set.ids.len)
    (hg : s.set.ids.get x = none)
    (hm : s.set.len < s.ids.cap ∨ std.map.grow s.ids.moment s.ids.slots (s.set.len + 1) ≠ none)
    (hv : s.data.cap ≤ s.set.len) (hr : std.vec.grow s.data.moment s.data.slots (s.set.len + 1) = none) :
    ∃ s', makeOrGetSet std x false s = (.error .capacityOverflow, s') ∧
      s'.set = { s.set with ids := s.set.ids.insert x s.set.ids.len } := by
  have hmade := makeOrGetSet_made (std := std) x false s
  generalize makeOrGetSet std x false s = q at hmade
  cases hmade with
  | there hk => exact absurd ⟨rfl, hg⟩ hk
  | made _ _ _ gd =>
    rcases gd with ⟨g, _⟩ | ⟨_, n, g, _⟩
    · change s.data.cap ≤ s.set.ids.len at hv
      omega
    · rw [hlen] at g
      change std.vec.grow s.data.moment s.data.slots (s.set.ids.len + 1) = none at hr
      rw [hr] at g
      cases g
  | map _ _ g1 g2 =>
    rcases hm with hm | hm
    · change s.set.ids.len < s.ids.cap at hm
      omega
    · exact absurd g2 hm
  | vec _ _ _ _ _ => exact ⟨_, rfl, rfl⟩

theorem broken_start {s : DSet T} (r : Rel s a) (hg : s.ids.get x = none) :
    Broken s.ids x a { s with ids := s.ids.insert x s.ids.len } := by
  refine ⟨⟨?_, fun y i hy ho => ?_, Nat.le_of_eq r.len.symm, ⟨fun i d hd hi => ?_, fun i d hd hi => ?_⟩, ?_⟩,
    ⟨⟨s.dataById, [], (List.append_nil _).symm, r⟩, fun y i hy => ?_⟩⟩
  · rw [HMap.get_insert, if_pos rfl]; rfl
  · rw [HMap.get_insert] at hy
    split at hy
    · cases hy; exact Nat.le_refl _
    · rw [hy] at ho; exact absurd rfl ho
  · rw [← r.len] at hi ⊢
    have := r.good.forest.range i hi
    rw [par, hd] at this
    exact this
  · rw [← r.len] at hi
    exact absurd (List.getElem?_eq_some_iff.mp hd).1 (Nat.not_lt.mpr hi)
  · simp only [HMap.len_insert, hg, Option.isSome_none, Bool.false_eq_true, if_false]
    have := r.len
    omega
  · rw [HMap.get_insert, if_neg (fun e => by rw [e, hg] at hy; cases hy)]
    exact hy

end
end DS.Mem
