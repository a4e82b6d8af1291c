import Verif.DS.Link
/-!
# Every call on a disjoint set does what the specification says
-/

open Rust
namespace DS

section
variable {T : Type} [DecidableEq T]

/-! ### the generated equivalence -/

theorem conn_mono {ps qs : List (T × T)} (h : ∀ p ∈ ps, p ∈ qs) {x y : T} (hc : Conn ps x y) : Conn qs x y := by
  induction hc with
  | refl a => exact .refl a
  | step hm => exact .step (h _ hm)
  | symm _ ih => exact .symm ih
  | trans _ _ ih1 ih2 => exact .trans ih1 ih2

theorem conn_support {ps : List (T × T)} {es : List T} (h : ∀ p ∈ ps, p.1 ∈ es ∧ p.2 ∈ es) {x y : T}
    (hc : Conn ps x y) : x = y ∨ (x ∈ es ∧ y ∈ es) := by
  induction hc with
  | refl a => exact .inl rfl
  | step hm => exact .inr (h _ hm)
  | symm _ ih => rcases ih with h | h
                 · exact .inl h.symm
                 · exact .inr h.symm
  | trans _ _ ih1 ih2 =>
    rcases ih1 with rfl | h1
    · exact ih2
    · rcases ih2 with rfl | h2
      · exact .inr h1
      · exact .inr ⟨h1.1, h2.2⟩

theorem conn_cons {ps : List (T × T)} {a b x y : T} : Conn ((a, b) :: ps) x y ↔
    Conn ps x y ∨ (Conn ps x a ∧ Conn ps b y) ∨ (Conn ps x b ∧ Conn ps a y) := by
  have hm : ∀ p ∈ ps, p ∈ (a, b) :: ps := fun p hp => List.mem_cons_of_mem _ hp
  have hab : Conn ((a, b) :: ps) a b := .step List.mem_cons_self
  constructor
  · intro h
    induction h with
    | refl a => exact .inl (.refl a)
    | step h =>
      rcases List.mem_cons.mp h with e | h
      · cases e; exact .inr (.inl ⟨.refl _, .refl _⟩)
      · exact .inl (.step h)
    | symm _ ih =>
      rcases ih with h | h | h
      · exact .inl h.symm
      · exact .inr (.inr ⟨h.2.symm, h.1.symm⟩)
      · exact .inr (.inl ⟨h.2.symm, h.1.symm⟩)
    | trans _ _ ih1 ih2 =>
      rcases ih1 with h1 | h1 | h1 <;> rcases ih2 with h2 | h2 | h2
      · exact .inl (h1.trans h2)
      · exact .inr (.inl ⟨h1.trans h2.1, h2.2⟩)
      · exact .inr (.inr ⟨h1.trans h2.1, h2.2⟩)
      · exact .inr (.inl ⟨h1.1, h1.2.trans h2⟩)
      · exact .inr (.inl ⟨h1.1, h2.2⟩)
      · exact .inl (h1.1.trans h2.2)
      · exact .inr (.inr ⟨h1.1, h1.2.trans h2⟩)
      · exact .inl (h1.1.trans h2.2)
      · exact .inr (.inr ⟨h1.1, h2.2⟩)
  · rintro (h | h | h)
    · exact conn_mono hm h
    · exact ((conn_mono hm h.1).trans hab).trans (conn_mono hm h.2)
    · exact ((conn_mono hm h.1).trans hab.symm).trans (conn_mono hm h.2)

/-! ### the abstraction relation -/

/-- `s` represents `a` -/
structure Rel (s : DSet T) (a : Abs T) : Prop where
  valid : s.ids.Valid
  len : s.dataById.length = s.ids.len
  lt : ∀ x i, s.ids.get x = some i → i < s.dataById.length
  inj : ∀ x y i, s.ids.get x = some i → s.ids.get y = some i → x = y
  surj : ∀ i, i < s.dataById.length → ∃ x, s.ids.get x = some i
  good : Good s.dataById
  elems : ∀ x, (s.ids.get x).isSome ↔ x ∈ a.elems
  pairs : ∀ p ∈ a.pairs, p.1 ∈ a.elems ∧ p.2 ∈ a.elems
  conn : ∀ x y i j, s.ids.get x = some i → s.ids.get y = some j →
    (SameRoot s.dataById i j ↔ Conn a.pairs x y)
  roots : roots s.dataById + a.joins = s.dataById.length

/-- two states no call can tell apart -/
structure Twin (s t : DSet T) : Prop where
  ids : t.ids = s.ids
  sim : Sim s.dataById t.dataById

theorem Twin.rel {s t : DSet T} {a : Abs T} (h : Twin s t) (r : Rel s a) : Rel t a := by
  refine ⟨?_, ?_, ?_, ?_, ?_, h.sim.good r.good, ?_, r.pairs, ?_, ?_⟩
  · rw [h.ids]; exact r.valid
  · rw [h.ids, h.sim.len]; exact r.len
  · intro x i; rw [h.ids, h.sim.len]; exact r.lt x i
  · intro x y i; rw [h.ids]; exact r.inj x y i
  · intro i; rw [h.ids, h.sim.len]; exact r.surj i
  · intro x; rw [h.ids]; exact r.elems x
  · intro x y i j; rw [h.ids, h.sim.sameRoot]; exact r.conn x y i j
  · rw [h.sim.roots, h.sim.len]; exact r.roots

theorem Twin.refl {s : DSet T} {a : Abs T} (r : Rel s a) : Twin s s := ⟨rfl, Sim.refl r.good.forest⟩
theorem Twin.trans {s t u : DSet T} (h : Twin s t) (h' : Twin t u) : Twin s u :=
  ⟨h'.ids.trans h.ids, h.sim.trans h'.sim⟩
theorem Twin.symm {s t : DSet T} {a : Abs T} (r : Rel s a) (h : Twin s t) : Twin t s :=
  ⟨h.ids.symm, h.sim.symm r.good.forest⟩

theorem rel_new : Rel (DSet.new : DSet T) Abs.new := by
  refine ⟨HMap.valid_empty, rfl, ?_, ?_, ?_, ⟨⟨?_, ?_⟩, Nat.le_refl _⟩, ?_, ?_, ?_, rfl⟩
  · intro x i h; cases h
  · intro x y i h; cases h
  · intro i h; cases h
  · intro i h; cases h
  · intro i h; exact absurd (par_out (Nat.zero_le _)) h
  · intro x; simp [DSet.new, HMap.get_empty, Abs.new]
  · intro p h; cases h
  · intro x y i j h; cases h

/-- only membership of elements matters -/
theorem Rel.congr {s : DSet T} {a b : Abs T} (r : Rel s a) (he : ∀ x, x ∈ b.elems ↔ x ∈ a.elems)
    (hp : b.pairs = a.pairs) (hj : b.joins = a.joins) : Rel s b :=
  ⟨r.valid, r.len, r.lt, r.inj, r.surj, r.good, fun x => by rw [he]; exact r.elems x,
    fun p hp' => by rw [he, he]; exact r.pairs p (hp ▸ hp'), fun x y i j => by rw [hp]; exact r.conn x y i j,
    by rw [hj]; exact r.roots⟩

theorem Rel.card {s : DSet T} {a : Abs T} (r : Rel s a) : s.ids.len = a.card := by
  have : (s.ids.entries.map (·.1)).Perm a.elems.dedup := by
    rw [List.perm_ext_iff_of_nodup r.valid (List.nodup_dedup _)]
    intro x
    rw [HMap.mem_keys, r.elems, List.mem_dedup]
  have h := this.length_eq
  rw [List.length_map] at h
  exact h

/-! ### make_set -/

theorem makeOrGetSet_ok {s : DSet T} {a : Abs T} (r : Rel s a) (x : T) :
    ∃ i s', DSet.makeOrGetSet x false s = (.ok i, s') ∧ s'.ids.get x = some i ∧
      Rel s' { a with elems := x :: a.elems } ∧ (∀ y j, s.ids.get y = some j → s'.ids.get y = some j) ∧
      (x ∈ a.elems → s' = s) := by
  cases hg : s.ids.get x with
  | some i =>
    refine ⟨i, s, by simp [DSet.makeOrGetSet, hg], hg, ?_, fun _ _ h => h, fun _ => rfl⟩
    have hx : x ∈ a.elems := (r.elems x).mp (by rw [hg]; rfl)
    refine r.congr (fun y => ?_) rfl rfl
    simp only [List.mem_cons]
    exact ⟨fun h => h.elim (fun e => e ▸ hx) id, .inr⟩
  | none =>
    have hx : x ∉ a.elems := fun h => by
      have := (r.elems x).mpr h; rw [hg] at this; cases this
    refine ⟨s.ids.len, { ids := s.ids.insert x s.ids.len, dataById := s.dataById ++ [Data.new s.ids.len] },
      by simp [DSet.makeOrGetSet, hg], ?_, ?_, ?_, fun h => absurd h hx⟩
    · rw [HMap.get_insert, if_pos rfl]
    · have hl : (s.dataById ++ [Data.new s.ids.len]).length = s.dataById.length + 1 := by simp
      have hgood : Good (s.dataById ++ [Data.new s.ids.len]) := by rw [← r.len]; exact good_append r.good
      have hlti : ∀ y i, s.ids.get y = some i → i < s.ids.len := fun y i h => by
        rw [← r.len]; exact r.lt y i h
      refine ⟨HMap.valid_insert r.valid, ?_, ?_, ?_, ?_, hgood, ?_, ?_, ?_, ?_⟩
      · simp only [hl, HMap.len_insert, hg, r.len]; rfl
      · intro y i h
        simp only [HMap.get_insert] at h
        simp only [hl, r.len]
        split at h
        · cases h; omega
        · have := hlti y i h; omega
      · intro y z i hy hz
        simp only [HMap.get_insert] at hy hz
        split at hy <;> split at hz
        · rename_i e1 e2; rw [e1, e2]
        · cases hy; have := hlti z _ hz; omega
        · cases hz; have := hlti y _ hy; omega
        · exact r.inj y z i hy hz
      · intro i hi
        simp only [hl] at hi
        by_cases h : i < s.dataById.length
        · obtain ⟨y, hy⟩ := r.surj i h
          refine ⟨y, ?_⟩
          simp only [HMap.get_insert]
          rw [if_neg (fun e => by rw [e, hg] at hy; cases hy), hy]
        · refine ⟨x, ?_⟩
          simp only [HMap.get_insert, if_true]
          rw [← r.len]; congr 1; omega
      · intro y
        simp only [HMap.get_insert, List.mem_cons]
        split
        · rename_i h; simp [h]
        · rename_i h; simp only [h, false_or]; exact r.elems y
      · intro p hp
        have := r.pairs p hp
        exact ⟨List.mem_cons_of_mem _ this.1, List.mem_cons_of_mem _ this.2⟩
      · intro y z i j hy hz
        simp only [HMap.get_insert] at hy hz
        have hsr : SameRoot (s.dataById ++ [Data.new s.ids.len]) i j ↔ SameRoot s.dataById i j := by
          rw [← r.len]; simp only [SameRoot, root_append]
        rw [hsr]
        have hnew : Root s.dataById s.ids.len s.ids.len := .root (par_out (Nat.le_of_eq r.len))
        have hold : ∀ {w k}, s.ids.get w = some k → ¬ SameRoot s.dataById k s.ids.len := by
          rintro w k hw ⟨q, h1, h2⟩
          have := h1.lt r.good.forest (r.lt w k hw)
          have e := hnew.functional h2
          have := r.len
          omega
        have hconn : ∀ {w}, Conn a.pairs x w → x = w := fun hc => by
          rcases conn_support r.pairs hc with h | h
          · exact h
          · exact absurd h.1 hx
        split at hy <;> split at hz
        · rename_i e1 e2
          cases hy; cases hz
          rw [e1, e2]
          exact ⟨fun _ => .refl _, fun _ => ⟨_, hnew, hnew⟩⟩
        · rename_i e1 e2
          cases hy
          rw [e1]
          refine ⟨fun ⟨q, h1, h2⟩ => absurd ⟨q, h2, h1⟩ (hold hz), fun hc => absurd (hconn hc).symm e2⟩
        · rename_i e1 e2
          cases hz
          rw [e2]
          exact ⟨fun h => absurd h (hold hy), fun hc => absurd (hconn hc.symm).symm e1⟩
        · exact r.conn y z i j hy hz
      · have := roots_append s.dataById
        rw [r.len] at this
        have h2 := r.roots
        simp only [hl, this]
        omega
    · intro y j hy
      simp only [HMap.get_insert]
      rw [if_neg (fun e => by rw [e, hg] at hy; cases hy), hy]

theorem makeOrGetSet_twin {s t : DSet T} {a : Abs T} (r : Rel s a) (h : Twin s t) (x : T) {i : Nat}
    {s' : DSet T} (hs : DSet.makeOrGetSet x false s = (.ok i, s')) :
    ∃ t', DSet.makeOrGetSet x false t = (.ok i, t') ∧ Twin s' t' := by
  have rt := h.rel r
  cases hg : s.ids.get x with
  | some j =>
    rw [DSet.makeOrGetSet] at hs
    simp only [hg, Bool.false_eq_true, if_false, Prod.mk.injEq, Except.ok.injEq] at hs
    obtain ⟨rfl, rfl⟩ := hs
    exact ⟨t, by simp [DSet.makeOrGetSet, h.ids, hg], h⟩
  | none =>
    rw [DSet.makeOrGetSet] at hs
    simp only [hg, Bool.false_eq_true, if_false, Prod.mk.injEq, Except.ok.injEq] at hs
    obtain ⟨rfl, rfl⟩ := hs
    refine ⟨{ ids := s.ids.insert x s.ids.len, dataById := t.dataById ++ [Data.new s.ids.len] },
      by simp [DSet.makeOrGetSet, h.ids, hg], ⟨rfl, ?_⟩⟩
    have := sim_append h.sim rt.good
    rw [r.len, rt.len, h.ids] at this
    exact this

/-! ### union -/

open Classical in
theorem union_ids_ok [Cfg] {stack : Nat} {s : DSet T} {a : Abs T} (r : Rel s a) (hm : s.ids.len ≤ usizeMax)
    (hs : s.ids.len < 2 ^ stack) {x y : T} {i j : Nat} (hx : s.ids.get x = some i)
    (hy : s.ids.get y = some j) :
    ∃ s', DSet.onData (unionIds stack i j) s = (.ok (), s') ∧
      Rel s' { elems := a.elems, pairs := (x, y) :: a.pairs
               joins := if Conn a.pairs x y then a.joins else a.joins + 1 } := by
  obtain ⟨ri, hri⟩ := Root.total r.good.forest i
  obtain ⟨rj, hrj⟩ := Root.total r.good.forest j
  obtain ⟨d', h1, h2, h3⟩ := unionIds_ok r.good (by rw [r.len]; exact hm) (by rw [r.len]; exact hs)
    (r.lt x i hx) (r.lt y j hy) hri hrj
  refine ⟨{ s with dataById := d' }, by rw [DSet.onData, h1], ?_⟩
  have hxe : x ∈ a.elems := (r.elems x).mp (by rw [hx]; rfl)
  have hye : y ∈ a.elems := (r.elems y).mp (by rw [hy]; rfl)
  have hpairs : ∀ p ∈ (x, y) :: a.pairs, p.1 ∈ a.elems ∧ p.2 ∈ a.elems := by
    intro p hp
    rcases List.mem_cons.mp hp with rfl | hp
    · exact ⟨hxe, hye⟩
    · exact r.pairs p hp
  by_cases hne : ri = rj
  · have hsim := h2 hne
    have hc : Conn a.pairs x y := (r.conn x y i j hx hy).mp ⟨ri, hri, hne ▸ hrj⟩
    have r' : Rel { s with dataById := d' } a := Twin.rel (s := s) ⟨rfl, hsim⟩ r
    refine ⟨r'.valid, r'.len, r'.lt, r'.inj, r'.surj, r'.good, r'.elems, hpairs, fun u v k l hu hv => ?_, ?_⟩
    · rw [r'.conn u v k l hu hv, conn_cons]
      constructor
      · exact .inl
      · rintro (h | h | h)
        · exact h
        · exact (h.1.trans hc).trans h.2
        · exact (h.1.trans hc.symm).trans h.2
    · rw [if_pos hc]; exact r'.roots
  · have hl := h3 hne
    have hc : ¬ Conn a.pairs x y := fun hc => by
      obtain ⟨q, q1, q2⟩ := (r.conn x y i j hx hy).mpr hc
      exact hne ((hri.functional q1).trans (hrj.functional q2).symm)
    refine ⟨r.valid, by rw [← r.len]; exact hl.len, fun u k hu => ?_, r.inj, fun k hk => ?_, hl.good, r.elems,
      hpairs, fun u v k l hu hv => ?_, ?_⟩
    · show k < d'.length
      rw [hl.len]; exact r.lt u k hu
    · refine r.surj k ?_
      have : k < d'.length := hk
      rwa [hl.len] at this
    · show SameRoot d' k l ↔ _
      rw [hl.sameRoot r.good.forest hne hri hrj, conn_cons, r.conn u v k l hu hv, r.conn u x k i hu hx,
        r.conn y v j l hy hv, r.conn u y k j hu hy, r.conn x v i l hx hv]
    · rw [if_neg hc]
      show roots d' + (a.joins + 1) = d'.length
      have := hl.roots
      have := r.roots
      rw [hl.len]; omega

theorem linked_sim {d e d' e' : List Data} (h : Sim d e) {ra rb : Nat} (h1 : Linked d ra rb d')
    (h2 : Linked e ra rb e') : Sim d' e' := by
  have e1 : hiOf e ra rb = hiOf d ra rb := by simp only [hiOf, h.rank]
  have e2 : loOf e ra rb = loOf d ra rb := by simp only [loOf, h.rank]
  refine ⟨by rw [h2.len, h1.len, h.len], fun i => ?_, fun i q => ?_, h2.good.forest⟩
  · rw [h2.rank, h1.rank, e1]; simp only [h.rank]
  · rw [h2.root, h1.root, e1, e2]; simp only [h.root]

theorem union_ids_twin [Cfg] {stack : Nat} {s t : DSet T} {a : Abs T} (r : Rel s a) (h : Twin s t)
    (hm : s.ids.len ≤ usizeMax) (hs : s.ids.len < 2 ^ stack) {i j : Nat} (hi : i < s.dataById.length)
    (hj : j < s.dataById.length) {s' : DSet T} (hr : DSet.onData (unionIds stack i j) s = (.ok (), s')) :
    ∃ t', DSet.onData (unionIds stack i j) t = (.ok (), t') ∧ Twin s' t' := by
  have rt := h.rel r
  obtain ⟨ri, hri⟩ := Root.total r.good.forest i
  obtain ⟨rj, hrj⟩ := Root.total r.good.forest j
  obtain ⟨d', h1, h2, h3⟩ := unionIds_ok r.good (by rw [r.len]; exact hm) (by rw [r.len]; exact hs)
    hi hj hri hrj
  obtain ⟨e', g1, g2, g3⟩ := unionIds_ok (stack := stack) rt.good (by rw [rt.len, h.ids]; exact hm)
    (by rw [rt.len, h.ids]; exact hs) (by rw [h.sim.len]; exact hi) (by rw [h.sim.len]; exact hj)
    ((h.sim.root i ri).mpr hri) ((h.sim.root j rj).mpr hrj)
  rw [DSet.onData, h1] at hr
  simp only [Prod.mk.injEq, true_and] at hr
  subst hr
  refine ⟨{ t with dataById := e' }, by rw [DSet.onData, g1], h.ids, ?_⟩
  by_cases hne : ri = rj
  · exact ((h2 hne).symm r.good.forest).trans (h.sim.trans (g2 hne))
  · exact linked_sim h.sim (h3 hne) (g3 hne)

/-! ### searching -/

theorem findOn_ok {stack : Nat} {s : DSet T} {a : Abs T} (r : Rel s a) (hs : s.ids.len < 2 ^ stack)
    {i q : Nat} (hi : i < s.dataById.length) (hq : Root s.dataById i q) :
    ∃ s', (DSet.onData (find stack i) : M (DSet T) Nat) s = (.ok q, s') ∧ Twin s s' := by
  obtain ⟨d', h1, h2⟩ := find_good r.good (by rw [r.len]; exact hs) hi hq
  exact ⟨{ s with dataById := d' }, by rw [DSet.onData, h1], rfl, h2⟩

/-! ### iteration -/

/-- one round of the grouping loop, the root being known -/
def putIn (rt : T × Nat → Nat) (m : HMap Nat (List T)) (e : T × Nat) : HMap Nat (List T) :=
  (m.orInsert (rt e) []).2.insert (rt e) ((m.orInsert (rt e) []).1 ++ [e.1])

/-- the keys of the entries with the given root -/
def grp (rt : T × Nat → Nat) (r : Nat) (es : List (T × Nat)) : List T :=
  (es.filter fun e => decide (rt e = r)).map (·.1)

omit [DecidableEq T] in
theorem putIn_get (rt : T × Nat → Nat) (m : HMap Nat (List T)) (e : T × Nat) (r : Nat) :
    (putIn rt m e).get r = if r = rt e then some ((m.get (rt e)).getD [] ++ [e.1]) else m.get r := by
  unfold putIn HMap.orInsert
  cases hg : m.get (rt e) with
  | some g => simp only [HMap.get_insert, Option.getD_some]
  | none =>
    simp only [HMap.get_insert, Option.getD_none]
    split <;> rfl

omit [DecidableEq T] in
theorem putIn_valid (rt : T × Nat → Nat) {m : HMap Nat (List T)} (h : m.Valid) (e : T × Nat) :
    (putIn rt m e).Valid := by
  unfold putIn HMap.orInsert
  cases hg : m.get (rt e) with
  | some g => exact HMap.valid_insert h
  | none => exact HMap.valid_insert (HMap.valid_insert h)

omit [DecidableEq T] in
theorem fold_putIn (rt : T × Nat → Nat) (es : List (T × Nat)) {m : HMap Nat (List T)} (h : m.Valid) :
    (es.foldl (putIn rt) m).Valid ∧
    (∀ r, ((es.foldl (putIn rt) m).get r).getD [] = (m.get r).getD [] ++ grp rt r es) ∧
    ∀ r, ((es.foldl (putIn rt) m).get r).isSome ↔ (m.get r).isSome ∨ grp rt r es ≠ [] := by
  induction es generalizing m with
  | nil => exact ⟨h, fun r => by simp [grp], fun r => by simp [grp]⟩
  | cons e es ih =>
    obtain ⟨h1, h2, h3⟩ := ih (putIn_valid rt h e)
    refine ⟨h1, fun r => ?_, fun r => ?_⟩
    · rw [List.foldl_cons, h2, putIn_get]
      by_cases hr : r = rt e
      · subst hr; simp [grp]
      · rw [if_neg hr]; simp [grp, Ne.symm hr]
    · rw [List.foldl_cons, h3, putIn_get]
      by_cases hr : r = rt e
      · subst hr; simp [grp]
      · rw [if_neg hr]; simp [grp, Ne.symm hr]

theorem buildLoop_ok {stack : Nat} (rt : T × Nat → Nat) (es : List (T × Nat)) (m : HMap Nat (List T))
    {s : DSet T} {a : Abs T} (r : Rel s a) (hs : s.ids.len < 2 ^ stack)
    (hrt : ∀ e ∈ es, e.2 < s.dataById.length ∧ Root s.dataById e.2 (rt e)) :
    ∃ s', DSet.buildLoop stack es m s = (.ok (es.foldl (putIn rt) m), s') ∧ Twin s s' := by
  induction es generalizing m s with
  | nil => exact ⟨s, rfl, Twin.refl r⟩
  | cons e es ih =>
    obtain ⟨key, val⟩ := e
    obtain ⟨s1, h1, t1⟩ := findOn_ok r hs (hrt _ List.mem_cons_self).1 (hrt _ List.mem_cons_self).2
    obtain ⟨s', h2, t2⟩ := ih (putIn rt m (key, val)) (t1.rel r) (by rw [t1.ids]; exact hs) (fun e he => by
      have := hrt e (List.mem_cons_of_mem _ he)
      rw [t1.sim.len, t1.sim.root]; exact this)
    refine ⟨s', ?_, t1.trans t2⟩
    rw [DSet.buildLoop, M.bind_ok h1]
    exact h2

open Classical in
/-- the root above a node, as a function -/
noncomputable def rootFn (d : List Data) (i : Nat) : Nat := if h : ∃ r, Root d i r then h.choose else 0

theorem rootFn_spec {d : List Data} (hf : Forest d) (i : Nat) : Root d i (rootFn d i) := by
  have h := Root.total hf i
  rw [rootFn, dif_pos h]
  exact h.choose_spec

theorem rootFn_sim {d e : List Data} (hf : Forest d) (h : Sim d e) : rootFn e = rootFn d := by
  funext i
  exact (rootFn_spec h.forest i).functional ((h.root i _).mpr (rootFn_spec hf i))

/-- the groups found by iteration -/
noncomputable def groupsOf (s : DSet T) (o : Shuffle (T × Nat)) (o' : Shuffle (Nat × List T)) : List (List T) :=
  (o'.f (((o.f s.ids.entries).foldl (putIn fun e => rootFn s.dataById e.2) HMap.empty).entries)).map (·.2)

theorem iterate_ok {stack : Nat} {s : DSet T} {a : Abs T} (r : Rel s a) (hs : s.ids.len < 2 ^ stack)
    (o : Shuffle (T × Nat)) (o' : Shuffle (Nat × List T)) :
    ∃ s', DSet.iterate stack o.f o'.f s = (.ok (groupsOf s o o'), s') ∧ Twin s s' := by
  obtain ⟨s', h1, t1⟩ := buildLoop_ok (fun e => rootFn s.dataById e.2) (o.f s.ids.entries) HMap.empty r hs
    (fun e he => ⟨r.lt e.1 e.2 ((HMap.get_eq_some r.valid).mpr ((o.perm _).mem_iff.mp he)),
      rootFn_spec r.good.forest e.2⟩)
  refine ⟨s', ?_, t1⟩
  have h2 : DSet.buildSets stack o.f s =
      (.ok ((o.f s.ids.entries).foldl (putIn fun e => rootFn s.dataById e.2) HMap.empty), s') := h1
  rw [DSet.iterate, M.bind_ok h2]
  rfl

theorem groups_twin {s t : DSet T} {a : Abs T} (r : Rel s a) (h : Twin s t) (o : Shuffle (T × Nat))
    (o' : Shuffle (Nat × List T)) : groupsOf t o o' = groupsOf s o o' := by
  rw [groupsOf, groupsOf, h.ids, rootFn_sim r.good.forest h.sim]

theorem groups_partition {s : DSet T} {a : Abs T} (r : Rel s a) (o : Shuffle (T × Nat))
    (o' : Shuffle (Nat × List T)) :
    a.IsPartition (groupsOf s o o') ∧ (groupsOf s o o').length + a.joins = a.card := by
  let rt : T × Nat → Nat := fun e => rootFn s.dataById e.2
  let es := o.f s.ids.entries
  let m := es.foldl (putIn rt) HMap.empty
  obtain ⟨mv, mg, ms⟩ := fold_putIn rt es (m := HMap.empty) HMap.valid_empty
  have hes : ∀ x i, (x, i) ∈ es ↔ s.ids.get x = some i := fun x i => by
    rw [(o.perm s.ids.entries).mem_iff]; exact (HMap.get_eq_some r.valid).symm
  have hgrp : ∀ x q, x ∈ grp rt q es ↔ ∃ i, s.ids.get x = some i ∧ Root s.dataById i q := by
    intro x q
    simp only [grp, List.mem_map, List.mem_filter, decide_eq_true_eq]
    constructor
    · rintro ⟨⟨y, i⟩, ⟨h1, h2⟩, rfl⟩
      exact ⟨i, (hes y i).mp h1, h2 ▸ rootFn_spec r.good.forest i⟩
    · rintro ⟨i, h1, h2⟩
      exact ⟨(x, i), ⟨(hes x i).mpr h1, (rootFn_spec r.good.forest i).functional h2⟩, rfl⟩
  have hmem : ∀ q g, (q, g) ∈ m.entries ↔ g = grp rt q es ∧ g ≠ [] := by
    intro q g
    rw [← HMap.get_eq_some mv]
    have h1 := mg q
    have h2 := ms q
    simp only [HMap.get_empty, Option.getD_none, List.nil_append, Option.isSome_none, Bool.false_eq_true,
      false_or] at h1 h2
    constructor
    · intro h
      have h' : (es.foldl (putIn rt) HMap.empty).get q = some g := h
      rw [h'] at h1 h2
      refine ⟨h1, ?_⟩
      rw [show g = grp rt q es from h1]
      exact h2.mp rfl
    · rintro ⟨h3, h4⟩
      rw [h3] at h4 ⊢
      obtain ⟨g', hg'⟩ := Option.isSome_iff_exists.mp (h2.mpr h4)
      rw [hg'] at h1
      show (es.foldl (putIn rt) HMap.empty).get q = _
      rw [hg']
      exact congrArg some h1
  have hgs : ∀ g, g ∈ groupsOf s o o' ↔ ∃ q, g = grp rt q es ∧ g ≠ [] := by
    intro g
    simp only [groupsOf, List.mem_map]
    constructor
    · rintro ⟨⟨q, g'⟩, h, rfl⟩
      exact ⟨q, (hmem q g').mp ((o'.perm _).mem_iff.mp h)⟩
    · rintro ⟨q, h⟩
      exact ⟨(q, g), (o'.perm _).mem_iff.mpr ((hmem q g).mpr h), rfl⟩
  have hroot : ∀ x, x ∈ a.elems → ∃ i q, s.ids.get x = some i ∧ Root s.dataById i q := by
    intro x hx
    obtain ⟨i, hi⟩ := Option.isSome_iff_exists.mp ((r.elems x).mpr hx)
    obtain ⟨q, hq⟩ := Root.total r.good.forest i
    exact ⟨i, q, hi, hq⟩
  refine ⟨⟨fun g hg => ?_, ?_, fun x => ?_, fun x y => ?_⟩, ?_⟩
  · obtain ⟨q, _, h⟩ := (hgs g).mp hg; exact h
  · rw [List.nodup_flatten]
    constructor
    · intro g hg
      obtain ⟨q, rfl, _⟩ := (hgs g).mp hg
      have hn : (es.map (·.1)).Nodup :=
        (List.Perm.nodup_iff ((o.perm s.ids.entries).map Prod.fst)).mpr r.valid
      exact (List.Sublist.map _ List.filter_sublist).nodup hn
    · rw [groupsOf, List.pairwise_map]
      have hk : ((o'.f m.entries).map (·.1)).Nodup :=
        (List.Perm.nodup_iff ((o'.perm m.entries).map Prod.fst)).mpr mv
      rw [List.Nodup, List.pairwise_map] at hk
      refine hk.imp_of_mem fun {p q} hp hq hne => ?_
      obtain ⟨p1, p2⟩ := p
      obtain ⟨q1, q2⟩ := q
      have e1 := ((hmem p1 p2).mp ((o'.perm _).mem_iff.mp hp)).1
      have e2 := ((hmem q1 q2).mp ((o'.perm _).mem_iff.mp hq)).1
      simp only at hne ⊢
      rw [e1, e2]
      intro x hx hy
      obtain ⟨i, i1, i2⟩ := (hgrp x p1).mp hx
      obtain ⟨j, j1, j2⟩ := (hgrp x q1).mp hy
      rw [i1] at j1; cases j1
      exact hne (i2.functional j2)
  · rw [List.mem_flatten]
    constructor
    · rintro ⟨g, hg, hx⟩
      obtain ⟨q, rfl, _⟩ := (hgs g).mp hg
      obtain ⟨i, i1, _⟩ := (hgrp x q).mp hx
      exact (r.elems x).mp (by rw [i1]; rfl)
    · intro hx
      obtain ⟨i, q, h1, h2⟩ := hroot x hx
      have hxg := (hgrp x q).mpr ⟨i, h1, h2⟩
      exact ⟨_, (hgs _).mpr ⟨q, rfl, List.ne_nil_of_mem hxg⟩, hxg⟩
  · constructor
    · rintro ⟨g, hg, hx, hy⟩
      obtain ⟨q, rfl, _⟩ := (hgs g).mp hg
      obtain ⟨i, i1, i2⟩ := (hgrp x q).mp hx
      obtain ⟨j, j1, j2⟩ := (hgrp y q).mp hy
      exact ⟨(r.elems x).mp (by rw [i1]; rfl), (r.elems y).mp (by rw [j1]; rfl),
        (r.conn x y i j i1 j1).mp ⟨q, i2, j2⟩⟩
    · rintro ⟨hx, hy, hc⟩
      obtain ⟨i, hi⟩ := Option.isSome_iff_exists.mp ((r.elems x).mpr hx)
      obtain ⟨j, hj⟩ := Option.isSome_iff_exists.mp ((r.elems y).mpr hy)
      obtain ⟨q, q1, q2⟩ := (r.conn x y i j hi hj).mpr hc
      have hxg := (hgrp x q).mpr ⟨i, hi, q1⟩
      exact ⟨_, (hgs _).mpr ⟨q, rfl, List.ne_nil_of_mem hxg⟩, hxg, (hgrp y q).mpr ⟨j, hj, q2⟩⟩
  · have hl : (groupsOf s o o').length = (m.entries.map (·.1)).length := by
      rw [groupsOf, List.length_map, List.length_map, (o'.perm _).length_eq]
    have hp : (m.entries.map (·.1)).Perm
        ((List.range s.dataById.length).filter fun i => decide (par s.dataById i = i)) := by
      rw [List.perm_ext_iff_of_nodup mv (List.nodup_range.filter _)]
      intro q
      simp only [List.mem_map, List.mem_filter, List.mem_range, decide_eq_true_eq]
      constructor
      · rintro ⟨⟨q', g⟩, h, rfl⟩
        obtain ⟨h1, h2⟩ := (hmem q' g).mp h
        obtain ⟨x, hx⟩ := List.exists_mem_of_ne_nil g h2
        rw [h1] at hx
        obtain ⟨i, i1, i2⟩ := (hgrp x q').mp hx
        exact ⟨i2.lt r.good.forest (r.lt x i i1), i2.is_root⟩
      · rintro ⟨h1, h2⟩
        obtain ⟨x, hx⟩ := r.surj q h1
        have hxg := (hgrp x q).mpr ⟨q, hx, .root h2⟩
        exact ⟨(q, grp rt q es), (hmem q _).mpr ⟨rfl, List.ne_nil_of_mem hxg⟩, rfl⟩
    rw [hl, hp.length_eq, ← roots_eq_filter, r.roots, r.len, r.card]

end
end DS
