import Verif.DS.Local
/-!
# Sets with the same elements and the same groups

Helpers of `PropsAlike`. `Alike` is part of the statement of C87.
-/

open Rust
namespace DS

section
variable {T : Type}

/-- Two results are alike: equal, except that iterations may list the same groups, and the elements of a group,
in different orders. -/
def Alike : Except Fault (Out T) → Except Fault (Out T) → Prop
  | .ok (.groups gs), .ok (.groups hs) =>
    gs.length = hs.length ∧ (∀ g ∈ gs, ∃ h ∈ hs, g.Perm h) ∧ ∀ h ∈ hs, ∃ g ∈ gs, h.Perm g
  | r, r' => r = r'

/-- `a` and `b` have the same elements and connect the same ones -/
structure Abs.Eqv (a b : Abs T) : Prop where
  elems : ∀ x, x ∈ a.elems ↔ x ∈ b.elems
  conn : ∀ x y, Conn a.pairs x y ↔ Conn b.pairs x y

theorem Abs.Eqv.symm {a b : Abs T} (h : a.Eqv b) : b.Eqv a := ⟨fun x => (h.elems x).symm, fun x y => (h.conn x y).symm⟩

theorem Abs.Eqv.same {a b : Abs T} (h : a.Eqv b) (x y : T) : a.Same x y ↔ b.Same x y := by
  rw [Abs.Same, Abs.Same, h.elems, h.elems, h.conn]

theorem conn_cons_le {ps qs : List (T × T)} (h : ∀ x y, Conn ps x y → Conn qs x y) (p : T × T) {x y : T}
    (hc : Conn (p :: ps) x y) : Conn (p :: qs) x y := by
  have mono : ∀ {x y : T}, Conn qs x y → Conn (p :: qs) x y := by
    intro x y hq
    induction hq with
    | refl a => exact .refl a
    | step hm => exact .step (List.mem_cons_of_mem _ hm)
    | symm _ ih => exact .symm ih
    | trans _ _ ih1 ih2 => exact .trans ih1 ih2
  induction hc with
  | refl a => exact .refl a
  | step hm =>
    rcases List.mem_cons.mp hm with e | hm
    · exact .step (by rw [e]; exact List.mem_cons_self)
    · exact mono (h _ _ (.step hm))
  | symm _ ih => exact .symm ih
  | trans _ _ ih1 ih2 => exact .trans ih1 ih2

theorem Abs.Eqv.step {a b : Abs T} (h : a.Eqv b) (op : Op T) : (a.step op).Eqv (b.step op) := by
  cases op with
  | makeSet x kp =>
    cases kp
    · exact ⟨fun z => by simp [Abs.step, h.elems z], h.conn⟩
    · exact h
  | union x y xp yp =>
    cases xp
    · cases yp
      · exact ⟨fun z => by simp [Abs.step, h.elems z], fun u v =>
          ⟨conn_cons_le (fun x y => (h.conn x y).mp) _, conn_cons_le (fun x y => (h.conn x y).mpr) _⟩⟩
      · exact ⟨fun z => by simp [Abs.step, h.elems z], h.conn⟩
    · exact h
  | clear => exact ⟨fun _ => Iff.rfl, fun _ _ => Iff.rfl⟩
  | extend n c items p =>
    cases c
    · exact ⟨fun z => by simp [Abs.step, h.elems z], h.conn⟩
    · exact h
  | extendRef n c items p =>
    cases c
    · exact ⟨fun z => by simp [Abs.step, h.elems z], h.conn⟩
    · exact h
  | inUnion | contains | len | isEmpty | reserve | iterate => exact h

variable [DecidableEq T]

theorem Abs.Eqv.card {a b : Abs T} (h : a.Eqv b) : a.card = b.card := by
  apply List.Perm.length_eq
  rw [List.perm_ext_iff_of_nodup (List.nodup_dedup _) (List.nodup_dedup _)]
  intro x; rw [List.mem_dedup, List.mem_dedup, h.elems]

/-- two listings of the same partition have the same groups -/
theorem groups_alike {a b : Abs T} (h : a.Eqv b) {gs hs : List (List T)} (hg : a.IsPartition gs)
    (hh : b.IsPartition hs) : ∀ g ∈ gs, ∃ k ∈ hs, g.Perm k := by
  intro g hgm
  obtain ⟨x, hx⟩ := List.exists_mem_of_ne_nil _ (hg.1 g hgm)
  have hxe : x ∈ a.elems := (hg.2.2.1 x).mp (List.mem_flatten.mpr ⟨g, hgm, hx⟩)
  obtain ⟨k, hk, hxk⟩ := List.mem_flatten.mp ((hh.2.2.1 x).mpr ((h.elems x).mp hxe))
  have uniq : ∀ {gs : List (List T)} {g g' : List T}, gs.flatten.Nodup → g ∈ gs → g' ∈ gs → x ∈ g → x ∈ g' →
      g = g' := by
    intro gs g g' hn h1 h2 hx hx'
    by_contra hne
    obtain ⟨i, hi, rfl⟩ := List.getElem_of_mem h1
    obtain ⟨j, hj, rfl⟩ := List.getElem_of_mem h2
    have hd := (List.nodup_flatten.mp hn).2
    rw [List.pairwise_iff_getElem] at hd
    rcases Nat.lt_trichotomy i j with l | e | l
    · exact hd i j hi hj l hx hx'
    · subst e; exact hne rfl
    · exact hd j i hj hi l hx' hx
  refine ⟨k, hk, (List.perm_ext_iff_of_nodup ((List.nodup_flatten.mp hg.2.1).1 g hgm)
    ((List.nodup_flatten.mp hh.2.1).1 k hk)).mpr fun y => ?_⟩
  constructor
  · intro hy
    obtain ⟨k', h1, h2, h3⟩ := (hh.2.2.2 x y).mpr ((h.same x y).mp ((hg.2.2.2 x y).mp ⟨g, hgm, hx, hy⟩))
    rw [uniq hh.2.1 hk h1 hxk h2]; exact h3
  · intro hy
    obtain ⟨g', h1, h2, h3⟩ := (hg.2.2.2 x y).mpr ((h.same x y).mpr ((hh.2.2.2 x y).mp ⟨k, hk, hxk, hy⟩))
    rw [uniq hg.2.1 hgm h1 hx h2]; exact h3

/-- equivalent states expect alike answers -/
theorem answer_alike {a b : Abs T} (h : a.Eqv b) (op : Op T) {r r' : Except Fault (Out T)}
    (ha : a.Answer op r) (hb : b.Answer op r') : Alike r r' := by
  have boolc : ∀ {P Q : Prop} (_ : P ↔ Q) (_ : ∃ c, r = .ok (.bool c) ∧ (c = true ↔ P))
      (_ : ∃ c, r' = .ok (.bool c) ∧ (c = true ↔ Q)), Alike r r' := by
    rintro P Q e ⟨c, rfl, hc⟩ ⟨d, rfl, hd⟩
    have : c = d := by rw [Bool.eq_iff_iff, hc, hd, e]
    subst this; exact rfl
  have refl : r = r' → (∀ gs, r ≠ .ok (.groups gs)) → Alike r r' := by
    rintro rfl hn
    cases r with
    | error e => exact rfl
    | ok o => cases o with
      | groups gs => exact absurd rfl (hn gs)
      | unit => exact rfl
      | bool => exact rfl
      | nat => exact rfl
  cases op with
  | makeSet x kp => cases kp <;> exact refl (ha.trans hb.symm) (fun gs => by rw [ha]; intro h; cases h)
  | union x y xp yp =>
    cases xp <;> cases yp <;> exact refl (ha.trans hb.symm) (fun gs => by rw [ha]; intro h; cases h)
  | inUnion x y xp yp =>
    cases xp
    · cases yp
      · exact boolc (h.same x y) ha hb
      · simp only [Abs.Answer, Bool.false_eq_true, if_false, if_true] at ha hb
        by_cases hx : x ∈ a.elems
        · rw [ha.1 hx, hb.1 ((h.elems x).mp hx)]; exact rfl
        · rw [ha.2 hx, hb.2 (fun hn => hx ((h.elems x).mpr hn))]; exact rfl
    · simp only [Abs.Answer, if_true] at ha hb
      rw [ha, hb]; exact rfl
  | contains x kp =>
    cases kp
    · exact boolc (h.elems x) ha hb
    · simp only [Abs.Answer, if_true] at ha hb
      rw [ha, hb]; exact rfl
  | len =>
    simp only [Abs.Answer] at ha hb
    rw [ha, hb, h.card]; exact rfl
  | isEmpty =>
    refine boolc ?_ ha hb
    rw [List.eq_nil_iff_forall_not_mem, List.eq_nil_iff_forall_not_mem]
    simp only [h.elems]
  | clear => simp only [Abs.Answer] at ha hb; rw [ha, hb]; exact rfl
  | reserve n cp => cases cp <;> exact refl (ha.trans hb.symm) (fun gs => by rw [ha]; intro h; cases h)
  | extend n cp items p =>
    cases cp <;> cases p <;> exact refl (ha.trans hb.symm) (fun gs => by rw [ha]; intro h; cases h)
  | extendRef n cp items p =>
    cases cp <;> cases p <;> exact refl (ha.trans hb.symm) (fun gs => by rw [ha]; intro h; cases h)
  | iterate o o' =>
    obtain ⟨gs, rfl, p, _⟩ := ha
    obtain ⟨hs, rfl, q, _⟩ := hb
    exact ⟨Nat.le_antisymm (partition_le p q h.elems h.conn) (partition_le q p h.symm.elems h.symm.conn),
      groups_alike h p q, groups_alike h.symm q p⟩

theorem answers_alike {a b : Abs T} (h : a.Eqv b) (ops : List (Op T)) {rs rs' : List (Except Fault (Out T))}
    (ha : Answers a ops rs) (hb : Answers b ops rs') : List.Forall₂ Alike rs rs' := by
  induction ops generalizing a b rs rs' with
  | nil =>
    cases rs with
    | nil => cases rs' with
      | nil => exact .nil
      | cons => exact hb.elim
    | cons => exact ha.elim
  | cons op ops ih =>
    cases rs with
    | nil => exact ha.elim
    | cons r rs => cases rs' with
      | nil => exact hb.elim
      | cons r' rs' => exact .cons (answer_alike h op ha.1 hb.1) (ih (h.step op) ha.2 hb.2)

omit [DecidableEq T] in
theorem run_alike {a b : Abs T} (h : a.Eqv b) (ops : List (Op T)) : (a.run ops).Eqv (b.run ops) := by
  induction ops generalizing a b with
  | nil => exact h
  | cons op ops ih => exact ih (h.step op)

variable [Cfg]

/-- sets that answer alike mean the same -/
theorem Reached.eqv {k k' : Nat} {st st' : Start T} {ops ops' : List (Op T)} {s s' : DSet T} {a a' : Abs T}
    (h : Reached k st ops s a) (h' : Reached k' st' ops' s' a') (hc : ∀ x, Has s x ↔ Has s' x)
    (hu : ∀ x y, Together k s x y ↔ Together k' s' x y) : a.Eqv a' := by
  refine ⟨fun x => by rw [← h.has, hc, h'.has], fun x y => ?_⟩
  have hs : a.Same x y ↔ a'.Same x y := by rw [← h.together, hu, h'.together]
  constructor
  · intro hn
    rcases conn_support h.rel.pairs hn with rfl | e
    · exact .refl _
    · exact (hs.mp ⟨e.1, e.2, hn⟩).2.2
  · intro hn
    rcases conn_support h'.rel.pairs hn with rfl | e
    · exact .refl _
    · exact (hs.mpr ⟨e.1, e.2, hn⟩).2.2


end
end DS
