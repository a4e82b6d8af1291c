import Verif.DS.SpecCongruence
import Verif.DS.LemmasEquality
import Verif.DS.LemmasAutomata
/-!
# Lemmas on equations between terms
-/

open Rust
namespace DS

section
variable {V : Type}

/-- equal arguments give equal results -/
def Congruent (rows : List (Appl V)) (ps : List (V × V)) : Prop :=
  ∀ r ∈ rows, ∀ t ∈ rows, Conn ps r.fn t.fn → Conn ps r.arg t.arg → Conn ps r.res t.res

/-- connected names have equal values if the pairs do -/
theorem conn_val {D : Type} {val : V → D} {ps : List (V × V)} (h : ∀ p ∈ ps, val p.1 = val p.2) {x y : V}
    (hc : Conn ps x y) : val x = val y := by
  induction hc with
  | refl a => rfl
  | step hp => exact h _ hp
  | symm _ ih => exact ih.symm
  | trans _ _ ih1 ih2 => exact ih1.trans ih2

/-- what the pairs connect -/
def connSetoid (ps : List (V × V)) : Setoid V := ⟨Conn ps, ⟨.refl, .symm, .trans⟩⟩

open Classical in
/-- applying, on the connected components -/
noncomputable def quotApp (rows : List (Appl V)) (ps : List (V × V)) (f x : Option (Quotient (connSetoid ps))) :
    Option (Quotient (connSetoid ps)) :=
  if h : ∃ r ∈ rows, f = some (Quotient.mk _ r.fn) ∧ x = some (Quotient.mk _ r.arg) then
    some (Quotient.mk _ h.choose.res)
  else none

/-- if equal arguments give equal results, then there is a world in which only connected names have equal values -/
theorem Congruent.world {rows : List (Appl V)} {equal ps : List (V × V)} (h : Congruent rows ps)
    (he : ∀ e ∈ equal, Conn ps e.1 e.2) :
    ∃ (D : Type) (app : D → D → D) (val : V → D), (∀ r ∈ rows, app (val r.fn) (val r.arg) = val r.res) ∧
      (∀ e ∈ equal, val e.1 = val e.2) ∧ ∀ x y, val x = val y → Conn ps x y := by
  refine ⟨Option (Quotient (connSetoid ps)), quotApp rows ps, fun v => some (Quotient.mk _ v), fun r hr => ?_,
    fun e m => congrArg some (Quotient.sound (s := connSetoid ps) (he e m)),
    fun x y hxy => Quotient.exact (s := connSetoid ps) (Option.some.inj hxy)⟩
  have hex : ∃ t ∈ rows, some (Quotient.mk (connSetoid ps) r.fn) = some (Quotient.mk _ t.fn) ∧
      some (Quotient.mk (connSetoid ps) r.arg) = some (Quotient.mk _ t.arg) := ⟨r, hr, rfl, rfl⟩
  rw [quotApp, dif_pos hex]
  obtain ⟨h1, h2, h3⟩ := hex.choose_spec
  refine congrArg some (Quotient.sound (s := connSetoid ps) ?_)
  exact h _ h1 r hr (.symm (Quotient.exact (s := connSetoid ps) (Option.some.inj h2)))
    (.symm (Quotient.exact (s := connSetoid ps) (Option.some.inj h3)))

theorem Congruent.complete {rows : List (Appl V)} {equal ps : List (V × V)} (h : Congruent rows ps)
    (he : ∀ e ∈ equal, Conn ps e.1 e.2) {x y : V} (hf : Follows rows equal x y) : Conn ps x y := by
  obtain ⟨D, app, val, v1, v2, v3⟩ := h.world he
  exact v3 x y (hf D app val v1 v2)

theorem mem_rowPairs {rows : List (Appl V)} {r t : Appl V} : (r, t) ∈ rowPairs rows ↔ r ∈ rows ∧ t ∈ rows := by
  simp [rowPairs]

end

section
variable {V : Type} [DecidableEq V] [Cfg]

/-- what holds before and after passes: the elements are the names, and all pairs follow -/
structure Kept (names : List V) (rows : List (Appl V)) (equal : List (V × V)) (s : DSet V) (a : Abs V) : Prop where
  rel : Rel s a
  elems : ∀ x, x ∈ a.elems ↔ x ∈ names
  sound : ∀ p ∈ a.pairs, Follows rows equal p.1 p.2
  has : ∀ e ∈ equal, e ∈ a.pairs

variable {names : List V} {rows : List (Appl V)} {equal : List (V × V)}

omit [Cfg] in
theorem Kept.card {s : DSet V} {a : Abs V} (h : Kept names rows equal s a) : a.card = names.dedup.length :=
  Nat.le_antisymm (card_le fun x hx => (h.elems x).mp hx) (card_le fun x hx => (h.elems x).mpr hx)

/-- a question changes nothing -/
theorem Kept.ask {stack : Nat} (hk : 64 ≤ stack) (small : names.dedup.length ≤ usizeMax) {s : DSet V} {a : Abs V}
    (h : Kept names rows equal s a) {x y : V} (hx : x ∈ names) (hy : y ∈ names) :
    ∃ b s', DSet.inUnion stack x y false false s = (.ok b, s') ∧ Kept names rows equal s' a ∧
      (b = true ↔ Conn a.pairs x y) := by
  obtain ⟨b, s', h1, tw, h2⟩ := inUnion_ok (stack := stack) h.rel
    (by rw [h.rel.card, h.card]; exact lt_two_pow small hk) x y
  refine ⟨b, s', h1, ⟨tw.rel h.rel, h.elems, h.sound, h.has⟩, h2.trans ⟨fun h => h.2.2, fun hc => ?_⟩⟩
  exact ⟨(h.elems _).mpr hx, (h.elems _).mpr hy, hc⟩

/-- a pass -/
theorem pass_ok {stack : Nat} (hk : 64 ≤ stack) (small : names.dedup.length ≤ usizeMax)
    (hrows : ∀ r ∈ rows, r.fn ∈ names ∧ r.arg ∈ names ∧ r.res ∈ names) (ps : List (Appl V × Appl V)) :
    ∀ {s : DSet V} {a : Abs V}, Kept names rows equal s a → (∀ p ∈ ps, p.1 ∈ rows ∧ p.2 ∈ rows) →
      ∃ b s' a', pass stack ps s = (.ok b, s') ∧ Kept names rows equal s' a' ∧ a.joins ≤ a'.joins ∧
        (b = true → a.joins < a'.joins) ∧
        (b = false → a' = a ∧ ∀ p ∈ ps, Conn a.pairs p.1.fn p.2.fn → Conn a.pairs p.1.arg p.2.arg →
          Conn a.pairs p.1.res p.2.res) := by
  induction ps with
  | nil => intro s a h _; exact ⟨false, s, a, rfl, h, Nat.le_refl _, by simp, fun _ => ⟨rfl, by simp⟩⟩
  | cons p ps ih =>
    obtain ⟨r, t⟩ := p
    intro s a h hp
    obtain ⟨hr, ht⟩ := hp _ List.mem_cons_self
    have hr' := hrows r hr
    have ht' := hrows t ht
    have hps : ∀ p ∈ ps, p.1 ∈ rows ∧ p.2 ∈ rows := fun q hq => hp q (List.mem_cons_of_mem _ hq)
    -- nothing to do for this pair
    have skip : (Conn a.pairs r.fn t.fn → Conn a.pairs r.arg t.arg → Conn a.pairs r.res t.res) → ∀ {s1 : DSet V},
        Kept names rows equal s1 a → ∃ b s' a', pass stack ps s1 = (.ok b, s') ∧ Kept names rows equal s' a' ∧
          a.joins ≤ a'.joins ∧ (b = true → a.joins < a'.joins) ∧
          (b = false → a' = a ∧ ∀ p ∈ (r, t) :: ps, Conn a.pairs p.1.fn p.2.fn → Conn a.pairs p.1.arg p.2.arg →
            Conn a.pairs p.1.res p.2.res) := by
      intro hskip s1 h1
      obtain ⟨b, s', a', g1, g2, g3, g4, g5⟩ := ih h1 hps
      refine ⟨b, s', a', g1, g2, g3, g4, fun hb => ⟨(g5 hb).1, fun q hq => ?_⟩⟩
      rcases List.mem_cons.mp hq with rfl | hq
      · exact hskip
      · exact (g5 hb).2 q hq
    rw [pass]
    obtain ⟨b1, s1, q1, k1, c1⟩ := h.ask hk small hr'.1 ht'.1
    rw [M.bind_ok q1]
    cases b1 with
    | false => exact skip (fun hc => absurd (c1.mpr hc) (by simp)) k1
    | true =>
      simp only [if_true]
      obtain ⟨b2, s2, q2, k2, c2⟩ := k1.ask hk small hr'.2.1 ht'.2.1
      rw [M.bind_ok q2]
      cases b2 with
      | false => exact skip (fun _ hc => absurd (c2.mpr hc) (by simp)) k2
      | true =>
        simp only [if_true]
        obtain ⟨b3, s3, q3, k3, c3⟩ := k2.ask hk small hr'.2.2 ht'.2.2
        rw [M.bind_ok q3]
        cases b3 with
        | true => exact skip (fun _ _ => c3.mp rfl) k3
        | false =>
          have hn : ¬ Conn a.pairs r.res t.res := fun hc => absurd (c3.mpr hc) (by simp)
          have e1 : ∀ z, z ∈ (a.step (.union r.res t.res false false)).elems ↔ z ∈ names := fun z => by
            rw [← h.elems z]
            have x1 := (h.elems _).mpr hr'.2.2
            have x2 := (h.elems _).mpr ht'.2.2
            simp only [Abs.step, Bool.false_eq_true, if_false, List.mem_cons]
            constructor
            · rintro (rfl | rfl | h) <;> assumption
            · exact fun h => .inr (.inr h)
          have p1 : (a.step (.union r.res t.res false false)).pairs = (r.res, t.res) :: a.pairs := by simp [Abs.step]
          have j1 : (a.step (.union r.res t.res false false)).joins = a.joins + 1 := by simp [Abs.step, hn]
          obtain ⟨s4, u1, r4⟩ := union_run hk k3.rel r.res t.res
            (Nat.le_trans (card_le fun x hx => (e1 x).mp hx) small)
          simp only [Bool.false_eq_true, if_false]
          rw [M.bind_ok u1]
          generalize a.step (.union r.res t.res false false) = a1 at *
          have k4 : Kept names rows equal s4 a1 := by
            refine ⟨r4, e1, fun p hm => ?_, fun e he => by rw [p1]; exact List.mem_cons_of_mem _ (h.has e he)⟩
            rw [p1] at hm
            rcases List.mem_cons.mp hm with rfl | hm
            · intro D app val v1 v2
              have hv : ∀ p ∈ a.pairs, val p.1 = val p.2 := fun p hp => h.sound p hp D app val v1 v2
              have w1 := conn_val hv (c1.mp rfl)
              have w2 := conn_val hv (c2.mp rfl)
              show val r.res = val t.res
              rw [← v1 r hr, ← v1 t ht, w1, w2]
            · exact h.sound p hm
          obtain ⟨b, s', a', g1, g2, g3, _, _⟩ := ih k4 hps
          refine ⟨true, s', a', ?_, g2, by omega, fun _ => by omega, by simp⟩
          rw [M.bind_ok g1]
          rfl

/-- the passes -/
theorem passes_ok {stack : Nat} (hk : 64 ≤ stack) (small : names.dedup.length ≤ usizeMax)
    (hrows : ∀ r ∈ rows, r.fn ∈ names ∧ r.arg ∈ names ∧ r.res ∈ names) (n : Nat) :
    ∀ {s : DSet V} {a : Abs V}, Kept names rows equal s a → names.dedup.length < a.joins + n →
      ∃ s' a', passes stack (rowPairs rows) n s = (.ok (), s') ∧ Kept names rows equal s' a' ∧ Congruent rows a'.pairs := by
  induction n with
  | zero =>
    intro s a h hn
    have := h.rel.joins_le
    rw [h.card] at this
    omega
  | succ n ih =>
    intro s a h hn
    obtain ⟨b, s', a', g1, g2, _, g4, g5⟩ := pass_ok hk small hrows (rowPairs rows) h
      (fun p hp => mem_rowPairs.mp hp)
    rw [passes, M.bind_ok g1]
    cases b with
    | true => exact ih g2 (by have := g4 rfl; omega)
    | false =>
      obtain ⟨rfl, g6⟩ := g5 rfl
      exact ⟨s', a', rfl, g2, fun r hr t ht => g6 (r, t) (mem_rowPairs.mpr ⟨hr, ht⟩)⟩

/-- the whole program -/
theorem closeUp_ok {stack : Nat} (hk : 64 ≤ stack) (small : names.dedup.length ≤ usizeMax)
    (hrows : ∀ r ∈ rows, r.fn ∈ names ∧ r.arg ∈ names ∧ r.res ∈ names)
    (hequal : ∀ e ∈ equal, e.1 ∈ names ∧ e.2 ∈ names) :
    ∃ s' a', closeUp stack names rows equal DSet.new = (.ok (), s') ∧ Kept names rows equal s' a' ∧
      Congruent rows a'.pairs := by
  obtain ⟨s1, e1, r1⟩ := extendLoop_ok names false (rel_new (T := V))
  have e2 : DSet.extend 0 false names false (DSet.new : DSet V) = (.ok (), s1) := e1
  have hm : ∀ x ∈ mentioned equal, x ∈ names := fun x hx => by
    simp only [mentioned, List.mem_flatMap, List.mem_cons, List.not_mem_nil, or_false] at hx
    obtain ⟨e, he, rfl | rfl⟩ := hx
    · exact (hequal e he).1
    · exact (hequal e he).2
  obtain ⟨s2, a2, u1, r2, p2, el2⟩ := equateAll_ok hk small equal r1 (by simp [Abs.new]) hm
  have k2 : Kept names rows equal s2 a2 := by
    refine ⟨r2, fun x => ?_, fun p hp => ?_, fun e he => ?_⟩
    · rw [el2]
      simp only [Abs.new, List.append_nil, List.mem_reverse]
      exact ⟨fun h => h.elim (hm x) id, .inr⟩
    · rw [p2] at hp
      simp only [Abs.new, List.append_nil, List.mem_reverse] at hp
      exact fun D app val _ v2 => v2 p hp
    · rw [p2]
      exact List.mem_append_left _ (List.mem_reverse.mpr he)
  obtain ⟨s3, a3, g1, g2, g3⟩ := passes_ok hk small hrows (s2.len + 1) k2 (by
    have : s2.len = names.dedup.length := by rw [← k2.card]; exact k2.rel.card
    omega)
  refine ⟨s3, a3, ?_, g2, g3⟩
  rw [closeUp, M.bind_ok e2, M.bind_ok u1]
  exact g1

end

end DS
