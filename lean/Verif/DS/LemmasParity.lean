import Verif.DS.SpecParity
import Verif.DS.LemmasForest
/-!
# Lemmas on equations between two-valued unknowns
-/

open Rust
namespace DS

section
variable {V : Type}

/-- the pairs united for these equations -/
def parityPairs : List (Equation V) → List ((V × Bool) × (V × Bool))
  | [] => []
  | e :: es => ((e.left, true), (e.right, !e.differ)) :: ((e.left, false), (e.right, e.differ)) :: parityPairs es

theorem mem_parityPairs {es : List (Equation V)} {p : (V × Bool) × (V × Bool)} :
    p ∈ parityPairs es ↔ ∃ e ∈ es, ∃ b, p = ((e.left, b), (e.right, b ^^ e.differ)) := by
  induction es with
  | nil => simp [parityPairs]
  | cons e es ih =>
    simp only [parityPairs, List.mem_cons, ih]
    constructor
    · rintro (rfl | rfl | ⟨f, hf, b, rfl⟩)
      · exact ⟨e, .inl rfl, true, by simp⟩
      · exact ⟨e, .inl rfl, false, by simp⟩
      · exact ⟨f, .inr hf, b, rfl⟩
    · rintro ⟨f, rfl | hf, b, rfl⟩
      · cases b <;> simp
      · exact .inr (.inr ⟨f, hf, b, rfl⟩)

/-- connected elements have the same value in every solution -/
theorem parity_sound {es : List (Equation V)} {val : V → Bool} (h : Solves val es) {x y : V × Bool}
    (hc : Conn (parityPairs es) x y) : (val x.1 ^^ x.2) = (val y.1 ^^ y.2) := by
  induction hc with
  | refl a => rfl
  | step hp =>
    obtain ⟨e, he, b, hb⟩ := mem_parityPairs.mp hp
    obtain ⟨rfl, rfl⟩ := Prod.mk.inj hb
    have := h e he
    unfold Equation.Holds at this
    rw [← this]
    cases val e.left <;> cases val e.right <;> cases b <;> rfl
  | symm _ ih => exact ih.symm
  | trans _ _ ih1 ih2 => exact ih1.trans ih2

/-- if two elements are not connected, some solution gives them different values -/
theorem parity_complete {es : List (Equation V)} (h : Solvable es) {x y : V × Bool}
    (hc : ¬ Conn (parityPairs es) x y) : ∃ val, Solves val es ∧ (val x.1 ^^ x.2) ≠ (val y.1 ^^ y.2) := by
  classical
  obtain ⟨val, hv⟩ := h
  by_cases hne : (val x.1 ^^ x.2) = (val y.1 ^^ y.2)
  · let near : V → Bool := fun z => decide (∃ b, Conn (parityPairs es) x (z, b))
    have hx : near x.1 = true := decide_eq_true ⟨x.2, .refl _⟩
    have hy : near y.1 = false := by
      refine decide_eq_false ?_
      rintro ⟨b, hb⟩
      have := parity_sound hv hb
      simp only at this
      rw [hne] at this
      have : b = y.2 := by revert this; cases val y.1 <;> cases b <;> cases y.2 <;> simp
      subst this
      exact hc hb
    refine ⟨fun z => val z ^^ near z, fun e he => ?_, ?_⟩
    · have hn : near e.left = near e.right := by
        have hp : ∀ b, Conn (parityPairs es) (e.left, b) (e.right, b ^^ e.differ) := fun b =>
          .step (mem_parityPairs.mpr ⟨e, he, b, rfl⟩)
        refine decide_eq_decide.mpr ⟨fun ⟨b, hb⟩ => ⟨_, hb.trans (hp b)⟩, fun ⟨b, hb⟩ => ?_⟩
        refine ⟨b ^^ e.differ, hb.trans (.symm ?_)⟩
        have := hp (b ^^ e.differ)
        simpa using this
      have := hv e he
      unfold Equation.Holds at this ⊢
      simp only
      rw [← this, hn]
      cases val e.left <;> cases val e.right <;> cases near e.right <;> rfl
    · simp only [hx, hy]
      revert hne
      cases val x.1 <;> cases val y.1 <;> cases x.2 <;> cases y.2 <;> simp
  · exact ⟨val, hv, hne⟩

/-- when one more equation can be solved -/
theorem solvable_cons {es : List (Equation V)} (h : Solvable es) (e : Equation V) :
    Solvable (e :: es) ↔ ¬ Conn (parityPairs es) (e.left, false) (e.right, !e.differ) := by
  constructor
  · rintro ⟨val, hv⟩ hc
    have h1 := parity_sound (fun f hf => hv f (List.mem_cons_of_mem _ hf)) hc
    have h2 := hv e List.mem_cons_self
    unfold Equation.Holds at h2
    simp only at h1
    revert h1 h2
    cases val e.left <;> cases val e.right <;> cases e.differ <;> simp
  · intro hc
    obtain ⟨val, hv, hne⟩ := parity_complete h hc
    refine ⟨val, fun f hf => ?_⟩
    rcases List.mem_cons.mp hf with rfl | hf
    · unfold Equation.Holds
      revert hne
      cases val f.left <;> cases val f.right <;> cases f.differ <;> simp
    · exact hv f hf

theorem kept_pos {before es : List (Equation V)} {e : Equation V} (h : Solvable (e :: before)) :
    kept before (e :: es) = e :: kept (e :: before) es := by rw [kept, if_pos h]
theorem kept_neg {before es : List (Equation V)} {e : Equation V} (h : ¬ Solvable (e :: before)) :
    kept before (e :: es) = kept before es := by rw [kept, if_neg h]

theorem Solvable.of_mem {es fs : List (Equation V)} (h : Solvable es) (hm : ∀ e ∈ fs, e ∈ es) : Solvable fs :=
  h.imp fun _ hv e he => hv e (hm e he)

theorem kept_sublist (before es : List (Equation V)) : (kept before es).Sublist es := by
  induction es generalizing before with
  | nil => exact .slnil
  | cons e es ih =>
    by_cases h : Solvable (e :: before)
    · rw [kept_pos h]; exact (ih _).cons_cons _
    · rw [kept_neg h]; exact (ih _).cons _

theorem kept_solvable {before : List (Equation V)} (h : Solvable before) (es : List (Equation V)) :
    Solvable (kept before es ++ before) := by
  induction es generalizing before with
  | nil => exact h
  | cons e es ih =>
    by_cases hs : Solvable (e :: before)
    · rw [kept_pos hs]
      exact (ih hs).of_mem fun f hf => by simpa [or_left_comm, or_assoc, or_comm] using hf
    · rw [kept_neg hs]; exact ih h

theorem kept_all {before es : List (Equation V)} (h : Solvable (es ++ before)) : kept before es = es := by
  induction es generalizing before with
  | nil => rfl
  | cons e es ih =>
    have hs : Solvable (e :: before) := h.of_mem fun f hf => by
      rcases List.mem_cons.mp hf with rfl | hf
      · exact List.mem_cons_self
      · exact List.mem_append_right _ hf
    rw [kept_pos hs, ih]
    exact h.of_mem fun f hf => by simpa [or_left_comm, or_assoc, or_comm] using hf

end

section
variable {V : Type} [DecidableEq V] [Cfg]

theorem union_run {T : Type} [DecidableEq T] {stack : Nat} (hk : 64 ≤ stack) {s : DSet T} {a : Abs T} (r : Rel s a)
    (x y : T) (hc : (a.step (.union x y false false)).card ≤ usizeMax) :
    ∃ s', DSet.union stack x y false false s = (.ok (), s') ∧ Rel s' (a.step (.union x y false false)) := by
  obtain ⟨out, s2, g1, g2, g3⟩ := step_ok r (.union x y false false) hc (lt_two_pow hc hk)
  refine ⟨s2, ?_, g2⟩
  have : out = .ok .unit := g3
  rw [this] at g1
  change wrap _ (DSet.union stack _ _ false false) s = _ at g1
  unfold wrap at g1
  generalize DSet.union stack x y false false s = q at g1 ⊢
  obtain ⟨r, t⟩ := q
  cases r with
  | error f => cases g1
  | ok u => cases g1; rfl

theorem accept_ok {stack : Nat} (hk : 64 ≤ stack) {all : List (V × Bool)} (hall : all.dedup.length ≤ usizeMax)
    (es : List (Equation V)) {s : DSet (V × Bool)} {a : Abs (V × Bool)} {before : List (Equation V)} (r : Rel s a)
    (hp : a.pairs = parityPairs before) (hb : Solvable before) (ha : ∀ x ∈ a.elems, x ∈ all)
    (he : ∀ v ∈ unknowns es, ∀ b, (v, b) ∈ all) :
    ∃ s' a', accept stack es s = (.ok (kept before es), s') ∧ Rel s' a' ∧
      a'.pairs = parityPairs ((kept before es).reverse ++ before) ∧ (∀ x ∈ a'.elems, x ∈ all) ∧
      (∀ x ∈ a.elems, x ∈ a'.elems) ∧ ∀ v ∈ unknowns es, ∀ b, (v, b) ∈ a'.elems := by
  induction es generalizing s a before with
  | nil => exact ⟨s, a, rfl, r, by simp [kept, hp], ha, fun _ h => h, fun v hv => by cases hv⟩
  | cons e es ih =>
    obtain ⟨s1, h1, r1⟩ := extendLoop_ok [(e.left, false), (e.left, true), (e.right, false), (e.right, true)] false r
    have h1' : DSet.extend 4 false [(e.left, false), (e.left, true), (e.right, false), (e.right, true)] false s =
        (.ok (), s1) := h1
    generalize hA : ({ a with elems := [(e.left, false), (e.left, true), (e.right, false), (e.right, true)].reverse ++
      a.elems } : Abs (V × Bool)) = a1 at r1
    have el1 : a1.elems = [(e.right, true), (e.right, false), (e.left, true), (e.left, false)] ++ a.elems := by
      rw [← hA]; rfl
    have pa1 : a1.pairs = parityPairs before := by rw [← hA]; exact hp
    have hl : ∀ b, (e.left, b) ∈ all := he _ (by simp [unknowns])
    have hr : ∀ b, (e.right, b) ∈ all := he _ (by simp [unknowns])
    have ml : ∀ b, (e.left, b) ∈ a1.elems := by intro b; rw [el1]; cases b <;> simp
    have mr : ∀ b, (e.right, b) ∈ a1.elems := by intro b; rw [el1]; cases b <;> simp
    have ha1 : ∀ x ∈ a1.elems, x ∈ all := by
      intro x hx
      rw [el1] at hx
      simp only [List.cons_append, List.nil_append, List.mem_cons] at hx
      rcases hx with rfl | rfl | rfl | rfl | hx
      · exact hr _
      · exact hr _
      · exact hl _
      · exact hl _
      · exact ha x hx
    have c1 : a1.card ≤ usizeMax := Nat.le_trans (card_le ha1) hall
    obtain ⟨b, s2, h2, tw, h3⟩ := inUnion_ok (stack := stack) r1 (by rw [r1.card]; exact lt_two_pow c1 hk)
      (e.left, false) (e.right, !e.differ)
    have r2 : Rel s2 a1 := tw.rel r1
    have h3' : b = true ↔ ¬ Solvable (e :: before) := by
      rw [h3, solvable_cons hb, not_not, ← pa1]
      exact ⟨fun h => h.2.2, fun h => ⟨ml _, mr _, h⟩⟩
    have run : accept stack (e :: es) s = (if b then accept stack es else do
        DSet.union stack (e.left, false) (e.right, e.differ) false false
        DSet.union stack (e.left, true) (e.right, !e.differ) false false
        let accepted ← accept stack es
        pure (e :: accepted)) s2 := by
      change (DSet.extend 4 false _ false >>= fun _ => DSet.inUnion stack _ _ false false >>= _) s = _
      rw [M.bind_ok h1', M.bind_ok h2]
    have hu : ∀ v, v ∈ unknowns (e :: es) ↔ v = e.left ∨ v = e.right ∨ v ∈ unknowns es := by
      intro v; simp [unknowns]
    cases b with
    | true =>
      have hs := h3'.mp rfl
      obtain ⟨s', a', i1, i2, i3, i4, i5, i6⟩ := ih r2 pa1 hb ha1 fun v hv => he v ((hu v).mpr (.inr (.inr hv)))
      refine ⟨s', a', by rw [run, if_pos rfl, i1, kept_neg hs], i2, by rw [kept_neg hs, i3], i4,
        fun x hx => i5 x (by rw [el1]; exact List.mem_append_right _ hx), fun v hv c => ?_⟩
      rcases (hu v).mp hv with rfl | rfl | hv
      · exact i5 _ (ml c)
      · exact i5 _ (mr c)
      · exact i6 v hv c
    | false =>
      have hs : Solvable (e :: before) := by
        by_contra hn
        exact absurd (h3'.mpr hn) (by simp)
      have st : ∀ (c : Abs (V × Bool)) (x y : V × Bool), x ∈ c.elems → y ∈ c.elems → (∀ z ∈ c.elems, z ∈ all) →
          (c.step (.union x y false false)).pairs = (x, y) :: c.pairs ∧
          ∀ z, z ∈ (c.step (.union x y false false)).elems ↔ z ∈ c.elems := by
        intro c x y hx hy hc
        refine ⟨by simp [Abs.step], fun z => ?_⟩
        simp only [Abs.step, Bool.false_eq_true, if_false, List.mem_cons]
        constructor
        · rintro (rfl | rfl | h)
          · exact hy
          · exact hx
          · exact h
        · exact fun h => .inr (.inr h)
      obtain ⟨p3, e3⟩ := st a1 _ _ (ml false) (mr e.differ) ha1
      obtain ⟨s3, g3, r3⟩ := union_run hk r2 (e.left, false) (e.right, e.differ)
        (Nat.le_trans (card_le fun x hx => ha1 x ((e3 x).mp hx)) hall)
      generalize a1.step (.union (e.left, false) (e.right, e.differ) false false) = a3 at p3 e3 r3
      have ha3 : ∀ x ∈ a3.elems, x ∈ all := fun x hx => ha1 x ((e3 x).mp hx)
      obtain ⟨p4, e4⟩ := st a3 (e.left, true) (e.right, !e.differ) ((e3 _).mpr (ml _)) ((e3 _).mpr (mr _)) ha3
      obtain ⟨s4, g4, r4⟩ := union_run hk r3 (e.left, true) (e.right, !e.differ)
        (Nat.le_trans (card_le fun x hx => ha3 x ((e4 x).mp hx)) hall)
      generalize a3.step (.union (e.left, true) (e.right, !e.differ) false false) = a4 at p4 e4 r4
      obtain ⟨s', a', i1, i2, i3, i4, i5, i6⟩ := ih (before := e :: before) r4
        (by rw [p4, p3, pa1]; rfl) hs (fun x hx => ha3 x ((e4 x).mp hx))
        fun v hv => he v ((hu v).mpr (.inr (.inr hv)))
      have up : ∀ x ∈ a1.elems, x ∈ a'.elems := fun x hx => i5 x ((e4 x).mpr ((e3 x).mpr hx))
      refine ⟨s', a', ?_, i2, by rw [kept_pos hs, i3]; simp, i4,
        fun x hx => up x (by rw [el1]; exact List.mem_append_right _ hx), fun v hv c => ?_⟩
      · rw [run, kept_pos hs]
        change (DSet.union stack _ _ false false >>= fun _ => DSet.union stack _ _ false false >>= fun _ =>
          accept stack es >>= _) s2 = _
        rw [M.bind_ok g3, M.bind_ok g4, M.bind_ok i1]
        rfl
      · rcases (hu v).mp hv with rfl | rfl | hv
        · exact up _ (ml c)
        · exact up _ (mr c)
        · exact i6 v hv c

/-- the loop on a new disjoint set -/
theorem accept_new {stack : Nat} (hk : 64 ≤ stack) {es : List (Equation V)}
    (small : 2 * (unknowns es).dedup.length ≤ usizeMax) :
    ∃ s' a', accept stack es DSet.new = (.ok (kept [] es), s') ∧ Rel s' a' ∧ a'.card ≤ usizeMax ∧
      (∀ x y, Conn a'.pairs x y ↔ Conn (parityPairs (kept [] es)) x y) ∧ ∀ v ∈ unknowns es, ∀ b, (v, b) ∈ a'.elems := by
  let all : List (V × Bool) := (unknowns es).dedup.flatMap fun v => [(v, false), (v, true)]
  have hlen : all.length = 2 * (unknowns es).dedup.length := by
    show List.length (List.flatMap _ _) = _
    rw [List.length_flatMap]
    simp [Nat.mul_comm]
  have hall : all.dedup.length ≤ usizeMax :=
    Nat.le_trans (List.dedup_sublist all).length_le (by rw [hlen]; exact small)
  obtain ⟨s', a', h1, h2, h3, h4, _, h5⟩ := accept_ok hk hall es (rel_new (T := V × Bool)) (before := []) rfl
    ⟨fun _ => false, fun e he => by cases he⟩ (fun x hx => by cases hx) (fun v hv b => by
      refine List.mem_flatMap.mpr ⟨v, List.mem_dedup.mpr hv, ?_⟩
      cases b <;> simp)
  refine ⟨s', a', h1, h2, Nat.le_trans (card_le h4) hall, fun x y => ?_, h5⟩
  have hmem : ∀ p, p ∈ a'.pairs ↔ p ∈ parityPairs (kept [] es) := by
    intro p
    rw [h3, mem_parityPairs, mem_parityPairs]
    simp
  exact ⟨conn_mono fun q hq => (hmem q).mp hq, conn_mono fun q hq => (hmem q).mpr hq⟩

end
end DS
