import Verif.DS.SpecEquality
import Verif.DS.LemmasParity
/-!
# Lemmas for C137
-/

open Rust
namespace DS

section
variable {V : Type}

theorem agree_sound {U : Type} {val : V → U} {equal : List (V × V)} (h : ∀ p ∈ equal, val p.1 = val p.2) {x y : V}
    (hc : Conn equal x y) : val x = val y := by
  induction hc with
  | refl a => rfl
  | step hp => exact h _ hp
  | symm _ ih => exact ih.symm
  | trans _ _ ih1 ih2 => exact ih1.trans ih2

open Classical in
/-- the number of the first of the elements that the unknown is connected with -/
noncomputable def classOf (equal : List (V × V)) (elems : List V) (x : V) : Nat := elems.findIdx fun y => decide (Conn equal x y)

theorem classOf_equal {equal : List (V × V)} {elems : List V} {x y : V} (h : Conn equal x y) :
    classOf equal elems x = classOf equal elems y := by
  unfold classOf
  congr 1
  funext z
  exact decide_eq_decide.mpr ⟨fun g => h.symm.trans g, fun g => h.trans g⟩

theorem classOf_differ {equal : List (V × V)} {elems : List V} {x y : V} (hx : x ∈ elems)
    (h : classOf equal elems x = classOf equal elems y) : Conn equal x y := by
  classical
  have hlt : elems.findIdx (fun z => decide (Conn equal x z)) < elems.length :=
    List.findIdx_lt_length_of_exists ⟨x, hx, decide_eq_true (Conn.refl x)⟩
  unfold classOf at h
  have h1 := of_decide_eq_true (List.findIdx_getElem (w := hlt))
  have hlt' : elems.findIdx (fun z => decide (Conn equal y z)) < elems.length := h ▸ hlt
  have h2 := of_decide_eq_true (List.findIdx_getElem (w := hlt'))
  have : elems[elems.findIdx (fun z => decide (Conn equal x z))] = elems[elems.findIdx (fun z => decide (Conn equal y z))] := by
    congr 1
  rw [this] at h1
  exact h1.trans h2.symm

end

section
variable {V : Type} [DecidableEq V] [Cfg]

theorem equateAll_ok {stack : Nat} (hk : 64 ≤ stack) {all : List V} (hall : all.dedup.length ≤ usizeMax) (ps : List (V × V))
    {s : DSet V} {a : Abs V} (r : Rel s a) (ha : ∀ x ∈ a.elems, x ∈ all) (hp : ∀ x ∈ mentioned ps, x ∈ all) :
    ∃ s' a', equateAll stack ps s = (.ok (), s') ∧ Rel s' a' ∧ a'.pairs = ps.reverse ++ a.pairs ∧
      ∀ x, x ∈ a'.elems ↔ x ∈ mentioned ps ∨ x ∈ a.elems := by
  induction ps generalizing s a with
  | nil => exact ⟨s, a, rfl, r, rfl, fun x => by simp [mentioned]⟩
  | cons p ps ih =>
    obtain ⟨x, y⟩ := p
    have e1 : ∀ z, z ∈ (a.step (.union x y false false)).elems ↔ z = y ∨ z = x ∨ z ∈ a.elems := fun z => by simp [Abs.step]
    have p1 : (a.step (.union x y false false)).pairs = (x, y) :: a.pairs := by simp [Abs.step]
    have ha1 : ∀ z ∈ (a.step (.union x y false false)).elems, z ∈ all := fun z hz => by
      rcases (e1 z).mp hz with rfl | rfl | hz
      · exact hp _ (by simp [mentioned])
      · exact hp _ (by simp [mentioned])
      · exact ha z hz
    obtain ⟨s1, h1, r1⟩ := union_run hk r x y (Nat.le_trans (card_le ha1) hall)
    obtain ⟨s', a', h2, r2, p2, e2⟩ := ih r1 ha1 fun z hz => hp z (by
      simp only [mentioned, List.flatMap_cons, List.mem_append] at hz ⊢
      exact .inr hz)
    refine ⟨s', a', ?_, r2, by rw [p2, p1]; simp, fun z => ?_⟩
    · unfold equateAll
      rw [M.bind_ok h1, h2]
    · rw [e2, e1]
      simp only [mentioned, List.flatMap_cons, List.mem_append, List.mem_cons, List.not_mem_nil, or_false]
      tauto

theorem allApart_ok {stack : Nat} (hk : 64 ≤ stack) (ps : List (V × V)) {s : DSet V} {a : Abs V} (r : Rel s a)
    (hc : a.card ≤ usizeMax) (hp : ∀ x ∈ mentioned ps, x ∈ a.elems) :
    ∃ b s', allApart stack ps s = (.ok b, s') ∧ Rel s' a ∧ (b = true ↔ ∀ p ∈ ps, ¬ Conn a.pairs p.1 p.2) := by
  induction ps generalizing s with
  | nil => exact ⟨true, s, rfl, r, by simp⟩
  | cons p ps ih =>
    obtain ⟨x, y⟩ := p
    obtain ⟨b, s1, h1, tw, h2⟩ := inUnion_ok (stack := stack) r (by rw [r.card]; exact lt_two_pow hc hk) x y
    have hx : x ∈ a.elems := hp x (by simp [mentioned])
    have hy : y ∈ a.elems := hp y (by simp [mentioned])
    unfold allApart
    rw [M.bind_ok h1]
    cases b with
    | true =>
      refine ⟨false, s1, rfl, tw.rel r, ?_⟩
      have := (h2.mp rfl).2.2
      simp only [Bool.false_eq_true, false_iff]
      exact fun h => h (x, y) List.mem_cons_self this
    | false =>
      obtain ⟨b, s2, h3, r3, h4⟩ := ih (tw.rel r) fun z hz => hp z (by
        simp only [mentioned, List.flatMap_cons, List.mem_append] at hz ⊢
        exact .inr hz)
      refine ⟨b, s2, h3, r3, ?_⟩
      have hn : ¬ Conn a.pairs x y := fun h => by simpa using h2.mpr ⟨hx, hy, h⟩
      rw [h4]
      simp [hn]

/-- the whole client -/
theorem agree_ok {stack : Nat} (hk : 64 ≤ stack) {equal differ : List (V × V)}
    (small : (mentioned (equal ++ differ)).dedup.length ≤ usizeMax) :
    ∃ b s' a, agree stack equal differ DSet.new = (.ok b, s') ∧ Rel s' a ∧ a.card ≤ usizeMax ∧
      (∀ x y, Conn a.pairs x y ↔ Conn equal x y) ∧ (∀ x, x ∈ a.elems ↔ x ∈ mentioned (equal ++ differ)) ∧
      (b = true ↔ ∀ p ∈ differ, ¬ Conn equal p.1 p.2) := by
  have hm : ∀ x, x ∈ mentioned (equal ++ differ) ↔ x ∈ mentioned equal ∨ x ∈ mentioned differ := fun x => by
    simp [mentioned, List.flatMap_append]
  obtain ⟨s1, a1, h1, r1, p1, e1⟩ := equateAll_ok hk small equal (rel_new (T := V)) (fun x hx => by cases hx)
    fun x hx => (hm x).mpr (.inl hx)
  obtain ⟨s2, h2, r2⟩ := extendLoop_ok (mentioned differ) false r1
  have h2' : DSet.extend 0 false (mentioned differ) false s1 = (.ok (), s2) := h2
  have e2 : ∀ x, x ∈ (mentioned differ).reverse ++ a1.elems ↔ x ∈ mentioned (equal ++ differ) := fun x => by
    rw [List.mem_append, List.mem_reverse, e1, hm]
    simp [Abs.new, or_comm]
  have hc : Abs.card { a1 with elems := (mentioned differ).reverse ++ a1.elems } ≤ usizeMax :=
    Nat.le_trans (card_le fun x hx => (e2 x).mp hx) small
  obtain ⟨b, s3, h3, r3, h4⟩ := allApart_ok hk differ r2 hc fun x hx => List.mem_append_left _ (List.mem_reverse.mpr hx)
  have hconn : ∀ x y, Conn a1.pairs x y ↔ Conn equal x y := fun x y => by
    have hmem : ∀ p, p ∈ a1.pairs ↔ p ∈ equal := fun p => by rw [p1]; simp [Abs.new]
    exact ⟨conn_mono fun q hq => (hmem q).mp hq, conn_mono fun q hq => (hmem q).mpr hq⟩
  refine ⟨b, s3, _, ?_, r3, hc, hconn, e2, ?_⟩
  · unfold agree
    rw [M.bind_ok h1, M.bind_ok h2', h3]
  · rw [h4]
    exact forall₂_congr fun p _ => not_congr (hconn _ _)

end
end DS
