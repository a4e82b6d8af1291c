import Verif.Itv.Lemmas
import Mathlib.Algebra.Order.Field.Basic
import Mathlib.Algebra.Order.Ring.Unbundled.Rat
/-!
# Property theorems C22–C35, C43, C44: intervals and bounds

`Mem i v` (`v` lies between the bounds `into_tuple()` reports) and `WellFormed` are the specification;
`Obtainable` are the intervals a client can get.
-/

open Rust
namespace Itv

/-- An interval for the examples: `(1, 3]` over the integers. -/
abbrev demo : Interval Int := ⟨some ⟨⟨⟨1, false⟩⟩, ⟨⟨3, true⟩⟩⟩⟩
/-- Another one: `[3, 5)`. -/
abbrev demo2 : Interval Int := ⟨some ⟨⟨⟨3, true⟩⟩, ⟨⟨5, false⟩⟩⟩⟩
/-- `(1, 3]` over the rationals, a densely ordered type. -/
abbrev demoQ : Interval Rat := ⟨some ⟨⟨⟨1, false⟩⟩, ⟨⟨3, true⟩⟩⟩⟩

theorem demo_ok : Obtainable demo := Obtainable.new (l := 1) (lc := false) (u := 3) (uc := true) rfl
theorem demo2_ok : Obtainable demo2 := Obtainable.lowerClosed (l := 3) (u := 5) rfl
theorem demoQ_ok : Obtainable demoQ := obtainable_of_wf (Or.inl (by decide))

section
variable {T : Type} [LinearOrder T] {a b c i : Interval T}

/-! ## C22, C23 -/

/-- C22 -/
theorem c22_well_formed (h : Obtainable i) : WellFormed i := h.wf

/-- C22, converse: the invariant is exact, every well-formed interval is obtainable. -/
theorem c22_exact : Obtainable i ↔ WellFormed i := ⟨Obtainable.wf, obtainable_of_wf⟩

end

example : Obtainable demo ∧ ∃ i, Interval.binOp (fun x => .ok (x * -2)) demo = .ok i ∧ Obtainable i :=
  ⟨demo_ok, _, rfl, Obtainable.arith (fun x => .ok (x * -2)) (fun x => .ok (x * -2)) demo_ok rfl⟩

section
variable {T : Type} [LinearOrder T] {a b c i : Interval T}

/-- C23: `new` panics exactly on invalid bounds; otherwise every accessor reports what was given. -/
theorem c23_new (l : T) (lc : Bool) (u : T) (uc : Bool) :
    (Interval.new l lc u uc = .error .explicit ↔ u < l ∨ l = u ∧ (lc = false ∨ uc = false)) ∧
    (¬ (u < l ∨ l = u ∧ (lc = false ∨ uc = false)) → ∃ i, Interval.new l lc u uc = .ok i ∧
      i.intoTuple = some (l, lc, u, uc) ∧ i.isEmpty = false ∧ (i.isSingle = true ↔ l = u) ∧
      i.isLowerClosed = some lc ∧ i.isUpperClosed = some uc ∧
      i.lower = some (LowerBound.new l lc) ∧ i.upper = some (UpperBound.new u uc) ∧
      i.bounds = some (LowerBound.new l lc, UpperBound.new u uc) ∧
      i.intoBounds = some (LowerBound.new l lc, UpperBound.new u uc)) := by
  have key : ¬ (u < l ∨ l = u ∧ (lc = false ∨ uc = false)) →
      Interval.new l lc u uc = .ok (iv l lc u uc) := fun h =>
    Interval.createChecked_ok (by cases lc <;> cases uc <;> grind)
  constructor
  · constructor
    · intro h
      by_contra hn
      rw [key hn] at h; cases h
    · intro h; exact Interval.createChecked_err h
  · intro h
    refine ⟨_, key h, rfl, rfl, ?_, rfl, rfl, rfl, rfl, rfl, rfl⟩
    show decide (l = u) = true ↔ _
    simp

/-- C23: the other constructors are `new` with the closedness they are named after. -/
theorem c23_other_constructors (l u : T) (lc uc : Bool) :
    Interval.fromBounds (LowerBound.new l lc) (UpperBound.new u uc) = Interval.new l lc u uc ∧
    Interval.open l u = Interval.new l false u false ∧
    Interval.closed l u = Interval.new l true u true ∧
    Interval.lowerClosed l u = Interval.new l true u false ∧
    Interval.upperClosed l u = Interval.new l false u true ∧
    Interval.new l true l true = .ok (Interval.single l) ∧
    (Interval.empty : Interval T).intoTuple = none ∧ (Interval.empty : Interval T).isEmpty = true ∧
    (Interval.empty : Interval T).isSingle = false ∧
    (Interval.empty : Interval T).lower = none ∧ (Interval.empty : Interval T).upper = none :=
  ⟨rfl, rfl, rfl, rfl, rfl, Interval.createChecked_ok (Or.inr ⟨rfl, rfl, rfl⟩), rfl, rfl, rfl, rfl, rfl⟩

/-- C23: a bound reports what it was built from. -/
theorem c23_bounds_report (v : T) (cl : Bool) :
    (LowerBound.new v cl).intoTuple = (v, cl) ∧ (LowerBound.new v cl).val = v ∧
    (LowerBound.new v cl).isClosed = cl ∧
    (UpperBound.new v cl).intoTuple = (v, cl) ∧ (UpperBound.new v cl).val = v ∧
    (UpperBound.new v cl).isClosed = cl := ⟨rfl, rfl, rfl, rfl, rfl, rfl⟩

end

example : ¬ ((3 : Int) < 1 ∨ (1 : Int) = 3 ∧ (false = false ∨ true = false)) ∧
    ((3 : Int) < 3 ∨ (3 : Int) = 3 ∧ (false = false ∨ true = false)) := by decide

section
variable {T : Type} [LinearOrder T] {a b c i : Interval T}

/-! ## C24, C25 -/

/-- C24 is false of the code: the empty interval claims to contain every value. -/
theorem c24_empty_contains_everything (v : T) :
    (Interval.empty : Interval T).containsVal v = true ∧ ¬ Mem (Interval.empty : Interval T) v :=
  ⟨rfl, id⟩

/-- C24, partial: for a non-empty interval `contains_val` is membership, and emptiness is the only other reason
to say yes. Missing: the empty interval, for which `c24_empty_contains_everything` shows the opposite. -/
theorem c24_contains_val_partial (h : Obtainable i) (v : T) :
    (i.isEmpty = false → (i.containsVal v = true ↔ Mem i v)) ∧
    (i.containsVal v = true ↔ i.isEmpty = true ∨ Mem i v) := by
  rcases Interval.cases2 i with rfl | ⟨l, lc, u, uc, rfl⟩
  · exact ⟨(fun he => by cases he), fun _ => .inl rfl, fun _ => rfl⟩
  · have key : (iv l lc u uc).containsVal v = true ↔ Mem (iv l lc u uc) v := by
      rw [Interval.containsVal_mk, mem_mk]
      cases lc <;> cases uc <;> grind
    exact ⟨fun _ => key, by rw [key]; exact ⟨.inr, fun h => h.resolve_left (fun h => by cases h)⟩⟩

end

example : Obtainable demo ∧ demo.isEmpty = false ∧ demo.containsVal 2 = true := ⟨demo_ok, rfl, rfl⟩

section
variable {T : Type} [LinearOrder T] {a b c i : Interval T}

/-- A non-empty well-formed interval of a dense order has a point below any value above its lower end. -/
theorem exists_low [DenselyOrdered T] {l u w : T} {lc uc : Bool}
    (h : WellFormed (iv l lc u uc)) (hw : l < w) : ∃ v, Mem (iv l lc u uc) v ∧ v < w := by
  rw [wf_mk] at h
  rcases h with h | ⟨rfl, rfl, rfl⟩
  · obtain ⟨v, h1, h2⟩ := exists_between (lt_min h hw)
    rw [lt_min_iff] at h2
    exact ⟨v, mem_mk.mpr ⟨Or.inl h1, Or.inl h2.1⟩, h2.2⟩
  · exact ⟨l, mem_mk.mpr ⟨Or.inr ⟨rfl, rfl⟩, Or.inr ⟨rfl, rfl⟩⟩, hw⟩

theorem exists_high [DenselyOrdered T] {l u w : T} {lc uc : Bool}
    (h : WellFormed (iv l lc u uc)) (hw : w < u) : ∃ v, Mem (iv l lc u uc) v ∧ w < v := by
  rw [wf_mk] at h
  rcases h with h | ⟨rfl, rfl, rfl⟩
  · obtain ⟨v, h1, h2⟩ := exists_between (max_lt h hw)
    rw [max_lt_iff] at h1
    exact ⟨v, mem_mk.mpr ⟨Or.inl h1.1, Or.inl h2⟩, h1.2⟩
  · exact ⟨l, mem_mk.mpr ⟨Or.inr ⟨rfl, rfl⟩, Or.inr ⟨rfl, rfl⟩⟩, hw⟩

theorem exists_mem [DenselyOrdered T] {l u : T} {lc uc : Bool} (h : WellFormed (iv l lc u uc)) :
    ∃ v, Mem (iv l lc u uc) v := by
  have h' := h
  rw [wf_mk] at h
  rcases h with h | ⟨rfl, rfl, rfl⟩
  · obtain ⟨v, h1, _⟩ := exists_low h' h; exact ⟨v, h1⟩
  · exact ⟨l, mem_mk.mpr ⟨Or.inr ⟨rfl, rfl⟩, Or.inr ⟨rfl, rfl⟩⟩⟩

/-- C25: `contains_interval` implies inclusion of the points. -/
theorem c25_sound (ha : Obtainable a) (hb : Obtainable b) (h : a.containsInterval b = true) (v : T)
    (hv : Mem b v) : Mem a v := by
  rcases Interval.cases2 a with rfl | ⟨l, lc, u, uc, rfl⟩
  · rcases Interval.cases2 b with rfl | ⟨l', lc', u', uc', rfl⟩
    · exact hv
    · cases h
  · rcases Interval.cases2 b with rfl | ⟨l', lc', u', uc', rfl⟩
    · exact absurd hv mem_none
    · rw [Interval.containsInterval_mk] at h
      rw [mem_mk] at hv ⊢
      grind

theorem contains_of_subset [DenselyOrdered T] (ha : WellFormed a) (hb : WellFormed b)
    (h : ∀ v, Mem b v → Mem a v) : a.containsInterval b = true := by
  rcases Interval.cases2 b with rfl | ⟨l', lc', u', uc', rfl⟩
  · rcases Interval.cases2 a with rfl | ⟨l, lc, u, uc, rfl⟩ <;> rfl
  · rcases Interval.cases2 a with rfl | ⟨l, lc, u, uc, rfl⟩
    · obtain ⟨v, hv⟩ := exists_mem hb
      exact absurd (h v hv) mem_none
    · rw [Interval.containsInterval_mk]
      constructor
      · by_contra hn
        by_cases hll : l' < l
        · obtain ⟨v, h1, h2⟩ := exists_low hb hll
          have := mem_mk.mp (h v h1)
          grind
        · have hm : Mem (iv l' lc' u' uc') l' := by
            rw [wf_mk] at hb; rw [mem_mk]; cases lc <;> cases lc' <;> grind
          have := mem_mk.mp (h _ hm)
          cases lc <;> cases lc' <;> grind
      · by_contra hn
        by_cases hll : u < u'
        · obtain ⟨v, h1, h2⟩ := exists_high hb hll
          have := mem_mk.mp (h v h1)
          grind
        · have hm : Mem (iv l' lc' u' uc') u' := by
            rw [wf_mk] at hb; rw [mem_mk]; cases uc <;> cases uc' <;> grind
          have := mem_mk.mp (h _ hm)
          cases uc <;> cases uc' <;> grind

/-- C25: on a densely ordered type `contains_interval` is exactly inclusion of the points. -/
theorem c25_dense_iff [DenselyOrdered T] (ha : Obtainable a) (hb : Obtainable b) :
    a.containsInterval b = true ↔ ∀ v, Mem b v → Mem a v :=
  ⟨fun h v => c25_sound ha hb h v, contains_of_subset ha.wf hb.wf⟩

end

example : Obtainable demo ∧ demo.containsInterval (Interval.single 3) = true ∧
    Obtainable (Interval.single (3 : Int)) ∧ Obtainable demoQ :=
  ⟨demo_ok, rfl, Obtainable.single 3, demoQ_ok⟩

section
variable {T : Type} [LinearOrder T] {a b c i : Interval T}

/-! ## C26, C27 -/

/-- C26: both intersection methods return (without panicking) the same interval, whose points are exactly
the common points. -/
theorem c26_intersection (ha : Obtainable a) (hb : Obtainable b) :
    ∃ i, Interval.intoIntersection a b = .ok i ∧ Interval.intersection b a = (.ok (), i) ∧
      (∀ v, Mem i v ↔ Mem a v ∧ Mem b v) ∧ WellFormed i := by
  rcases Interval.cases2 a with rfl | ⟨l, lc, u, uc, rfl⟩
  · exact ⟨⟨none⟩, rfl, rfl, fun v => ⟨fun h => absurd h mem_none, fun h => h.1⟩, wf_none⟩
  · rcases Interval.cases2 b with rfl | ⟨l', lc', u', uc', rfl⟩
    · exact ⟨⟨none⟩, rfl, rfl, fun v => ⟨fun h => absurd h mem_none, fun h => h.2⟩, wf_none⟩
    · refine ⟨_, Interval.intoIntersection_mk ha.wf hb.wf, Interval.intersection_mk, ?_, ?_⟩
      · intro v
        split
        · exact Interval.mem_meet
        · rename_i h
          rw [Interval.intersects_mk] at h
          refine ⟨fun h => absurd h mem_none, fun ⟨h1, h2⟩ => ?_⟩
          rw [mem_mk] at h1 h2
          exact absurd (by cases lc <;> cases uc <;> cases lc' <;> cases uc' <;> grind) h
      · split
        · exact Interval.meet_wf ha.wf hb.wf (by assumption)
        · exact wf_none

/-- C27 is false of the code: the empty interval claims to intersect every interval. -/
theorem c27_empty_intersects_everything (i : Interval T) :
    (Interval.empty : Interval T).intersects i = true ∧ i.intersects Interval.empty = true ∧
      ∀ v, ¬ (Mem (Interval.empty : Interval T) v ∧ Mem i v) := by
  refine ⟨rfl, ?_, fun v h => absurd h.1 mem_none⟩
  rcases i with ⟨_ | i⟩ <;> rfl

/-- C27, partial: if `intersects` says no there is no common point; on a densely ordered type, for
non-empty intervals, if it says yes there is one. On any type it says yes iff an interval is empty or their
intersection is not. Missing: empty intervals, for which `c27_empty_intersects_everything` shows the
opposite. -/
theorem c27_intersects_partial (ha : Obtainable a) (hb : Obtainable b) :
    (a.intersects b = false → ∀ v, ¬ (Mem a v ∧ Mem b v)) ∧
    (DenselyOrdered T → a.isEmpty = false → b.isEmpty = false →
      (a.intersects b = true ↔ ∃ v, Mem a v ∧ Mem b v)) ∧
    (a.intersects b = true ↔ a.isEmpty = true ∨ b.isEmpty = true ∨
      ∃ i, Interval.intoIntersection a b = .ok i ∧ i.isEmpty = false) := by
  refine ⟨?_, ?_, ?_⟩
  · intro h v hv
    rcases Interval.cases2 a with rfl | ⟨l, lc, u, uc, rfl⟩
    · cases h
    · rcases Interval.cases2 b with rfl | ⟨l', lc', u', uc', rfl⟩
      · cases h
      · rw [← Bool.not_eq_true, Interval.intersects_mk] at h
        rw [mem_mk, mem_mk] at hv
        exact absurd (by cases lc <;> cases uc <;> cases lc' <;> cases uc' <;> grind) h
  · intro _ hea heb
    rcases Interval.cases2 a with rfl | ⟨l, lc, u, uc, rfl⟩
    · cases hea
    · rcases Interval.cases2 b with rfl | ⟨l', lc', u', uc', rfl⟩
      · cases heb
      · constructor
        · intro h
          have hw := Interval.meet_wf ha.wf hb.wf h
          obtain ⟨v, hv⟩ := exists_mem (l := _) (lc := _) (u := _) (uc := _) hw
          exact ⟨v, Interval.mem_meet.mp hv⟩
        · rintro ⟨v, h1, h2⟩
          rw [mem_mk] at h1 h2
          rw [Interval.intersects_mk]
          cases lc <;> cases uc <;> cases lc' <;> cases uc' <;> grind
  · rcases Interval.cases2 a with rfl | ⟨l, lc, u, uc, rfl⟩
    · exact ⟨fun _ => .inl rfl, fun _ => rfl⟩
    · rcases Interval.cases2 b with rfl | ⟨l', lc', u', uc', rfl⟩
      · exact ⟨fun _ => .inr (.inl rfl), fun _ => rfl⟩
      · rw [Interval.intoIntersection_mk ha.wf hb.wf]
        constructor
        · intro h
          exact .inr (.inr ⟨_, rfl, by rw [if_pos h]; rfl⟩)
        · rintro (h | h | ⟨i, h, he⟩)
          · cases h
          · cases h
          · cases h
            by_contra hn
            rw [if_neg hn] at he
            cases he

end

example : Obtainable demo ∧ Obtainable demo2 ∧ demo.intersects demo2 = true ∧
    demo.intersects (Interval.single 7) = false ∧ demoQ.isEmpty = false :=
  ⟨demo_ok, demo2_ok, rfl, rfl, rfl⟩

section
variable {T : Type} [LinearOrder T] {a b c i : Interval T}

/-! ## C28, C29 -/

/-- C28: both merge methods return without panicking. If `can_be_merged`, both give the same interval,
whose points are exactly the union; otherwise both hand back the operands unchanged. -/
theorem c28_merge (ha : Obtainable a) (hb : Obtainable b) :
    (a.canBeMerged b = true → ∃ i, Interval.intoMerged a b = .ok (.ok i) ∧
      Interval.merge b a = (.ok (.ok ()), i) ∧ (∀ v, Mem i v ↔ Mem a v ∨ Mem b v) ∧ WellFormed i) ∧
    (a.canBeMerged b = false → Interval.intoMerged a b = .ok (.error (a, b)) ∧
      Interval.merge b a = (.ok (.error b), a)) := by
  rcases Interval.cases2 a with rfl | ⟨l, lc, u, uc, rfl⟩
  · refine ⟨fun _ => ⟨b, ?_, rfl, fun v => ⟨Or.inr, fun h => h.resolve_left mem_none⟩, hb.wf⟩, fun h => by cases h⟩
    rcases b with ⟨_ | b⟩ <;> rfl
  · rcases Interval.cases2 b with rfl | ⟨l', lc', u', uc', rfl⟩
    · exact ⟨fun _ => ⟨_, rfl, rfl, fun v => ⟨Or.inl, fun h => h.resolve_right mem_none⟩, ha.wf⟩, fun h => by cases h⟩
    · have h1 := ha.wf
      have h2 := hb.wf
      constructor
      · intro h
        refine ⟨_, by rw [Interval.intoMerged_mk h1 h2, if_pos h], by rw [Interval.merge_mk, if_pos h], ?_,
          hull_wf' h1 h2⟩
        intro v
        rw [Interval.mem_hull, mem_mk, mem_mk]
        rw [Interval.canBeMerged_mk] at h
        rw [wf_mk] at h1 h2
        unfold Spec.Above Spec.Below
        cases lc <;> cases uc <;> cases lc' <;> cases uc' <;> grind
      · intro h
        rw [Interval.intoMerged_mk h1 h2, Interval.merge_mk, h]
        exact ⟨rfl, rfl⟩

/-- C28: on a densely ordered type, when merging is refused the union of the points is not the point set
of any interval. -/
theorem c28_refusal_dense [DenselyOrdered T] (ha : Obtainable a) (hb : Obtainable b)
    (h : a.canBeMerged b = false) (hc : Obtainable c) : ¬ ∀ v, Mem c v ↔ Mem a v ∨ Mem b v := by
  intro hu
  rcases Interval.cases2 a with rfl | ⟨l, lc, u, uc, rfl⟩
  · cases h
  · rcases Interval.cases2 b with rfl | ⟨l', lc', u', uc', rfl⟩
    · cases h
    · rw [← Bool.not_eq_true, Interval.canBeMerged_mk] at h
      have h1 := ha.wf
      have h2 := hb.wf
      obtain ⟨x, hx⟩ := exists_mem h1
      obtain ⟨y, hy⟩ := exists_mem h2
      have hcx := (hu x).mpr (Or.inl hx)
      have hcy := (hu y).mpr (Or.inr hy)
      -- a value strictly between the two intervals
      have gap : ∃ w, ¬ Mem (iv l lc u uc) w ∧ ¬ Mem (iv l' lc' u' uc') w ∧ (x < w ∧ w < y ∨ y < w ∧ w < x) := by
        rw [mem_mk] at hx hy
        simp only [mem_mk]
        by_cases hs : u < l' ∨ u = l' ∧ uc = false ∧ lc' = false
        · rcases hs with hs | ⟨rfl, rfl, rfl⟩
          · obtain ⟨w, w1, w2⟩ := exists_between hs
            exact ⟨w, by grind, by grind, Or.inl (by grind)⟩
          · exact ⟨u, by grind, by grind, Or.inl (by grind)⟩
        · have hs : u' < l ∨ u' = l ∧ uc' = false ∧ lc = false := by
            by_contra hn; exact h ⟨hs, hn⟩
          rcases hs with hs | ⟨rfl, rfl, rfl⟩
          · obtain ⟨w, w1, w2⟩ := exists_between hs
            exact ⟨w, by grind, by grind, Or.inr (by grind)⟩
          · exact ⟨u', by grind, by grind, Or.inr (by grind)⟩
      obtain ⟨w, w1, w2, w3⟩ := gap
      have hcw : Mem c w := by
        rcases Interval.cases2 c with rfl | ⟨l2, lc2, u2, uc2, rfl⟩
        · exact absurd hcx mem_none
        · rw [mem_mk] at hcx hcy ⊢; grind
      rcases (hu w).mp hcw with h3 | h3
      · exact w1 h3
      · exact w2 h3

end

example : Obtainable demo ∧ Obtainable demo2 ∧ demo.canBeMerged demo2 = true ∧
    demo.canBeMerged (Interval.single 7) = false ∧ demoQ.canBeMerged (Interval.single 7) = false :=
  ⟨demo_ok, demo2_ok, rfl, rfl, by decide⟩

section
variable {T : Type} [LinearOrder T] {a b c i : Interval T}

/-- The span as an equation, for the laws below. -/
theorem span_ok (ha : WellFormed a) (hb : WellFormed b) :
    ∃ i, Interval.intoSpan a b = .ok i ∧ Interval.span b a = (.ok (), i) ∧ WellFormed i := by
  rcases Interval.cases2 b with rfl | ⟨l', lc', u', uc', rfl⟩
  · exact ⟨a, rfl, rfl, ha⟩
  · rcases Interval.cases2 a with rfl | ⟨l, lc, u, uc, rfl⟩
    · exact ⟨_, rfl, rfl, hb⟩
    · exact ⟨_, Interval.intoSpan_mk ha hb, Interval.span_mk, hull_wf' ha hb⟩

/-- C29: both span methods return, without panicking, the same interval; it contains both operands, and
every interval containing both contains it. -/
theorem c29_least_enclosing (ha : Obtainable a) (hb : Obtainable b) :
    ∃ i, Interval.intoSpan a b = .ok i ∧ Interval.span b a = (.ok (), i) ∧
      i.containsInterval a = true ∧ i.containsInterval b = true ∧
      ∀ c : Interval T, c.containsInterval a = true → c.containsInterval b = true → c.containsInterval i = true := by
  have hrefl : ∀ i : Interval T, i.containsInterval i = true := by
    intro i
    rcases Interval.cases2 i with rfl | ⟨l, lc, u, uc, rfl⟩
    · rfl
    · rw [Interval.containsInterval_mk]
      cases lc <;> cases uc <;> simp
  have hnone : ∀ i : Interval T, i.containsInterval ⟨none⟩ = true := by
    intro i; rcases i with ⟨_ | i⟩ <;> rfl
  rcases Interval.cases2 b with rfl | ⟨l', lc', u', uc', rfl⟩
  · exact ⟨a, rfl, rfl, hrefl a, hnone a, fun c h _ => h⟩
  · rcases Interval.cases2 a with rfl | ⟨l, lc, u, uc, rfl⟩
    · exact ⟨_, rfl, rfl, hnone _, hrefl _, fun c _ h => h⟩
    · refine ⟨_, Interval.intoSpan_mk ha.wf hb.wf, Interval.span_mk, ?_, ?_, ?_⟩
      · unfold Interval.hull
        simp only [LowerBound.le_iff, UpperBound.le_iff, LowerBound.val, UpperBound.val, LowerBound.isClosed,
          UpperBound.isClosed]
        split <;> split <;> (rw [Interval.containsInterval_mk]; cases lc <;> cases uc <;> cases lc' <;> cases uc' <;> grind)
      · unfold Interval.hull
        simp only [LowerBound.le_iff, UpperBound.le_iff, LowerBound.val, UpperBound.val, LowerBound.isClosed,
          UpperBound.isClosed]
        split <;> split <;> (rw [Interval.containsInterval_mk]; cases lc <;> cases uc <;> cases lc' <;> cases uc' <;> grind)
      · intro c h1 h2
        rcases Interval.cases2 c with rfl | ⟨l2, lc2, u2, uc2, rfl⟩
        · cases h1
        · rw [Interval.containsInterval_mk] at h1 h2
          unfold Interval.hull
          simp only [LowerBound.le_iff, UpperBound.le_iff, LowerBound.val, UpperBound.val, LowerBound.isClosed,
            UpperBound.isClosed]
          split <;> split <;> (rw [Interval.containsInterval_mk]; grind)

/-- C29, by points: the span contains the points of both operands, and if both have a point, it has only
points that every interval containing the points of both has. -/
theorem c29_least_by_points (ha : Obtainable a) (hb : Obtainable b) :
    ∃ i, Interval.intoSpan a b = .ok i ∧ (∀ v, Mem a v ∨ Mem b v → Mem i v) ∧
      ((∃ v, Mem a v) → (∃ v, Mem b v) → ∀ c, (∀ v, Mem a v ∨ Mem b v → Mem c v) → ∀ v, Mem i v → Mem c v) := by
  rcases Interval.cases2 b with rfl | ⟨l', lc', u', uc', rfl⟩
  · exact ⟨a, rfl, fun v h => h.resolve_right mem_none, fun _ h => absurd h.choose_spec mem_none⟩
  · rcases Interval.cases2 a with rfl | ⟨l, lc, u, uc, rfl⟩
    · exact ⟨_, rfl, fun v h => h.resolve_left mem_none, fun h => absurd h.choose_spec mem_none⟩
    · refine ⟨_, Interval.intoSpan_mk ha.wf hb.wf, ?_, ?_⟩
      · intro v hv
        rw [Interval.mem_hull]
        rcases hv with hv | hv
        · exact ⟨Or.inl hv.1, Or.inl hv.2⟩
        · exact ⟨Or.inr hv.1, Or.inr hv.2⟩
      · rintro ⟨x, hx⟩ ⟨y, hy⟩ c hc v hv
        have hcx := hc x (Or.inl hx)
        have hcy := hc y (Or.inr hy)
        by_cases h1 : Mem (iv l lc u uc) v
        · exact hc v (Or.inl h1)
        · by_cases h2 : Mem (iv l' lc' u' uc') v
          · exact hc v (Or.inr h2)
          · rw [Interval.mem_hull] at hv
            unfold Spec.Above Spec.Below at hv
            rw [mem_mk] at hx hy h1 h2
            have hb : x < v ∧ v < y ∨ y < v ∧ v < x := by
              cases lc <;> cases uc <;> cases lc' <;> cases uc' <;> grind
            rcases Interval.cases2 c with rfl | ⟨l2, lc2, u2, uc2, rfl⟩
            · exact absurd hcx mem_none
            · rw [mem_mk] at hcx hcy ⊢; grind

theorem contains_antisymm (h1 : a.containsInterval b = true) (h2 : b.containsInterval a = true) : a = b := by
  rcases Interval.cases2 a with rfl | ⟨l, lc, u, uc, rfl⟩
  · rcases Interval.cases2 b with rfl | ⟨l', lc', u', uc', rfl⟩
    · rfl
    · cases h1
  · rcases Interval.cases2 b with rfl | ⟨l', lc', u', uc', rfl⟩
    · cases h2
    · rw [Interval.containsInterval_mk] at h1 h2
      cases lc <;> cases uc <;> cases lc' <;> cases uc' <;> grind

theorem contains_trans (h1 : a.containsInterval b = true) (h2 : b.containsInterval c = true) :
    a.containsInterval c = true := by
  rcases Interval.cases2 c with rfl | ⟨l2, lc2, u2, uc2, rfl⟩
  · rcases a with ⟨_ | a⟩ <;> rfl
  · rcases Interval.cases2 b with rfl | ⟨l', lc', u', uc', rfl⟩
    · cases h2
    · rcases Interval.cases2 a with rfl | ⟨l, lc, u, uc, rfl⟩
      · cases h1
      · rw [Interval.containsInterval_mk] at h1 h2 ⊢
        cases lc <;> cases uc <;> cases lc' <;> cases uc' <;> cases lc2 <;> cases uc2 <;> grind

/-- C29: span is commutative, associative, idempotent, with the empty interval as unit. -/
theorem c29_laws (ha : Obtainable a) (hb : Obtainable b) (hc : Obtainable c) :
    Interval.intoSpan a b = Interval.intoSpan b a ∧
    (Interval.intoSpan a b >>= fun i => Interval.intoSpan i c)
      = (Interval.intoSpan b c >>= fun i => Interval.intoSpan a i) ∧
    Interval.intoSpan a a = .ok a ∧ Interval.intoSpan a Interval.empty = .ok a ∧
    Interval.intoSpan Interval.empty a = .ok a := by
  have lub : ∀ {a b : Interval T}, Obtainable a → Obtainable b → ∃ i, Interval.intoSpan a b = .ok i ∧
      Obtainable i ∧ i.containsInterval a = true ∧ i.containsInterval b = true ∧
      ∀ c : Interval T, c.containsInterval a = true → c.containsInterval b = true → c.containsInterval i = true := by
    intro a b ha hb
    obtain ⟨i, h1, _, h2, h3, h4⟩ := c29_least_enclosing ha hb
    exact ⟨i, h1, Obtainable.intoSpan ha hb h1, h2, h3, h4⟩
  obtain ⟨ab, e1, o1, p1, q1, m1⟩ := lub ha hb
  obtain ⟨ba, e2, o2, p2, q2, m2⟩ := lub hb ha
  obtain ⟨bc, e3, o3, p3, q3, m3⟩ := lub hb hc
  obtain ⟨abc, e4, o4, p4, q4, m4⟩ := lub o1 hc
  obtain ⟨abc', e5, o5, p5, q5, m5⟩ := lub ha o3
  obtain ⟨aa, e6, o6, p6, q6, m6⟩ := lub ha ha
  refine ⟨?_, ?_, ?_, ?_, ?_⟩
  · rw [e1, e2, contains_antisymm (m2 _ q1 p1) (m1 _ q2 p2)]
  · rw [e1, e3]
    show Interval.intoSpan ab c = Interval.intoSpan a bc
    rw [e4, e5]
    congr 1
    apply contains_antisymm
    · exact m5 _ (contains_trans p4 p1) (m3 _ (contains_trans p4 q1) q4)
    · exact m4 _ (m1 _ p5 (contains_trans q5 p3)) (contains_trans q5 q3)
  · rw [e6]
    congr 1
    refine contains_antisymm p6 (m6 _ ?_ ?_) <;>
    · rcases Interval.cases2 a with rfl | ⟨l, lc, u, uc, rfl⟩
      · rfl
      · rw [Interval.containsInterval_mk]; cases lc <;> cases uc <;> simp
  · rcases a with ⟨_ | a⟩ <;> rfl
  · rcases a with ⟨_ | a⟩ <;> rfl

end

example : Obtainable demo ∧ Obtainable demo2 ∧ (∃ v, Mem demo v) ∧ ∃ v, Mem demo2 v :=
  ⟨demo_ok, demo2_ok, ⟨2, mem_mk.mpr (by decide)⟩, ⟨4, mem_mk.mpr (by decide)⟩⟩

section
variable {T : Type} [LinearOrder T] {a b c i : Interval T}

/-! ## C30, C31, C32 -/

/-- C30: strict comparison compares all points; `a < b` and `b < a` exclude each other; `>` is `<` turned
around; empty intervals are never comparable. -/
theorem c30_strict (ha : Obtainable a) (hb : Obtainable b) :
    (a.lt b = true → ∀ x y, Mem a x → Mem b y → x < y) ∧
    (a.gt b = true → ∀ x y, Mem a x → Mem b y → y < x) ∧
    (a.gt b = b.lt a) ∧
    ¬ (a.lt b = true ∧ b.lt a = true) ∧ ¬ (a.lt b = true ∧ a.gt b = true) ∧
    (a.isEmpty = true ∨ b.isEmpty = true → a.lt b = false ∧ a.gt b = false) := by
  have h1 := ha.wf
  have h2 := hb.wf
  rcases Interval.cases2 a with rfl | ⟨l, lc, u, uc, rfl⟩
  · have : b.lt ⟨none⟩ = false := Interval.lt_none_right
    refine ⟨fun h => (by cases h), fun h => (by cases h), ?_, ?_, ?_, fun _ => ⟨rfl, rfl⟩⟩
    · rw [this]; rfl
    · rintro ⟨h, _⟩; cases h
    · rintro ⟨h, _⟩; cases h
  · rcases Interval.cases2 b with rfl | ⟨l', lc', u', uc', rfl⟩
    · refine ⟨fun h => (by cases h), fun h => (by cases h), rfl, ?_, ?_, fun _ => ⟨rfl, rfl⟩⟩
      · rintro ⟨h, _⟩; cases h
      · rintro ⟨h, _⟩; cases h
    · rw [wf_mk] at h1 h2
      simp only [mem_mk]
      refine ⟨?_, ?_, ?_, ?_, ?_, ?_⟩
      · rw [Interval.lt_mk]; intro h x y hx hy; cases uc <;> cases lc' <;> grind
      · rw [Interval.gt_mk]; intro h x y hx hy; cases lc <;> cases uc' <;> grind
      · rw [Bool.eq_iff_iff, Interval.gt_mk, Interval.lt_mk]; grind
      · rw [Interval.lt_mk, Interval.lt_mk]; cases lc <;> cases uc <;> cases lc' <;> cases uc' <;> grind
      · rw [Interval.lt_mk, Interval.gt_mk]; cases lc <;> cases uc <;> cases lc' <;> cases uc' <;> grind
      · rintro (h | h) <;> cases h

/-- C30, converse on densely ordered types. -/
theorem c30_strict_dense [DenselyOrdered T] (ha : Obtainable a) (hb : Obtainable b)
    (hea : a.isEmpty = false) (heb : b.isEmpty = false) :
    (a.lt b = true ↔ ∀ x y, Mem a x → Mem b y → x < y) ∧
    (a.gt b = true ↔ ∀ x y, Mem a x → Mem b y → y < x) := by
  have key : ∀ {a b : Interval T}, Obtainable a → Obtainable b → a.isEmpty = false → b.isEmpty = false →
      (∀ x y, Mem a x → Mem b y → x < y) → a.lt b = true := by
    intro a b ha hb hea heb h
    have h1 := ha.wf
    have h2 := hb.wf
    rcases Interval.cases2 a with rfl | ⟨l, lc, u, uc, rfl⟩
    · cases hea
    · rcases Interval.cases2 b with rfl | ⟨l', lc', u', uc', rfl⟩
      · cases heb
      · rw [Interval.lt_mk]
        by_contra hn
        by_cases hlu : l' < u
        · -- a point of `a` and a point of `b` in the wrong order
          obtain ⟨x, x1, x2⟩ := exists_high h1 hlu
          obtain ⟨y, y1, y2⟩ := exists_low h2 x2
          exact absurd (h x y x1 y1) (not_lt.mpr y2.le)
        · have hx : Mem (iv l lc u uc) u := by
            rw [wf_mk] at h1; rw [mem_mk]; cases uc <;> cases lc' <;> grind
          have hy : Mem (iv l' lc' u' uc') u := by
            rw [wf_mk] at h2; rw [mem_mk]; cases uc <;> cases lc' <;> grind
          exact absurd (h u u hx hy) (lt_irrefl u)
  refine ⟨⟨(c30_strict ha hb).1, key ha hb hea heb⟩, ⟨(c30_strict ha hb).2.1, fun h => ?_⟩⟩
  rw [(c30_strict ha hb).2.2.1]
  exact key hb ha heb hea (fun x y hx hy => h y x hy hx)

end

example : Obtainable demo ∧ Obtainable demo2 ∧ demo.lt demo2 = false ∧
    demo.lt (Interval.single 4) = true ∧ Obtainable demoQ ∧ demoQ.isEmpty = false :=
  ⟨demo_ok, demo2_ok, rfl, rfl, demoQ_ok, rfl⟩

section
variable {T : Type} [LinearOrder T] {a b c i : Interval T}

/-- C31: weak comparison orders all points weakly, so at most one point is common; strict implies weak;
`>=` is `<=` turned around. -/
theorem c31_weak (ha : Obtainable a) (hb : Obtainable b) :
    (a.le b = true → ∀ x y, Mem a x → Mem b y → x ≤ y) ∧
    (a.le b = true → ∀ x y, Mem a x → Mem b x → Mem a y → Mem b y → x = y) ∧
    (a.lt b = true → a.le b = true) ∧ (a.gt b = true → a.ge b = true) ∧
    a.ge b = b.le a := by
  rcases Interval.cases2 a with rfl | ⟨l, lc, u, uc, rfl⟩
  · refine ⟨fun h => (by cases h), fun h => (by cases h), fun h => (by cases h), fun h => (by cases h), ?_⟩
    rcases b with ⟨_ | b⟩ <;> rfl
  · rcases Interval.cases2 b with rfl | ⟨l', lc', u', uc', rfl⟩
    · exact ⟨fun h => (by cases h), fun h => (by cases h), fun h => (by cases h), fun h => (by cases h), rfl⟩
    · simp only [mem_mk]
      refine ⟨?_, ?_, ?_, ?_, ?_⟩
      · rw [Interval.le_mk]; intro h x y hx hy; grind
      · rw [Interval.le_mk]; intro h x y h1 h2 h3 h4; grind
      · rw [Interval.lt_mk, Interval.le_mk]; grind
      · rw [Interval.gt_mk, Interval.ge_mk]; grind
      · rw [Bool.eq_iff_iff, Interval.ge_mk, Interval.le_mk]

/-- C31, converse on densely ordered types. -/
theorem c31_weak_dense [DenselyOrdered T] (ha : Obtainable a) (hb : Obtainable b)
    (hea : a.isEmpty = false) (heb : b.isEmpty = false) :
    a.le b = true ↔ ∀ x y, Mem a x → Mem b y → x ≤ y := by
  refine ⟨(c31_weak ha hb).1, fun h => ?_⟩
  have h1 := ha.wf
  have h2 := hb.wf
  rcases Interval.cases2 a with rfl | ⟨l, lc, u, uc, rfl⟩
  · cases hea
  · rcases Interval.cases2 b with rfl | ⟨l', lc', u', uc', rfl⟩
    · cases heb
    · rw [Interval.le_mk]
      by_contra hn
      obtain ⟨x, x1, x2⟩ := exists_high h1 (not_le.mp hn)
      obtain ⟨y, y1, y2⟩ := exists_low h2 x2
      exact absurd (h x y x1 y1) (not_le.mpr y2)

end

example : Obtainable demo ∧ Obtainable demo2 ∧ demo.le demo2 = true ∧ demo.lt demo2 = false ∧
    Mem demo 3 ∧ Mem demo2 3 :=
  ⟨demo_ok, demo2_ok, rfl, rfl, mem_mk.mpr (by decide), mem_mk.mpr (by decide)⟩

/-- C32 is false of the code: an interval can be `==` to itself but not `<=` itself, and `<=` to another
one although `partial_cmp` finds no order. The same against a value. -/
theorem c32_le_inconsistent :
    (∃ a : Interval Int, Obtainable a ∧ a.partialCmp a = some .eq ∧ a.le a = false) ∧
    (∃ a b : Interval Int, Obtainable a ∧ Obtainable b ∧ a.le b = true ∧ a.partialCmp b = none) ∧
    (∃ (a : Interval Int) (v : Int), Obtainable a ∧ a.leV v = true ∧ a.partialCmpV v = none) :=
  ⟨⟨demo, demo_ok, rfl, rfl⟩, ⟨demo, demo2, demo_ok, demo2_ok, rfl, rfl⟩, ⟨demo, 3, demo_ok, rfl, rfl⟩⟩

section
variable {T : Type} [LinearOrder T] {a b c i : Interval T}

/-- C32, partial: `<`, `>` and `==` agree with `partial_cmp`, and `Less` implies `<=`, `Greater` implies
`>=`; against a value also `Equal` implies both. Missing: `<=` and `>=` in the other direction, which
`c32_le_inconsistent` shows to fail. -/
theorem c32_consistent_partial (ha : Obtainable a) (hb : Obtainable b) (v : T) :
    (a.partialCmp b = some .lt ↔ a.lt b = true) ∧ (a.partialCmp b = some .gt ↔ a.gt b = true) ∧
    (a.partialCmp b = some .eq ↔ a = b ∧ a.lt b = false ∧ a.gt b = false) ∧
    (a.partialCmp a = some .eq) ∧
    (a.partialCmp b = some .lt → a.le b = true) ∧ (a.partialCmp b = some .gt → a.ge b = true) ∧
    (a.partialCmpV v = some .lt ↔ a.ltV v = true) ∧ (a.partialCmpV v = some .gt ↔ a.gtV v = true) ∧
    (a.partialCmpV v = some .eq ↔ a.eqV v = true) ∧
    (a.partialCmpV v = some .lt ∨ a.partialCmpV v = some .eq → a.leV v = true) ∧
    (a.partialCmpV v = some .gt ∨ a.partialCmpV v = some .eq → a.geV v = true) := by
  have hx := (c30_strict ha hb).2.2.2.2.1
  have hs := c30_strict ha ha
  have hself1 : a.lt a = false := by
    cases h : a.lt a with
    | false => rfl
    | true => exact absurd ⟨h, h⟩ hs.2.2.2.1
  have hself2 : a.gt a = false := by rw [hs.2.2.1, hself1]
  have hw := c31_weak ha hb
  have hvv : ¬ (a.ltV v = true ∧ a.gtV v = true) ∧ ¬ (a.ltV v = true ∧ a.eqV v = true) ∧
      ¬ (a.gtV v = true ∧ a.eqV v = true) ∧ (a.ltV v = true → a.leV v = true) ∧
      (a.eqV v = true → a.leV v = true) ∧ (a.gtV v = true → a.geV v = true) ∧
      (a.eqV v = true → a.geV v = true) := by
    have h1 := ha.wf
    rcases Interval.cases2 a with rfl | ⟨l, lc, u, uc, rfl⟩
    · have e1 : (⟨none⟩ : Interval T).ltV v = false := rfl
      have e2 : (⟨none⟩ : Interval T).gtV v = false := rfl
      have e3 : (⟨none⟩ : Interval T).eqV v = false := rfl
      simp [e1, e2, e3]
    · rw [wf_mk] at h1
      rw [Interval.ltV_mk, Interval.gtV_mk, Interval.eqV_mk, Interval.leV_mk, Interval.geV_mk]
      cases lc <;> cases uc <;> grind
  obtain ⟨v1, v2, v3, v4, v5, v6, v7⟩ := hvv
  unfold Interval.partialCmp Interval.partialCmpV
  rw [hself1, hself2]
  refine ⟨?_, ?_, ?_, ?_, ?_, ?_, ?_, ?_, ?_, ?_, ?_⟩
  · cases h1 : a.gt b <;> cases h2 : a.lt b <;> simp_all
  · cases h1 : a.gt b <;> cases h2 : a.lt b <;> simp_all
  · cases h1 : a.gt b <;> cases h2 : a.lt b <;> simp_all
  · simp
  · cases h1 : a.gt b <;> cases h2 : a.lt b <;> simp_all
  · cases h1 : a.gt b <;> cases h2 : a.lt b <;> simp_all
  · cases h1 : a.ltV v <;> cases h2 : a.gtV v <;> cases h3 : a.eqV v <;> simp_all
  · cases h1 : a.ltV v <;> cases h2 : a.gtV v <;> cases h3 : a.eqV v <;> simp_all
  · cases h1 : a.ltV v <;> cases h2 : a.gtV v <;> cases h3 : a.eqV v <;> simp_all
  · cases h1 : a.ltV v <;> cases h2 : a.gtV v <;> cases h3 : a.eqV v <;> simp_all
  · cases h1 : a.ltV v <;> cases h2 : a.gtV v <;> cases h3 : a.eqV v <;> simp_all

end

example : Obtainable demo ∧ Obtainable (Interval.single (4 : Int)) ∧
    demo.partialCmp (Interval.single 4) = some .lt := ⟨demo_ok, Obtainable.single 4, rfl⟩

section
variable {T : Type} [LinearOrder T] {a b c i : Interval T}

/-! ## C33 -/

/-- C33: comparison with a value compares all points. -/
theorem c33_value_comparison (h : Obtainable i) (v : T) :
    (i.ltV v = true → ∀ x, Mem i x → x < v) ∧ (i.gtV v = true → ∀ x, Mem i x → v < x) ∧
    ((∃ x, Mem i x) → (∀ x, Mem i x → x < v) → i.ltV v = true) ∧
    ((∃ x, Mem i x) → (∀ x, Mem i x → v < x) → i.gtV v = true) ∧
    (i.leV v = true → ∀ x, Mem i x → x ≤ v) ∧ (i.geV v = true → ∀ x, Mem i x → v ≤ x) ∧
    (i.eqV v = true ↔ i.intoTuple = some (v, true, v, true)) ∧
    (i.isEmpty = false → (i.ltV v = true ∨ i.gtV v = true ∨ i.containsVal v = true) ∧
      ¬ (i.ltV v = true ∧ i.gtV v = true) ∧ ¬ (i.ltV v = true ∧ i.containsVal v = true) ∧
      ¬ (i.gtV v = true ∧ i.containsVal v = true)) := by
  have h1 := h.wf
  rcases Interval.cases2 i with rfl | ⟨l, lc, u, uc, rfl⟩
  · refine ⟨fun h => (by cases h), fun h => (by cases h), ?_, ?_, fun h => (by cases h), fun h => (by cases h),
      ?_, fun h => (by cases h)⟩
    · rintro ⟨x, hx⟩; exact absurd hx mem_none
    · rintro ⟨x, hx⟩; exact absurd hx mem_none
    · exact ⟨fun h => (by cases h), fun h => (by cases h)⟩
  · rw [wf_mk] at h1
    rw [Interval.ltV_mk, Interval.gtV_mk, Interval.leV_mk, Interval.geV_mk, Interval.eqV_mk,
      Interval.containsVal_mk]
    simp only [mem_mk]
    refine ⟨?_, ?_, ?_, ?_, ?_, ?_, ?_, ?_⟩
    · intro h x hx; cases uc <;> grind
    · intro h x hx; cases lc <;> grind
    · rintro ⟨x, hx⟩ hall
      have a1 := hall x hx
      have a2 := hall v
      have a3 := hall u
      cases uc <;> grind
    · rintro ⟨x, hx⟩ hall
      have a1 := hall x hx
      have a2 := hall v
      have a3 := hall l
      cases lc <;> grind
    · intro h x hx; grind
    · intro h x hx; grind
    · show _ ↔ some (l, lc, u, uc) = _
      simp
    · intro _
      cases lc <;> cases uc <;> grind

/-- C33: the converses for `<=` and `>=` on densely ordered types. -/
theorem c33_weak_dense [DenselyOrdered T] (h : Obtainable i) (he : i.isEmpty = false) (v : T) :
    (i.leV v = true ↔ ∀ x, Mem i x → x ≤ v) ∧ (i.geV v = true ↔ ∀ x, Mem i x → v ≤ x) := by
  have hv := c33_value_comparison h v
  have h1 := h.wf
  refine ⟨⟨hv.2.2.2.2.1, fun hall => ?_⟩, ⟨hv.2.2.2.2.2.1, fun hall => ?_⟩⟩
  · rcases Interval.cases2 i with rfl | ⟨l, lc, u, uc, rfl⟩
    · cases he
    · rw [Interval.leV_mk]
      by_contra hn
      obtain ⟨x, x1, x2⟩ := exists_high h1 (not_le.mp hn)
      exact absurd (hall x x1) (not_le.mpr x2)
  · rcases Interval.cases2 i with rfl | ⟨l, lc, u, uc, rfl⟩
    · cases he
    · rw [Interval.geV_mk]
      by_contra hn
      obtain ⟨x, x1, x2⟩ := exists_low h1 (not_le.mp hn)
      exact absurd (hall x x1) (not_le.mpr x2)

end

example : Obtainable demo ∧ demo.ltV 4 = true ∧ demo.isEmpty = false ∧ (∃ x, Mem demo x) ∧
    Obtainable demoQ := ⟨demo_ok, rfl, rfl, ⟨2, mem_mk.mpr (by decide)⟩, demoQ_ok⟩

section
variable {T : Type} [LinearOrder T]

/-! ## C34, C35 -/

/-- C34: `cmp` on lower bounds is a total order, consistent with `==`, `partial_cmp`, the operators, `min`
and `max`. -/
theorem c34_lower_total_order (a b c : LowerBound T) :
    LowerBound.partialCmp a b = some (LowerBound.cmp a b) ∧
    (LowerBound.cmp a b = .eq ↔ a = b) ∧
    (LowerBound.cmp a b = .lt ↔ LowerBound.cmp b a = .gt) ∧
    (LowerBound.cmp a b ≠ .gt → LowerBound.cmp b c ≠ .gt → LowerBound.cmp a c ≠ .gt) ∧
    (LowerBound.lt a b = true ↔ LowerBound.cmp a b = .lt) ∧
    (LowerBound.gt a b = true ↔ LowerBound.cmp a b = .gt) ∧
    (LowerBound.le a b = true ↔ LowerBound.cmp a b ≠ .gt) ∧
    (LowerBound.ge a b = true ↔ LowerBound.cmp a b ≠ .lt) ∧
    (LowerBound.min a b = if LowerBound.le a b = true then a else b) ∧
    (LowerBound.max a b = if LowerBound.le a b = true then b else a) := by
  have inj : ∀ {a b : LowerBound T}, (a.val = b.val ∧ a.isClosed = b.isClosed) ↔ a = b := by
    rintro ⟨⟨av, ac⟩⟩ ⟨⟨bv, bc⟩⟩
    simp [LowerBound.val, LowerBound.isClosed]
  refine ⟨LowerBound.partialCmp_eq, ?_, ?_, ?_, ?_, ?_, ?_, ?_, LowerBound.min_eq, LowerBound.max_eq⟩
  · rw [LowerBound.cmp_eq, inj]
  · rw [LowerBound.cmp_lt, LowerBound.cmp_gt]; grind
  · rw [Ne, Ne, Ne, LowerBound.cmp_gt, LowerBound.cmp_gt, LowerBound.cmp_gt]
    cases a.isClosed <;> cases b.isClosed <;> cases c.isClosed <;> grind
  · rw [LowerBound.lt_iff, LowerBound.cmp_lt]
  · rw [LowerBound.gt_iff, LowerBound.cmp_gt]
  · rw [LowerBound.le_iff, Ne, LowerBound.cmp_gt]
    cases a.isClosed <;> cases b.isClosed <;> grind
  · rw [LowerBound.ge_iff, Ne, LowerBound.cmp_lt]
    cases a.isClosed <;> cases b.isClosed <;> grind

/-- C34: the same for upper bounds. -/
theorem c34_upper_total_order (a b c : UpperBound T) :
    UpperBound.partialCmp a b = some (UpperBound.cmp a b) ∧
    (UpperBound.cmp a b = .eq ↔ a = b) ∧
    (UpperBound.cmp a b = .lt ↔ UpperBound.cmp b a = .gt) ∧
    (UpperBound.cmp a b ≠ .gt → UpperBound.cmp b c ≠ .gt → UpperBound.cmp a c ≠ .gt) ∧
    (UpperBound.lt a b = true ↔ UpperBound.cmp a b = .lt) ∧
    (UpperBound.gt a b = true ↔ UpperBound.cmp a b = .gt) ∧
    (UpperBound.le a b = true ↔ UpperBound.cmp a b ≠ .gt) ∧
    (UpperBound.ge a b = true ↔ UpperBound.cmp a b ≠ .lt) ∧
    (UpperBound.min a b = if UpperBound.le a b = true then a else b) ∧
    (UpperBound.max a b = if UpperBound.le a b = true then b else a) := by
  have inj : ∀ {a b : UpperBound T}, (a.val = b.val ∧ a.isClosed = b.isClosed) ↔ a = b := by
    rintro ⟨⟨av, ac⟩⟩ ⟨⟨bv, bc⟩⟩
    simp [UpperBound.val, UpperBound.isClosed]
  refine ⟨UpperBound.partialCmp_eq, ?_, ?_, ?_, ?_, ?_, ?_, ?_, UpperBound.min_eq, UpperBound.max_eq⟩
  · rw [UpperBound.cmp_eq, inj]
  · rw [UpperBound.cmp_lt, UpperBound.cmp_gt]; grind
  · rw [Ne, Ne, Ne, UpperBound.cmp_gt, UpperBound.cmp_gt, UpperBound.cmp_gt]
    cases a.isClosed <;> cases b.isClosed <;> cases c.isClosed <;> grind
  · rw [UpperBound.lt_iff, UpperBound.cmp_lt]
  · rw [UpperBound.gt_iff, UpperBound.cmp_gt]
  · rw [UpperBound.le_iff, Ne, UpperBound.cmp_gt]
    cases a.isClosed <;> cases b.isClosed <;> grind
  · rw [UpperBound.ge_iff, Ne, UpperBound.cmp_lt]
    cases a.isClosed <;> cases b.isClosed <;> grind

/-- C34: a lower bound is `<=` another only if its half-line includes the other's, an upper bound only if
its half-line is included in the other's; on densely ordered types without ends also conversely. -/
theorem c34_half_lines (a b : LowerBound T) (c d : UpperBound T) :
    (LowerBound.le a b = true → ∀ v, Spec.Above b.val b.isClosed v → Spec.Above a.val a.isClosed v) ∧
    (UpperBound.le c d = true → ∀ v, Spec.Below c.val c.isClosed v → Spec.Below d.val d.isClosed v) ∧
    (DenselyOrdered T → (∃ v, Spec.Above b.val b.isClosed v) →
      (∀ v, Spec.Above b.val b.isClosed v → Spec.Above a.val a.isClosed v) → LowerBound.le a b = true) ∧
    (DenselyOrdered T → (∃ v, Spec.Below c.val c.isClosed v) →
      (∀ v, Spec.Below c.val c.isClosed v → Spec.Below d.val d.isClosed v) → UpperBound.le c d = true) := by
  unfold Spec.Above Spec.Below
  rw [LowerBound.le_iff, UpperBound.le_iff]
  refine ⟨?_, ?_, ?_, ?_⟩
  · intro h v hv
    cases ha : a.isClosed <;> cases hb : b.isClosed <;> rw [ha, hb] at h <;> rw [hb] at hv <;> grind
  · intro h v hv
    cases ha : c.isClosed <;> cases hb : d.isClosed <;> rw [ha, hb] at h <;> rw [ha] at hv <;> grind
  · intro _ ⟨x, hx⟩ h
    by_contra hn
    have h1 := h b.val
    rcases lt_trichotomy a.val b.val with h2 | h2 | h2
    · exact hn (Or.inl h2)
    · cases ha : a.isClosed <;> cases hb : b.isClosed <;> rw [ha, hb] at hn h1 <;> grind
    · obtain ⟨w, w1, w2⟩ := exists_between h2
      have := h w (Or.inl w1)
      grind
  · intro _ ⟨x, hx⟩ h
    by_contra hn
    have h1 := h c.val
    rcases lt_trichotomy c.val d.val with h2 | h2 | h2
    · exact hn (Or.inl h2)
    · cases ha : c.isClosed <;> cases hb : d.isClosed <;> rw [ha, hb] at hn h1 <;> grind
    · obtain ⟨w, w1, w2⟩ := exists_between h2
      have := h w (Or.inl w2)
      grind

/-- C34: comparison of a bound with a value is consistent with its `partial_cmp`. -/
theorem c34_value_comparison (a : LowerBound T) (c : UpperBound T) (v : T) :
    (a.ltV v = true ↔ a.partialCmpV v = some .lt) ∧ (a.gtV v = true ↔ a.partialCmpV v = some .gt) ∧
    (a.eqV v = true ↔ a.partialCmpV v = some .eq) ∧
    (a.leV v = true ↔ a.partialCmpV v = some .lt ∨ a.partialCmpV v = some .eq) ∧
    (a.geV v = true ↔ a.partialCmpV v = some .gt ∨ a.partialCmpV v = some .eq) ∧
    (a.leV v = true ↔ Spec.Above a.val a.isClosed v) ∧
    (c.ltV v = true ↔ c.partialCmpV v = some .lt) ∧ (c.gtV v = true ↔ c.partialCmpV v = some .gt) ∧
    (c.eqV v = true ↔ c.partialCmpV v = some .eq) ∧
    (c.leV v = true ↔ c.partialCmpV v = some .lt ∨ c.partialCmpV v = some .eq) ∧
    (c.geV v = true ↔ c.partialCmpV v = some .gt ∨ c.partialCmpV v = some .eq) ∧
    (c.geV v = true ↔ Spec.Below c.val c.isClosed v) := by
  unfold LowerBound.ltV LowerBound.gtV LowerBound.eqV LowerBound.leV LowerBound.geV LowerBound.partialCmpV
    UpperBound.ltV UpperBound.gtV UpperBound.eqV UpperBound.leV UpperBound.geV UpperBound.partialCmpV
    Spec.Above Spec.Below
  refine ⟨?_, ?_, ?_, ?_, ?_, ?_, ?_, ?_, ?_, ?_, ?_, ?_⟩
  all_goals first
    | (cases hc : compare a.val v <;> first | rw [compare_lt_iff_lt] at hc | rw [compare_eq_iff_eq] at hc | rw [compare_gt_iff_gt] at hc) <;> cases a.isClosed <;> simp <;> grind
    | (cases hc : compare c.val v <;> first | rw [compare_lt_iff_lt] at hc | rw [compare_eq_iff_eq] at hc | rw [compare_gt_iff_gt] at hc) <;> cases c.isClosed <;> simp <;> grind

end

example : (∃ v : Rat, Spec.Above (1 : Rat) false v) ∧
    LowerBound.le (LowerBound.new (1 : Int) false) (LowerBound.new 2 true) = true :=
  ⟨⟨2, Or.inl (by decide)⟩, rfl⟩

/-- C35 is false of the code: the lower bound of `(3, …` is both `<` and `>` the upper bound of `…, 3]`;
`==` and `!=` are both false for all bounds; and two closed bounds with the same value are `<=` although
`partial_cmp` finds no order. -/
theorem c35_cross_contradictory :
    (∃ (l : LowerBound Int) (u : UpperBound Int), l.ltU u = true ∧ l.gtU u = true ∧ u.ltL l = true ∧
      u.gtL l = true) ∧
    (∀ (l : LowerBound Int) (u : UpperBound Int), l.eqU u = false ∧ l.neU u = false ∧ u.eqL l = false ∧
      u.neL l = false) ∧
    (∃ (l : LowerBound Int) (u : UpperBound Int), l.leU u = true ∧ l.partialCmpU u = none ∧ u.leL l = true ∧
      u.partialCmpL l = none) :=
  ⟨⟨LowerBound.new 3 false, UpperBound.new 3 true, rfl, rfl, rfl, rfl⟩, fun _ _ => ⟨rfl, rfl, rfl, rfl⟩,
    ⟨LowerBound.new 3 true, UpperBound.new 3 true, rfl, rfl, rfl, rfl⟩⟩

section
variable {T : Type} [LinearOrder T]

/-- C35, partial: `l < u` iff `u > l` and dually, always; for bounds with different values the operators
and `partial_cmp` agree with the order of the values, in both directions. Missing: bounds with the same
value and `==`/`!=`, for which `c35_cross_contradictory` shows the opposite. -/
theorem c35_cross_partial (l : LowerBound T) (u : UpperBound T) :
    l.ltU u = u.gtL l ∧ l.gtU u = u.ltL l ∧ l.leU u = u.geL l ∧ l.geU u = u.leL l ∧
    (l.ltU u = true → l.leU u = true) ∧ (l.gtU u = true → l.geU u = true) ∧
    (l.val < u.val → l.ltU u = true ∧ l.leU u = true ∧ l.gtU u = false ∧ l.geU u = false ∧
      l.partialCmpU u = some .lt ∧ u.partialCmpL l = some .gt) ∧
    (u.val < l.val → l.ltU u = false ∧ l.leU u = false ∧ l.gtU u = true ∧ l.geU u = true ∧
      l.partialCmpU u = some .gt ∧ u.partialCmpL l = some .lt) ∧
    ((l.ltU u = false ∧ l.gtU u = false) ↔ l.val = u.val ∧ l.isClosed = true ∧ u.isClosed = true) := by
  have e1 : l.ltU u = u.gtL l := by
    rw [Bool.eq_iff_iff, LowerBound.ltU_iff, UpperBound.gtL_iff]; grind
  have e2 : l.gtU u = u.ltL l := by
    rw [Bool.eq_iff_iff, LowerBound.gtU_iff, UpperBound.ltL_iff]; grind
  refine ⟨e1, e2, ?_, ?_, ?_, ?_, ?_, ?_, ?_⟩
  · rfl
  · rfl
  · rw [LowerBound.ltU_iff]; unfold LowerBound.leU; simp; grind
  · rw [LowerBound.gtU_iff]; unfold LowerBound.geU; simp; grind
  · intro h
    have a1 : l.ltU u = true := LowerBound.ltU_iff.mpr (Or.inl h)
    have a2 : l.gtU u = false := by
      rw [← Bool.not_eq_true, LowerBound.gtU_iff]; grind
    refine ⟨a1, ?_, a2, ?_, ?_, ?_⟩
    · unfold LowerBound.leU; simp; exact h.le
    · unfold LowerBound.geU; simp; exact h
    · unfold LowerBound.partialCmpU; rw [a1]; rfl
    · unfold UpperBound.partialCmpL; rw [← e1, ← e2, a1, a2]; rfl
  · intro h
    have a1 : l.ltU u = false := by
      rw [← Bool.not_eq_true, LowerBound.ltU_iff]; grind
    have a2 : l.gtU u = true := LowerBound.gtU_iff.mpr (Or.inl h)
    refine ⟨a1, ?_, a2, ?_, ?_, ?_⟩
    · unfold LowerBound.leU; simp; exact h
    · unfold LowerBound.geU; simp; exact h.le
    · unfold LowerBound.partialCmpU; rw [a1, a2]; rfl
    · unfold UpperBound.partialCmpL; rw [← e1, ← e2, a2]; rfl
  · rw [← Bool.not_eq_true, ← Bool.not_eq_true, LowerBound.ltU_iff, LowerBound.gtU_iff]
    cases l.isClosed <;> cases u.isClosed <;> grind

/-- C35, partial: what the comparisons say about bounds with the same value. `<=` and `>=` hold both ways. If
both bounds are closed, neither `<` nor `>` holds and `partial_cmp` finds no order; otherwise `<` and `>` both
hold both ways, and `partial_cmp` answers `Less` both ways. `==` and `!=` never hold, whatever the values. -/
theorem c35_equal_values_partial (l : LowerBound T) (u : UpperBound T) :
    (l.val = u.val →
      l.leU u = true ∧ l.geU u = true ∧ u.leL l = true ∧ u.geL l = true ∧
      (l.isClosed = true ∧ u.isClosed = true → l.ltU u = false ∧ l.gtU u = false ∧ u.ltL l = false ∧
        u.gtL l = false ∧ l.partialCmpU u = none ∧ u.partialCmpL l = none) ∧
      (l.isClosed = false ∨ u.isClosed = false → l.ltU u = true ∧ l.gtU u = true ∧ u.ltL l = true ∧
        u.gtL l = true ∧ l.partialCmpU u = some .lt ∧ u.partialCmpL l = some .lt)) ∧
    l.eqU u = false ∧ l.neU u = false ∧ u.eqL l = false ∧ u.neL l = false := by
  refine ⟨fun h => ?_, rfl, rfl, rfl, rfl⟩
  have h1 : compare l.val u.val = .eq := by rw [h]; exact compare_eq_iff_eq.mpr rfl
  have h2 : compare u.val l.val = .eq := by rw [h]; exact compare_eq_iff_eq.mpr rfl
  unfold LowerBound.partialCmpU UpperBound.partialCmpL LowerBound.ltU LowerBound.gtU UpperBound.ltL UpperBound.gtL
    LowerBound.leU LowerBound.geU UpperBound.leL UpperBound.geL
  rw [h1, h2]
  cases l.isClosed <;> cases u.isClosed <;> simp [h]

end

example : (LowerBound.new (1 : Int) false).val < (UpperBound.new (3 : Int) true).val ∧
    (LowerBound.new (3 : Int) false).val = (UpperBound.new (3 : Int) true).val ∧
    (LowerBound.new (3 : Int) false).isClosed = false := ⟨by decide, rfl, rfl⟩

section
variable {T : Type} [LinearOrder T] {a b i : Interval T}

/-! ## C43, C44 -/

/-- C43: `==` intervals have the same points, on every type; on densely ordered types intervals with the
same points are `==`. -/
theorem c43_eq_iff_same_points (ha : Obtainable a) (hb : Obtainable b) :
    ((a == b) = true → ∀ v, Mem a v ↔ Mem b v) ∧
    (DenselyOrdered T → (∀ v, Mem a v ↔ Mem b v) → (a == b) = true) := by
  constructor
  · intro h v
    rw [beq_iff_eq.mp h]
  · intro _ h
    exact beq_iff_eq.mpr (contains_antisymm (contains_of_subset ha.wf hb.wf fun v => (h v).mpr)
      (contains_of_subset hb.wf ha.wf fun v => (h v).mp))

/-- C44: if the bound values print injectively and without commas, two intervals print the same text only if they are `==`. -/
theorem c44_display_injective (disp : T → List Char) (hinj : ∀ x y, disp x = disp y → x = y)
    (hcomma : ∀ x, ',' ∉ disp x) (h : a.display disp = b.display disp) : a = b := by
  have split : ∀ {p q r s : List Char}, ',' ∉ p → ',' ∉ r → p ++ ',' :: q = r ++ ',' :: s → p = r ∧ q = s := by
    intro p
    induction p with
    | nil =>
      intro q r s _ hr h
      cases r with
      | nil => simp at h; exact ⟨rfl, h⟩
      | cons c r => simp at h; exact absurd (by rw [← h.1]; simp) hr
    | cons c p ih =>
      intro q r s hp hr h
      cases r with
      | nil => simp at h; exact absurd (by simp [h.1]) hp
      | cons d r =>
        simp only [List.cons_append, List.cons.injEq] at h
        have := ih (by simp at hp; exact hp.2) (by simp at hr; exact hr.2) h.2
        exact ⟨by rw [h.1, this.1], this.2⟩
  have two : ∀ {x y : Bool} {p q : Char}, p ≠ q → (if x then p else q) = (if y then p else q) → x = y := by
    intro x y p q hpq h
    cases x <;> cases y <;> simp at h <;> first | rfl | exact absurd h hpq | exact absurd h.symm hpq
  rcases Interval.cases2 a with rfl | ⟨l, lc, u, uc, rfl⟩
  · rcases Interval.cases2 b with rfl | ⟨l', lc', u', uc', rfl⟩
    · rfl
    · simp only [Interval.display, LowerBound.isClosed] at h
      cases lc' <;> simp at h
  · rcases Interval.cases2 b with rfl | ⟨l', lc', u', uc', rfl⟩
    · simp only [Interval.display, LowerBound.isClosed] at h
      cases lc <;> simp at h
    · simp only [Interval.display, LowerBound.isClosed, UpperBound.isClosed, LowerBound.val, UpperBound.val,
        List.cons_append, List.nil_append, List.append_assoc, List.cons.injEq] at h
      obtain ⟨h1, h2⟩ := h
      obtain ⟨h3, h4⟩ := split (hcomma l) (hcomma l') h2
      have h5 := List.append_inj' h4 rfl
      have h6 := h5.2
      simp only [List.cons.injEq, and_true] at h6
      rw [hinj _ _ h3, hinj _ _ h5.1, two (by decide) h1, two (by decide) h6]

end

example : Obtainable demoQ ∧ (∀ x y : Bool, (if x then ['1'] else ['0']) = (if y then ['1'] else ['0']) → x = y) ∧
    ∀ x : Bool, ',' ∉ (if x then ['1'] else ['0']) := ⟨demoQ_ok, by decide, by decide⟩

end Itv
