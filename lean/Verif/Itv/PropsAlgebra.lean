import Verif.Itv.Cut
import Verif.Itv.Arith
import Verif.Itv.Props
/-!
# Property theorems C70–C72 and the second half of C44: the algebra of intervals

The laws are equations between results of the public operations. They hold for the reported bounds, not
only for the points, so they need no assumption that the value type is densely ordered.
-/

open Rust
namespace Itv

/-! ## C44 -/

namespace Spec

/-- Reads the notation of the documentation: a bracket, a value, a comma, a value, a bracket; or `Ø` for the empty
interval, as `Display` prints it (the documentation has `∅`). Square brackets are closed bounds, round ones open bounds. -/
def read {T : Type} (parse : List Char → Option T) (s : List Char) : Option (Option (T × Bool × T × Bool)) :=
  if s = ['Ø'] then some none
  else do
    let lc ← if s.head? = some '[' then some true else if s.head? = some '(' then some false else none
    let uc ← if s.getLast? = some ']' then some true else if s.getLast? = some ')' then some false else none
    let body := s.tail.dropLast
    let l ← parse (body.takeWhile (· != ','))
    let u ← parse ((body.dropWhile (· != ',')).drop 1)
    return some (l, lc, u, uc)

end Spec

section
variable {T : Type} [LinearOrder T] {a b c i : Interval T}

/-- C44: the printed text is the documented notation: reading it gives back the reported bounds. -/
theorem c44_read_back (disp : T → List Char) (parse : List Char → Option T)
    (hparse : ∀ x, parse (disp x) = some x) (hcomma : ∀ x, ',' ∉ disp x) (i : Interval T) :
    Spec.read parse (i.display disp) = some i.intoTuple := by
  rcases Interval.cases2 i with rfl | ⟨l, lc, u, uc, rfl⟩
  · rfl
  · have hd : (iv l lc u uc).display disp =
        (if lc then '[' else '(') :: (disp l ++ ',' :: disp u ++ [if uc then ']' else ')']) := by
      simp [Interval.display, LowerBound.isClosed, UpperBound.isClosed, LowerBound.val, UpperBound.val]
      cases lc <;> cases uc <;> simp
    have hne : ∀ x, ∀ c ∈ disp x, (c != ',') = true := by
      intro x c hc
      rw [bne_iff_ne]
      rintro rfl
      exact hcomma x hc
    rw [hd]
    unfold Spec.read
    have e1 : (disp l ++ ',' :: disp u ++ [if uc then ']' else ')']).dropLast = disp l ++ ',' :: disp u :=
      List.dropLast_concat
    have e2 : (disp l ++ ',' :: disp u).takeWhile (· != ',') = disp l := by
      rw [List.takeWhile_append_of_pos (hne l)]; simp
    have e3 : (disp l ++ ',' :: disp u).dropWhile (· != ',') = ',' :: disp u := by
      rw [List.dropWhile_append_of_pos (hne l)]; simp
    have e4 : ∀ x : Char, (x :: (disp l ++ ',' :: disp u ++ [if uc then ']' else ')'])).getLast?
        = some (if uc then ']' else ')') := by
      intro x
      rw [← List.cons_append, List.getLast?_concat]
    rw [if_neg (by cases lc <;> simp)]
    simp only [e4, List.tail_cons, e1, e2, e3, List.head?_cons, List.drop_one, hparse]
    cases lc <;> cases uc <;> simp <;> rfl

end

example : (∀ x : Bool, (fun s => if s = ['1'] then some true else if s = ['0'] then some false else none)
      (if x then ['1'] else ['0']) = some x) ∧ (∀ x : Bool, ',' ∉ (if x then ['1'] else ['0'])) ∧
    (⟨some ⟨⟨⟨false, true⟩⟩, ⟨⟨true, false⟩⟩⟩⟩ : Interval Bool).display (fun x => if x then ['1'] else ['0'])
      = ['[', '0', ',', '1', ')'] := ⟨by decide, by decide, rfl⟩

/-! ## C70 -/

section
variable {T : Type} [LinearOrder T] {a b c i : Interval T}

/-- C70: both forms of `is_separated_from` give the same answer; if it is no, every value lies above the
lower bound or below the upper bound; on a densely ordered type yes means that some value lies outside both. -/
theorem c70_separated (l : T) (lc : Bool) (u : T) (uc : Bool) :
    (LowerBound.new l lc).isSeparatedFrom (UpperBound.new u uc)
      = (UpperBound.new u uc).isSeparatedFrom (LowerBound.new l lc) ∧
    ((LowerBound.new l lc).isSeparatedFrom (UpperBound.new u uc) = false →
      ∀ v, Spec.Above l lc v ∨ Spec.Below u uc v) ∧
    (DenselyOrdered T → ((LowerBound.new l lc).isSeparatedFrom (UpperBound.new u uc) = true ↔
      ∃ v, ¬ Spec.Above l lc v ∧ ¬ Spec.Below u uc v)) := by
  have key : (LowerBound.new l lc).isSeparatedFrom (UpperBound.new u uc) = true ↔
      u < l ∨ l = u ∧ lc = false ∧ uc = false := by
    show (decide (l > u) || (decide (u = l) && !uc && !lc)) = true ↔ _
    cases lc <;> cases uc <;> simp
    grind
  have one : (LowerBound.new l lc).isSeparatedFrom (UpperBound.new u uc) = false →
      ∀ v, Spec.Above l lc v ∨ Spec.Below u uc v := by
    intro h v
    rw [← Bool.not_eq_true, key] at h
    unfold Spec.Above Spec.Below
    cases lc <;> cases uc <;> grind
  refine ⟨rfl, one, fun _ => ⟨fun h => ?_, fun ⟨v, h1, h2⟩ => ?_⟩⟩
  · rw [key] at h
    rcases h with h | ⟨rfl, rfl, rfl⟩
    · obtain ⟨v, hv1, hv2⟩ := exists_between h
      exact ⟨v, by unfold Spec.Above; grind, by unfold Spec.Below; grind⟩
    · exact ⟨l, by simp [Spec.Above], by simp [Spec.Below]⟩
  · by_contra hn
    rcases one (Bool.eq_false_iff.mpr hn) v with h | h
    · exact h1 h
    · exact h2 h

/-- C70: two non-empty intervals can be merged exactly if neither bound pair facing each other is separated. -/
theorem c70_merge (ha : Obtainable a) (hb : Obtainable b) (lo lo' : LowerBound T) (up up' : UpperBound T)
    (h1 : a.bounds = some (lo, up)) (h2 : b.bounds = some (lo', up')) :
    (∃ i, Interval.intoMerged a b = .ok (.ok i)) ↔
      lo'.isSeparatedFrom up = false ∧ up'.isSeparatedFrom lo = false := by
  have hc := c28_merge ha hb
  have e : a.canBeMerged b = !(up.isSeparatedFrom lo' || up'.isSeparatedFrom lo) := by
    unfold Interval.canBeMerged; rw [h1, h2]
  constructor
  · rintro ⟨i, hi⟩
    cases hm : a.canBeMerged b with
    | false => rw [(hc.2 hm).1] at hi; cases hi
    | true =>
      rw [hm] at e
      have e' := e.symm
      rw [Bool.not_eq_true', Bool.or_eq_false_iff] at e'
      exact e'
  · intro h
    obtain ⟨i, hi, _⟩ := hc.1 (by
      rw [e, Bool.not_eq_true', Bool.or_eq_false_iff]; exact h)
    exact ⟨i, hi⟩

end

example : (LowerBound.new (3 : Rat) false).isSeparatedFrom (UpperBound.new 3 false) = true ∧
    (LowerBound.new (3 : Rat) false).isSeparatedFrom (UpperBound.new 3 true) = false ∧
    Obtainable demo ∧ Obtainable demo2 ∧ demo.bounds = some (LowerBound.new 1 false, UpperBound.new 3 true) ∧
    (UpperBound.new (3 : Int) true).isSeparatedFrom (LowerBound.new 3 true) = false :=
  ⟨by decide, by decide, demo_ok, demo2_ok, rfl, rfl⟩

/-! ## C71 -/

section
variable {T : Type} [LinearOrder T] {a b c i m : Interval T}

/-- C71: `contains_interval` is a partial order, and `==` is its equality. -/
theorem c71_partial_order :
    a.containsInterval a = true ∧
    (a.containsInterval b = true → b.containsInterval c = true → a.containsInterval c = true) ∧
    (a.containsInterval b = true → b.containsInterval a = true → (a == b) = true) := by
  refine ⟨?_, fun h1 h2 => contains_trans h1 h2, fun h1 h2 => beq_iff_eq.mpr (contains_antisymm h1 h2)⟩
  rw [contains_cuts]
  exact fun q hq => ⟨q, hq, le_rfl, le_rfl⟩

/-- C71: the intersection is the greatest interval contained in both. -/
theorem c71_intersection_greatest (ha : Obtainable a) (hb : Obtainable b) :
    ∃ i, Interval.intoIntersection a b = .ok i ∧ a.containsInterval i = true ∧ b.containsInterval i = true ∧
      ∀ c, Obtainable c → a.containsInterval c = true → b.containsInterval c = true →
        i.containsInterval c = true := by
  obtain ⟨i, h1, _, h2⟩ := intoIntersection_cut ha.wf hb.wf
  refine ⟨i, h1, ?_, ?_, ?_⟩
  · rw [contains_cuts, h2]
    intro q hq
    rcases hA : cuts a with _ | ⟨x, y⟩ <;> rcases hB : cuts b with _ | ⟨x', y'⟩ <;> rw [hA, hB] at hq <;>
      simp only [cutMeet] at hq
    all_goals try (cases hq)
    split at hq
    · cases hq; exact ⟨_, rfl, le_max_left _ _, min_le_left _ _⟩
    · cases hq
  · rw [contains_cuts, h2]
    intro q hq
    rcases hA : cuts a with _ | ⟨x, y⟩ <;> rcases hB : cuts b with _ | ⟨x', y'⟩ <;> rw [hA, hB] at hq <;>
      simp only [cutMeet] at hq
    all_goals try (cases hq)
    split at hq
    · cases hq; exact ⟨_, rfl, le_max_right _ _, min_le_right _ _⟩
    · cases hq
  · intro c hc hac hbc
    rw [contains_cuts] at hac hbc ⊢
    intro q hq
    obtain ⟨p, hp, hp1, hp2⟩ := hac q hq
    obtain ⟨p', hp', hp1', hp2'⟩ := hbc q hq
    have hlt := wf_cuts.mp hc.wf q hq
    rw [h2, Option.mem_def.mp hp, Option.mem_def.mp hp']
    rcases p with ⟨x, y⟩
    rcases p' with ⟨x', y'⟩
    refine ⟨(max x x', min y y'), ?_, max_le hp1 hp1', le_min hp2 hp2'⟩
    show (if _ then _ else _) = _
    rw [if_pos (lt_of_le_of_lt (max_le hp1 hp1') (lt_of_lt_of_le hlt (le_min hp2 hp2')))]

/-- C71: intersection is commutative, associative and idempotent, and the empty interval absorbs. -/
theorem c71_intersection_laws (ha : Obtainable a) (hb : Obtainable b) (hc : Obtainable c) :
    Interval.intoIntersection a b = Interval.intoIntersection b a ∧
    (Interval.intoIntersection a b >>= fun i => Interval.intoIntersection i c)
      = (Interval.intoIntersection b c >>= fun i => Interval.intoIntersection a i) ∧
    Interval.intoIntersection a a = .ok a ∧
    Interval.intoIntersection a Interval.empty = .ok Interval.empty ∧
    Interval.intoIntersection Interval.empty a = .ok Interval.empty := by
  have comm : ∀ {a b : Interval T}, Obtainable a → Obtainable b →
      Interval.intoIntersection a b = Interval.intoIntersection b a := by
    intro a b ha hb
    obtain ⟨i, e1, _, f1⟩ := intoIntersection_cut ha.wf hb.wf
    obtain ⟨j, e2, _, f2⟩ := intoIntersection_cut hb.wf ha.wf
    rw [e1, e2]
    congr 1
    apply cuts_inj
    rw [f1, f2]
    rcases cuts a with _ | ⟨x, y⟩ <;> rcases cuts b with _ | ⟨x', y'⟩ <;> simp only [cutMeet]
    rw [max_comm, min_comm]
  refine ⟨comm ha hb, ?_, ?_, ?_, rfl⟩
  · obtain ⟨i, e1, w1, f1⟩ := intoIntersection_cut ha.wf hb.wf
    obtain ⟨j, e2, w2, f2⟩ := intoIntersection_cut hb.wf hc.wf
    obtain ⟨k, e3, _, f3⟩ := intoIntersection_cut w1 hc.wf
    obtain ⟨n, e4, _, f4⟩ := intoIntersection_cut ha.wf w2
    rw [e1, e2]
    show Interval.intoIntersection i c = Interval.intoIntersection a j
    rw [e3, e4]
    congr 1
    apply cuts_inj
    rw [f3, f4, f1, f2]
    exact cutMeet_assoc
  · obtain ⟨i, e1, _, f1⟩ := intoIntersection_cut ha.wf ha.wf
    rw [e1]
    congr 1
    apply cuts_inj
    rw [f1]
    have h1 := wf_cuts.mp ha.wf
    rcases hA : cuts a with _ | ⟨x, y⟩ <;> simp only [cutMeet, max_self, min_self]
    rw [if_pos (h1 _ hA)]
  · rcases a with ⟨_ | a⟩ <;> rfl

/-- C71: absorption: intersecting with a span, or spanning with an intersection, gives back the interval. -/
theorem c71_absorption (ha : Obtainable a) (hb : Obtainable b) :
    (Interval.intoSpan a b >>= fun s => Interval.intoIntersection a s) = .ok a ∧
    (Interval.intoIntersection a b >>= fun s => Interval.intoSpan a s) = .ok a := by
  constructor
  · obtain ⟨i, e1, w1, f1⟩ := intoSpan_cut ha.wf hb.wf
    obtain ⟨j, e2, _, f2⟩ := intoIntersection_cut ha.wf w1
    rw [e1]
    show Interval.intoIntersection a i = _
    rw [e2]
    congr 1
    apply cuts_inj
    rw [f2, f1]
    have h1 := wf_cuts.mp ha.wf
    rcases hA : cuts a with _ | ⟨x, y⟩ <;> rcases hB : cuts b with _ | ⟨x', y'⟩ <;>
      simp only [cutMeet, cutJoin, max_self, min_self]
    · rw [if_pos (h1 _ hA)]
    · have := h1 _ hA
      rw [max_eq_left (min_le_left x x'), min_eq_left (le_max_left y y'), if_pos this]
  · obtain ⟨i, e1, w1, f1⟩ := intoIntersection_cut ha.wf hb.wf
    obtain ⟨j, e2, _, f2⟩ := intoSpan_cut ha.wf w1
    rw [e1]
    show Interval.intoSpan a i = _
    rw [e2]
    congr 1
    apply cuts_inj
    rw [f2, f1]
    rcases hA : cuts a with _ | ⟨x, y⟩
    · rfl
    · rcases hB : cuts b with _ | ⟨x', y'⟩
      · rfl
      · rw [cutMeet_some]
        split
        · rw [cutJoin_some, min_eq_left (le_max_left x x'), max_eq_left (min_le_left y y')]
        · rfl

/-- C71: containment, intersection and span tell the same story. -/
theorem c71_contains_iff (ha : Obtainable a) (hb : Obtainable b) :
    (a.containsInterval b = true ↔ Interval.intoIntersection a b = .ok b) ∧
    (a.containsInterval b = true ↔ Interval.intoSpan a b = .ok a) := by
  obtain ⟨i, e1, _, _⟩ := intoIntersection_cut ha.wf hb.wf
  obtain ⟨j, g1, g2, g3, g4⟩ := c71_intersection_greatest ha hb
  obtain ⟨k, s1, _, s2, s3, s4⟩ := c29_least_enclosing ha hb
  have hrefl : ∀ i : Interval T, i.containsInterval i = true := fun i =>
    (c71_partial_order (a := i) (b := i) (c := i)).1
  constructor
  · constructor
    · intro h
      rw [g1, contains_antisymm g3 (g4 b hb h (hrefl b))]
    · intro h
      rw [g1] at h
      cases h
      exact g2
  · constructor
    · intro h
      rw [s1, contains_antisymm (s4 a (hrefl a) h) s2]
    · intro h
      rw [s1] at h
      cases h
      exact s3

/-- C71: whether two intervals can be merged does not depend on the order, nor does the result; a merge is the
span; an interval merges with itself and with everything it contains or intersects. -/
theorem c71_merge_laws (ha : Obtainable a) (hb : Obtainable b) :
    a.canBeMerged b = b.canBeMerged a ∧
    (Interval.intoMerged a b = .ok (.ok i) ↔ Interval.intoMerged b a = .ok (.ok i)) ∧
    (Interval.intoMerged a b = .ok (.ok i) → Interval.intoSpan a b = .ok i) ∧
    (a.containsInterval b = true → Interval.intoMerged a b = .ok (.ok a)) ∧
    (a.intersects b = true → a.canBeMerged b = true) ∧ a.intersects b = b.intersects a := by
  have sym : a.canBeMerged b = b.canBeMerged a := by
    rw [Bool.eq_iff_iff, canBeMerged_cuts, canBeMerged_cuts]
    exact ⟨fun h p hp q hq => ⟨(h q hq p hp).2, (h q hq p hp).1⟩, fun h p hp q hq => ⟨(h q hq p hp).2, (h q hq p hp).1⟩⟩
  have isym : a.intersects b = b.intersects a := by
    rw [Bool.eq_iff_iff, intersects_cuts, intersects_cuts]
    exact ⟨fun h p hp q hq => ⟨(h q hq p hp).2, (h q hq p hp).1⟩, fun h p hp q hq => ⟨(h q hq p hp).2, (h q hq p hp).1⟩⟩
  obtain ⟨s, hs, _⟩ := intoSpan_cut ha.wf hb.wf
  have hs' := (c29_laws ha hb ha).1
  rw [hs] at hs'
  refine ⟨sym, ?_, ?_, ?_, ?_, isym⟩
  · rw [intoMerged_cut ha.wf hb.wf, intoMerged_cut hb.wf ha.wf, sym, hs, ← hs']
    split
    · rfl
    · exact ⟨fun h => (by cases h), fun h => (by cases h)⟩
  · rw [intoMerged_cut ha.wf hb.wf, hs]
    split
    · intro h; cases h; rfl
    · intro h; cases h
  · intro h
    rw [intoMerged_cut ha.wf hb.wf, ((c71_contains_iff ha hb).2.mp h), if_pos]
    · rfl
    · rw [contains_cuts] at h
      rw [canBeMerged_cuts]
      intro p hp q hq
      obtain ⟨p', hp', h1, h2⟩ := h q hq
      rw [Option.mem_unique hp hp']
      have := wf_cuts.mp hb.wf q hq
      exact ⟨h1.trans this.le, this.le.trans h2⟩
  · intro h
    rw [intersects_cuts] at h
    rw [canBeMerged_cuts]
    exact fun p hp q hq => ⟨(h p hp q hq).1.le, (h p hp q hq).2.le⟩

/-- C71: intersection distributes over merging: the parts of `b` and `c` inside `a` can be merged, and give
the part of the merged interval inside `a`. -/
theorem c71_distributes (ha : Obtainable a) (hb : Obtainable b) (hc : Obtainable c)
    (hm : Interval.intoMerged b c = .ok (.ok m)) :
    ∃ p q r, Interval.intoIntersection a b = .ok p ∧ Interval.intoIntersection a c = .ok q ∧
      Interval.intoMerged p q = .ok (.ok r) ∧ Interval.intoIntersection a m = .ok r := by
  obtain ⟨p, e1, w1, f1⟩ := intoIntersection_cut ha.wf hb.wf
  obtain ⟨q, e2, w2, f2⟩ := intoIntersection_cut ha.wf hc.wf
  obtain ⟨s, e3, w3, f3⟩ := intoSpan_cut hb.wf hc.wf
  rw [intoMerged_cut hb.wf hc.wf] at hm
  split at hm
  · rename_i hbc
    rw [e3] at hm
    cases hm
    obtain ⟨n, e4, w4, f4⟩ := intoIntersection_cut ha.wf w3
    obtain ⟨r, e5, w5, f5⟩ := intoSpan_cut w1 w2
    refine ⟨p, q, r, e1, e2, ?_, ?_⟩
    · rw [intoMerged_cut w1 w2, if_pos, e5]
      · rfl
      · rw [canBeMerged_cuts] at hbc ⊢
        rw [f1, f2]
        exact cut_mergeable (wf_cuts.mp ha.wf) hbc
    · rw [e4]
      congr 1
      apply cuts_inj
      rw [f4, f5, f1, f2, f3]
      exact cut_distrib (wf_cuts.mp ha.wf) (wf_cuts.mp hb.wf) (wf_cuts.mp hc.wf) (canBeMerged_cuts.mp hbc)
  · cases hm

end

example : Obtainable demo ∧ Obtainable demo2 ∧ demo.containsInterval (Interval.single 3) = true ∧
    Interval.intoMerged demo demo2 = .ok (.ok ⟨some ⟨⟨⟨1, false⟩⟩, ⟨⟨5, false⟩⟩⟩⟩) ∧
    Interval.intoIntersection demo demo2 = .ok (Interval.single 3) := ⟨demo_ok, demo2_ok, rfl, rfl, rfl⟩

/-! ## C72 -/

section
variable {T : Type} [LinearOrder T] {a b i : Interval T}

/-- C72: an order-preserving operator (adding, subtracting, multiplying or dividing exactly by a positive
value) commutes with intersection, span and merging, and changes no answer to a question about two
intervals or about an interval and a value. -/
theorem c72_order_preserving (f : T → T) (hf : ∀ x y, f x < f y ↔ x < y) (ha : Obtainable a) (hb : Obtainable b) :
    ∃ a' b', Interval.binOp (fun x => .ok (f x)) a = .ok a' ∧ Interval.binOp (fun x => .ok (f x)) b = .ok b' ∧
      Interval.intoIntersection a' b' = (Interval.intoIntersection a b >>= Interval.binOp fun x => .ok (f x)) ∧
      Interval.intoSpan a' b' = (Interval.intoSpan a b >>= Interval.binOp fun x => .ok (f x)) ∧
      a'.containsInterval b' = a.containsInterval b ∧ a'.intersects b' = a.intersects b ∧
      a'.canBeMerged b' = a.canBeMerged b ∧ a'.lt b' = a.lt b ∧ a'.gt b' = a.gt b ∧ (a' == b') = (a == b) ∧
      a'.isEmpty = a.isEmpty ∧ a'.isSingle = a.isSingle ∧
      ∀ v, a'.containsVal (f v) = a.containsVal v := by
  have hg := cutMono_strict hf
  obtain ⟨a', e1, w1, f1⟩ := binOp_cut_mono hf ha.wf
  obtain ⟨b', e2, w2, f2⟩ := binOp_cut_mono hf hb.wf
  have hinj : Function.Injective f := by
    intro x y hxy
    rcases lt_trichotomy x y with h | h | h
    · have := (hf _ _).mpr h; rw [hxy] at this; exact absurd this (lt_irrefl _)
    · exact h
    · have := (hf _ _).mpr h; rw [hxy] at this; exact absurd this (lt_irrefl _)
  refine ⟨a', b', e1, e2, ?_, ?_, ?_, ?_, ?_, ?_, ?_, ?_, ?_, ?_, ?_⟩
  · obtain ⟨i, h1, h2, h3⟩ := intoIntersection_cut w1 w2
    obtain ⟨j, k1, k2, k3⟩ := intoIntersection_cut ha.wf hb.wf
    obtain ⟨n, m1, _, m3⟩ := binOp_cut_mono hf k2
    rw [h1, k1]
    show _ = Interval.binOp (fun x => .ok (f x)) j
    rw [m1]
    congr 1
    apply cuts_inj
    rw [h3, f1, f2, m3, k3, cutMeet_mono hg]
  · obtain ⟨i, h1, h2, h3⟩ := intoSpan_cut w1 w2
    obtain ⟨j, k1, k2, k3⟩ := intoSpan_cut ha.wf hb.wf
    obtain ⟨n, m1, _, m3⟩ := binOp_cut_mono hf k2
    rw [h1, k1]
    show _ = Interval.binOp (fun x => .ok (f x)) j
    rw [m1]
    congr 1
    apply cuts_inj
    rw [h3, f1, f2, m3, k3, cutJoin_mono hg]
  · rw [Bool.eq_iff_iff, contains_cuts, contains_cuts, f1, f2]
    rcases cuts a with _ | ⟨x, y⟩ <;> rcases cuts b with _ | ⟨x', y'⟩ <;> simp [hg.le_iff_le]
  · rw [Bool.eq_iff_iff, intersects_cuts, intersects_cuts, f1, f2]
    rcases cuts a with _ | ⟨x, y⟩ <;> rcases cuts b with _ | ⟨x', y'⟩ <;> simp [hg.lt_iff_lt]
  · rw [Bool.eq_iff_iff, canBeMerged_cuts, canBeMerged_cuts, f1, f2]
    rcases cuts a with _ | ⟨x, y⟩ <;> rcases cuts b with _ | ⟨x', y'⟩ <;> simp [hg.le_iff_le]
  · rw [Bool.eq_iff_iff, lt_cuts, lt_cuts, f1, f2]
    rcases cuts a with _ | ⟨x, y⟩ <;> rcases cuts b with _ | ⟨x', y'⟩ <;> simp [hg.le_iff_le]
  · rw [Bool.eq_iff_iff, gt_cuts, gt_cuts, f1, f2]
    rcases cuts a with _ | ⟨x, y⟩ <;> rcases cuts b with _ | ⟨x', y'⟩ <;> simp [hg.le_iff_le]
  · rw [Bool.eq_iff_iff, beq_iff_eq, beq_iff_eq]
    constructor
    · intro h
      apply cuts_inj
      have := congrArg cuts h
      rw [f1, f2] at this
      revert this
      rcases cuts a with _ | ⟨x, y⟩ <;> rcases cuts b with _ | ⟨x', y'⟩ <;> simp [hg.injective.eq_iff]
    · rintro rfl
      rw [e1] at e2
      cases e2; rfl
  · rw [Bool.eq_iff_iff, isEmpty_cuts, isEmpty_cuts, f1]
    simp
  · rcases Interval.cases2 a with rfl | ⟨l, lc, u, uc, rfl⟩
    · cases e1; rfl
    · rw [binOp_mono hf ha.wf] at e1
      cases e1
      show decide (_ = _) = decide (_ = _)
      rw [decide_eq_decide]
      exact hinj.eq_iff
  · intro v
    rw [Bool.eq_iff_iff, containsVal_cuts, containsVal_cuts, f1]
    have k1 : toLex (f v, false) = cutMono f (toLex (v, false)) := rfl
    have k2 : toLex (f v, true) = cutMono f (toLex (v, true)) := rfl
    rw [k1, k2]
    rcases cuts a with _ | ⟨x, y⟩ <;> simp [hg.le_iff_le]

/-- C72: an order-reversing operator (negating, multiplying or dividing exactly by a negative value) does the
same, with `<` and `>` exchanged. -/
theorem c72_order_reversing (f : T → T) (hf : ∀ x y, f x < f y ↔ y < x) (ha : Obtainable a) (hb : Obtainable b) :
    ∃ a' b', Interval.binOp (fun x => .ok (f x)) a = .ok a' ∧ Interval.binOp (fun x => .ok (f x)) b = .ok b' ∧
      Interval.intoIntersection a' b' = (Interval.intoIntersection a b >>= Interval.binOp fun x => .ok (f x)) ∧
      Interval.intoSpan a' b' = (Interval.intoSpan a b >>= Interval.binOp fun x => .ok (f x)) ∧
      a'.containsInterval b' = a.containsInterval b ∧ a'.intersects b' = a.intersects b ∧
      a'.canBeMerged b' = a.canBeMerged b ∧ a'.lt b' = a.gt b ∧ a'.gt b' = a.lt b ∧ (a' == b') = (a == b) ∧
      a'.isEmpty = a.isEmpty ∧ a'.isSingle = a.isSingle ∧
      ∀ v, a'.containsVal (f v) = a.containsVal v := by
  have hg := cutAnti_strict hf
  obtain ⟨a', e1, w1, f1⟩ := binOp_cut_anti hf ha.wf
  obtain ⟨b', e2, w2, f2⟩ := binOp_cut_anti hf hb.wf
  have hinj : Function.Injective f := by
    intro x y hxy
    rcases lt_trichotomy x y with h | h | h
    · have := (hf _ _).mpr h; rw [hxy] at this; exact absurd this (lt_irrefl _)
    · exact h
    · have := (hf _ _).mpr h; rw [hxy] at this; exact absurd this (lt_irrefl _)
  refine ⟨a', b', e1, e2, ?_, ?_, ?_, ?_, ?_, ?_, ?_, ?_, ?_, ?_, ?_⟩
  · obtain ⟨i, h1, h2, h3⟩ := intoIntersection_cut w1 w2
    obtain ⟨j, k1, k2, k3⟩ := intoIntersection_cut ha.wf hb.wf
    obtain ⟨n, m1, _, m3⟩ := binOp_cut_anti hf k2
    rw [h1, k1]
    show _ = Interval.binOp (fun x => .ok (f x)) j
    rw [m1]
    congr 1
    apply cuts_inj
    rw [h3, f1, f2, m3, k3, cutMeet_anti hg]
  · obtain ⟨i, h1, h2, h3⟩ := intoSpan_cut w1 w2
    obtain ⟨j, k1, k2, k3⟩ := intoSpan_cut ha.wf hb.wf
    obtain ⟨n, m1, _, m3⟩ := binOp_cut_anti hf k2
    rw [h1, k1]
    show _ = Interval.binOp (fun x => .ok (f x)) j
    rw [m1]
    congr 1
    apply cuts_inj
    rw [h3, f1, f2, m3, k3, cutJoin_anti hg]
  · rw [Bool.eq_iff_iff, contains_cuts, contains_cuts, f1, f2]
    rcases cuts a with _ | ⟨x, y⟩ <;> rcases cuts b with _ | ⟨x', y'⟩ <;> simp [hg.le_iff_ge, and_comm]
  · rw [Bool.eq_iff_iff, intersects_cuts, intersects_cuts, f1, f2]
    rcases cuts a with _ | ⟨x, y⟩ <;> rcases cuts b with _ | ⟨x', y'⟩ <;> simp [hg.lt_iff_gt, and_comm]
  · rw [Bool.eq_iff_iff, canBeMerged_cuts, canBeMerged_cuts, f1, f2]
    rcases cuts a with _ | ⟨x, y⟩ <;> rcases cuts b with _ | ⟨x', y'⟩ <;> simp [hg.le_iff_ge, and_comm]
  · rw [Bool.eq_iff_iff, lt_cuts, gt_cuts, f1, f2]
    rcases cuts a with _ | ⟨x, y⟩ <;> rcases cuts b with _ | ⟨x', y'⟩ <;> simp [hg.le_iff_ge]
  · rw [Bool.eq_iff_iff, gt_cuts, lt_cuts, f1, f2]
    rcases cuts a with _ | ⟨x, y⟩ <;> rcases cuts b with _ | ⟨x', y'⟩ <;> simp [hg.le_iff_ge]
  · rw [Bool.eq_iff_iff, beq_iff_eq, beq_iff_eq]
    constructor
    · intro h
      apply cuts_inj
      have := congrArg cuts h
      rw [f1, f2] at this
      revert this
      rcases cuts a with _ | ⟨x, y⟩ <;> rcases cuts b with _ | ⟨x', y'⟩ <;> simp [hg.injective.eq_iff, and_comm]
    · rintro rfl
      rw [e1] at e2
      cases e2; rfl
  · rw [Bool.eq_iff_iff, isEmpty_cuts, isEmpty_cuts, f1]
    simp
  · rcases Interval.cases2 a with rfl | ⟨l, lc, u, uc, rfl⟩
    · cases e1; rfl
    · rw [binOp_anti hf ha.wf] at e1
      cases e1
      show decide (_ = _) = decide (_ = _)
      rw [decide_eq_decide]
      exact ⟨fun h => (hinj h).symm, fun h => congrArg f h.symm⟩
  · intro v
    rw [Bool.eq_iff_iff, containsVal_cuts, containsVal_cuts, f1]
    have k1 : toLex (f v, false) = cutAnti f (toLex (v, true)) := rfl
    have k2 : toLex (f v, true) = cutAnti f (toLex (v, false)) := rfl
    rw [k1, k2]
    rcases cuts a with _ | ⟨x, y⟩ <;> simp [hg.le_iff_ge, and_comm]

/-- C72: `Neg` is such an operator: for an order-reversing map it gives what the binary operators give. -/
theorem c72_neg (f : T → T) (hf : ∀ x y, f x < f y ↔ y < x) (ha : Obtainable a) :
    Interval.neg (fun x => .ok (f x)) a = Interval.binOp (fun x => .ok (f x)) a := by
  rcases Interval.cases2 a with rfl | ⟨l, lc, u, uc, rfl⟩
  · rfl
  · have h := ha.wf
    rw [binOp_anti hf h, neg_ok (op := fun x => .ok (f x)) rfl rfl, Interval.fix_of_wf]
    rw [wf_mk] at h ⊢
    rcases h with h | ⟨rfl, h1, h2⟩
    · exact Or.inl ((hf _ _).mpr h)
    · exact Or.inr ⟨rfl, h2, h1⟩

/-- C72: two such operators one after the other give the interval their composition gives. -/
theorem c72_compose (f g : T → T) (hf : (∀ x y, f x < f y ↔ x < y) ∨ (∀ x y, f x < f y ↔ y < x))
    (hg : (∀ x y, g x < g y ↔ x < y) ∨ (∀ x y, g x < g y ↔ y < x)) (ha : Obtainable a) :
    (Interval.binOp (fun x => .ok (f x)) a >>= Interval.binOp fun x => .ok (g x))
      = Interval.binOp (fun x => .ok (g (f x))) a := by
  rcases Interval.cases2 a with rfl | ⟨l, lc, u, uc, rfl⟩
  · rfl
  · rcases hf with hf | hf
    · obtain ⟨j, h1, w1, _⟩ := binOp_cut_mono hf ha.wf
      rw [binOp_mono hf ha.wf] at h1 ⊢
      cases h1
      show Interval.binOp (fun x => .ok (g x)) (iv (f l) lc (f u) uc) = _
      rcases hg with hg | hg
      · rw [binOp_mono hg w1, binOp_mono (f := fun x => g (f x)) (fun x y => (hg _ _).trans (hf _ _)) ha.wf]
      · rw [binOp_anti hg w1, binOp_anti (f := fun x => g (f x)) (fun x y => (hg _ _).trans (hf _ _)) ha.wf]
    · obtain ⟨j, h1, w1, _⟩ := binOp_cut_anti hf ha.wf
      rw [binOp_anti hf ha.wf] at h1 ⊢
      cases h1
      show Interval.binOp (fun x => .ok (g x)) (iv (f u) uc (f l) lc) = _
      rcases hg with hg | hg
      · rw [binOp_mono hg w1, binOp_anti (f := fun x => g (f x)) (fun x y => (hg _ _).trans (hf _ _)) ha.wf]
      · rw [binOp_anti hg w1, binOp_mono (f := fun x => g (f x)) (fun x y => (hg _ _).trans (hf _ _)) ha.wf]

end

section
variable {R : Type} [LinearOrder R] [CommRing R] [IsStrictOrderedRing R] {i : Interval R}

/-- C72: the arithmetic laws: `(i + c) + d == i + (c + d)`, `i - c == i + (-c)`, and, if the factors are not
zero, `(i * c) * d == i * (c * d)`, `(i + c) * d == i * d + c * d` and `-i == i * (-1)`. -/
theorem c72_laws (h : Obtainable i) (c d : R) :
    (Interval.binOp (fun x => .ok (x + c)) i >>= Interval.binOp fun x => .ok (x + d))
      = Interval.binOp (fun x => .ok (x + (c + d))) i ∧
    Interval.binOp (fun x => .ok (x - c)) i = Interval.binOp (fun x => .ok (x + -c)) i ∧
    (c ≠ 0 → d ≠ 0 → (Interval.binOp (fun x => .ok (x * c)) i >>= Interval.binOp fun x => .ok (x * d))
      = Interval.binOp (fun x => .ok (x * (c * d))) i) ∧
    (d ≠ 0 → (Interval.binOp (fun x => .ok (x + c)) i >>= Interval.binOp fun x => .ok (x * d))
      = (Interval.binOp (fun x => .ok (x * d)) i >>= Interval.binOp fun x => .ok (x + c * d))) ∧
    Interval.neg (fun x => .ok (-x)) i = Interval.binOp (fun x => .ok (x * -1)) i := by
  have hadd : ∀ c : R, ∀ x y, x + c < y + c ↔ x < y := fun c x y => add_lt_add_iff_right c
  have hmul : ∀ c : R, c ≠ 0 → (∀ x y, x * c < y * c ↔ x < y) ∨ (∀ x y, x * c < y * c ↔ y < x) := by
    intro c hc
    rcases lt_or_gt_of_ne hc with hc | hc
    · exact Or.inr fun x y => mul_lt_mul_right_of_neg hc
    · exact Or.inl fun x y => mul_lt_mul_iff_left₀ hc
  have ex : ∀ {f g : R → R}, (∀ x, f x = g x) → (fun x => (Except.ok (f x) : Except Fault R)) = fun x => .ok (g x) :=
    fun h => by funext x; rw [h]
  refine ⟨?_, ?_, ?_, ?_, ?_⟩
  · rw [c72_compose _ _ (Or.inl (hadd c)) (Or.inl (hadd d)) h, ex fun x => add_assoc x c d]
  · rw [ex fun x => sub_eq_add_neg x c]
  · intro hc hd
    rw [c72_compose _ _ (hmul c hc) (hmul d hd) h, ex fun x => mul_assoc x c d]
  · intro hd
    rw [c72_compose _ _ (Or.inl (hadd c)) (hmul d hd) h, c72_compose _ _ (hmul d hd) (Or.inl (hadd _)) h,
      ex fun x => add_mul x c d]
  · rw [c72_neg _ (fun x y => neg_lt_neg_iff) h, ex fun x => (mul_neg_one x).symm]

end

example : Obtainable demo ∧ (∀ x y : Int, x + 2 < y + 2 ↔ x < y) ∧ (∀ x y : Int, x * -2 < y * -2 ↔ y < x) ∧
    Interval.binOp (fun x => .ok (x * -2)) demo = .ok ⟨some ⟨⟨⟨-6, true⟩⟩, ⟨⟨-2, false⟩⟩⟩⟩ :=
  ⟨demo_ok, fun x y => by omega, fun x y => by omega, rfl⟩

end Itv
