import Verif.Itv.Cmp
import Verif.Itv.Props
import Verif.Itv.PropsArith
/-!
# Property theorem C86: a panicking comparison inside an in-place method

`spanC b (a, k)` is `a.span(b)` when the comparison of the element type panics after `k` comparisons. `Between i j k`
says that `j` encloses `i` and is enclosed by `k`. That what a panic leaves behind is well formed means, by
`c22_exact`, that it is one more obtainable interval, so all other properties hold of it.
-/

open Rust
namespace Itv

section
variable {T : Type} [LinearOrder T] {a b : Interval T}

/-- C86, `span`: however many comparisons succeed before one panics, the call either does what it does with a
panic-free comparison, or ends with the user's panic and leaves a well-formed interval that encloses the old
one and is enclosed by the result. With two comparisons it does not panic. -/
theorem c86_span (ha : Obtainable a) (hb : Obtainable b) (k : Nat) :
    (∃ k', Interval.spanC b (a, k) = (.ok (), (Interval.span b a).2, k')) ∨
    (k < 2 ∧ ∃ j, Interval.spanC b (a, k) = (.error .user, j, 0) ∧ WellFormed j ∧
      Between a j (Interval.span b a).2) := by
  have h1 := ha.wf
  have h2 := hb.wf
  rcases Interval.cases2 b with rfl | ⟨l', lc', u', uc', rfl⟩
  · left
    rcases Interval.cases2 a with rfl | ⟨l, lc, u, uc, rfl⟩ <;> exact ⟨k, rfl⟩
  rcases Interval.cases2 a with rfl | ⟨l, lc, u, uc, rfl⟩
  · left; exact ⟨k, rfl⟩
  rw [span_eval]
  obtain ⟨s1, s2, s3⟩ := grow_stages h1 h2 _ _ rfl rfl
  rcases k with _ | _ | k
  · exact Or.inr ⟨by omega, _, rfl, h1, s1⟩
  · exact Or.inr ⟨by omega, _, rfl, s2, s3⟩
  · exact Or.inl ⟨k, rfl⟩

/-- C86, `merge`: likewise, with up to four comparisons; a call that is refused changes nothing. -/
theorem c86_merge (ha : Obtainable a) (hb : Obtainable b) (k : Nat) :
    (∃ k', Interval.mergeC b (a, k) = ((Interval.merge b a).1, (Interval.merge b a).2, k')) ∨
    (k < 4 ∧ ∃ j, Interval.mergeC b (a, k) = (.error .user, j, 0) ∧ WellFormed j ∧
      (j = a ∨ a.canBeMerged b = true ∧ Between a j (Interval.merge b a).2)) := by
  have h1 := ha.wf
  have h2 := hb.wf
  rcases Interval.cases2 a with rfl | ⟨l, lc, u, uc, rfl⟩
  · left; exact ⟨k, rfl⟩
  rcases Interval.cases2 b with rfl | ⟨l', lc', u', uc', rfl⟩
  · left; exact ⟨k, rfl⟩
  obtain ⟨s1, s2, s3⟩ := grow_stages h1 h2 _ _ rfl rfl
  rw [merge_eval]
  have hc : (iv l lc u uc).canBeMerged (iv l' lc' u' uc') =
    !(UpperBound.isSeparatedFrom ⟨⟨u, uc⟩⟩ ⟨⟨l', lc'⟩⟩ || UpperBound.isSeparatedFrom ⟨⟨u', uc'⟩⟩ ⟨⟨l, lc⟩⟩) := rfl
  have hm := mergeC_eval (l := l) (u := u) (l' := l') (u' := u') (lc := lc) (uc := uc) (lc' := lc') (uc' := uc') k
  rw [hc, hm]
  generalize UpperBound.isSeparatedFrom ⟨⟨u, uc⟩⟩ ⟨⟨l', lc'⟩⟩ = p1
  generalize UpperBound.isSeparatedFrom ⟨⟨u', uc'⟩⟩ ⟨⟨l, lc⟩⟩ = p2
  cases p1 with
  | true =>
    rcases k with _ | k
    · exact Or.inr ⟨by omega, _, rfl, h1, Or.inl rfl⟩
    · exact Or.inl ⟨k, rfl⟩
  | false =>
    cases p2 with
    | true =>
      rcases k with _ | _ | k
      · exact Or.inr ⟨by omega, _, rfl, h1, Or.inl rfl⟩
      · exact Or.inr ⟨by omega, _, rfl, h1, Or.inl rfl⟩
      · exact Or.inl ⟨k, rfl⟩
    | false =>
      rcases k with _ | _ | _ | _ | k
      · exact Or.inr ⟨by omega, _, rfl, h1, Or.inl rfl⟩
      · exact Or.inr ⟨by omega, _, rfl, h1, Or.inl rfl⟩
      · exact Or.inr ⟨by omega, _, rfl, h1, Or.inl rfl⟩
      · exact Or.inr ⟨by omega, _, rfl, s2, Or.inr ⟨rfl, s3⟩⟩
      · exact Or.inl ⟨k, rfl⟩

/-- C86, `intersection`: likewise, with the interval between the result and the old one. -/
theorem c86_intersection (ha : Obtainable a) (hb : Obtainable b) (k : Nat) :
    (∃ k', Interval.intersectionC b (a, k) = (.ok (), (Interval.intersection b a).2, k')) ∨
    (k < 4 ∧ ∃ j, Interval.intersectionC b (a, k) = (.error .user, j, 0) ∧ WellFormed j ∧
      Between (Interval.intersection b a).2 j a) := by
  have h1 := ha.wf
  have h2 := hb.wf
  rcases Interval.cases2 a with rfl | ⟨l, lc, u, uc, rfl⟩
  · left
    rcases Interval.cases2 b with rfl | ⟨l', lc', u', uc', rfl⟩ <;> exact ⟨k, rfl⟩
  rcases Interval.cases2 b with rfl | ⟨l', lc', u', uc', rfl⟩
  · left; exact ⟨k, rfl⟩
  have hall : ∀ i : Interval T, i.containsInterval ⟨none⟩ = true := by
    intro i; rcases i with ⟨_ | i⟩ <;> rfl
  have hrefl : (iv l lc u uc).containsInterval (iv l lc u uc) = true := by
    rw [Interval.containsInterval_mk]; cases lc <;> cases uc <;> simp
  have hst := fun hg hl => shrink_stages h1 h2 _ _ hg hl rfl rfl
  rw [intersectionC_eval, intersection_eval]
  generalize (iv l lc u uc).gt (iv l' lc' u' uc') = p1 at hst
  generalize (iv l lc u uc).lt (iv l' lc' u' uc') = p2 at hst
  cases p1 with
  | true =>
    rcases k with _ | k
    · exact Or.inr ⟨by omega, _, rfl, h1, between_of (hall _) hrefl⟩
    · exact Or.inl ⟨k, rfl⟩
  | false =>
    cases p2 with
    | true =>
      rcases k with _ | _ | k
      · exact Or.inr ⟨by omega, _, rfl, h1, between_of (hall _) hrefl⟩
      · exact Or.inr ⟨by omega, _, rfl, h1, between_of (hall _) hrefl⟩
      · exact Or.inl ⟨k, rfl⟩
    | false =>
      obtain ⟨s1, s2, s3⟩ := hst rfl rfl
      rcases k with _ | _ | _ | _ | k
      · exact Or.inr ⟨by omega, _, rfl, h1, s1⟩
      · exact Or.inr ⟨by omega, _, rfl, h1, s1⟩
      · exact Or.inr ⟨by omega, _, rfl, h1, s1⟩
      · exact Or.inr ⟨by omega, _, rfl, s2, s3⟩
      · exact Or.inl ⟨k, rfl⟩

/-- C42 for comparisons: if the element type's comparison panics while an assigning operator puts the bounds in
order, what is left are the new bounds, in order or not; they are well formed if the operator is strictly
increasing. Missing: the other operators, see `c42_comparison_panic_leaves_ill_formed`. -/
theorem c42_comparison_panic_partial (ha : Obtainable a) (op : T → T) (k : Nat) :
    (∃ k', Interval.opAssignC op (a, k) =
      (.ok (), (Interval.opAssign (assign fun x => .ok (op x)) a).2, k')) ∨
    (k < 2 ∧ ∃ l lc u uc j, a.intoTuple = some (l, lc, u, uc) ∧
      Interval.opAssignC op (a, k) = (.error .user, j, 0) ∧
      (j.intoTuple = some (op l, lc, op u, uc) ∨ op u < op l ∧ j.intoTuple = some (op u, uc, op l, lc)) ∧
      ((∀ x y, x < y → op x < op y) → WellFormed j)) := by
  have h1 := ha.wf
  rcases Interval.cases2 a with rfl | ⟨l, lc, u, uc, rfl⟩
  · left; exact ⟨k, rfl⟩
  have hwf : (∀ x y, x < y → op x < op y) → WellFormed (iv (op l) lc (op u) uc) := by
    intro hm
    rw [wf_mk] at h1 ⊢
    rcases h1 with h | ⟨rfl, h⟩
    · exact Or.inl (hm _ _ h)
    · exact Or.inr ⟨rfl, h⟩
  rcases k with _ | _ | k
  · exact Or.inr ⟨by omega, l, lc, u, uc, iv (op l) lc (op u) uc, rfl, rfl, Or.inl rfl, hwf⟩
  · by_cases h : op u < op l
    · refine Or.inr ⟨by omega, l, lc, u, uc, iv (op u) uc (op l) lc, rfl, ?_, Or.inr ⟨h, rfl⟩, fun _ => Or.inl h⟩
      rw [opAssignC_one, if_pos (by simpa using h)]
    · refine Or.inr ⟨by omega, l, lc, u, uc, iv (op l) lc (op u) uc, rfl, ?_, Or.inl rfl, hwf⟩
      rw [opAssignC_one, if_neg (by simpa using h)]
  · left
    refine ⟨k, ?_⟩
    have h2 : Interval.opAssign (assign fun x => .ok (op x)) (iv l lc u uc) = _ :=
      opAssign_ok (l' := op l) (u' := op u) rfl rfl
    rw [opAssignC_two, h2, Interval.fix_mk]
    by_cases h : op u < op l
    · have hd : decide (op l > op u) = true := by simpa using h
      have he : decide (op u = op l) = false := by simpa using h.ne
      rw [hd, if_pos h]
      show (if (decide (op u = op l) && _) = true then _ else pure () : M (Interval T × Nat) Unit) _ = _
      rw [he]
      rfl
    · have hd : decide (op l > op u) = false := by simpa using h
      rw [hd, if_neg h]
      show (if (decide (op l = op u) && (!lc || !uc)) = true then assignSelf ⟨none⟩ else pure () :
        M (Interval T × Nat) Unit) _ = _
      by_cases he : op l = op u
      · have hd' : decide (op l = op u) = true := by simpa using he
        rw [hd']
        cases lc <;> cases uc <;> simp [he, assignSelf, pure]
      · have hd' : decide (op l = op u) = false := by simpa using he
        rw [hd']
        simp only [if_neg (fun h : op l = op u ∧ (lc = false ∨ uc = false) => he h.1)]
        rfl

end

/-- C42 for comparisons is false of the code: `(1, 3) *= -1`, with a comparison that panics at its first use by
the operator, leaves `(-1, -3)` behind. -/
theorem c42_comparison_panic_leaves_ill_formed : ∃ (i j : Interval Int), Obtainable i ∧
    Interval.opAssignC (· * -1) (i, 0) = (.error .user, j, 0) ∧ ¬ WellFormed j ∧
    Interval.intoSpan j j = .error .explicit := by
  refine ⟨iv 1 false 3 false, iv (-1) false (-3) false, Obtainable.open (l := 1) (u := 3) rfl, rfl, ?_, rfl⟩
  rw [wf_mk]; decide

-- the second comparison of a span panics: `(1, 3]` spanned with `[0, 5)` is left as `[0, 3]`
example : Obtainable demo ∧ Obtainable (iv (0 : Int) true 5 false) ∧
    Interval.spanC (iv 0 true 5 false) (demo, 1) = (.error .user, iv 0 true 3 true, 0) ∧
    Interval.spanC (iv 0 true 5 false) (demo, 2) = (.ok (), iv 0 true 5 false, 0) :=
  ⟨demo_ok, Obtainable.lowerClosed (l := 0) (u := 5) rfl, rfl, rfl⟩

example : Interval.mergeC (iv 0 true 5 false) (demo, 3) = (.error .user, iv 0 true 3 true, 0) ∧
    Interval.mergeC (iv 0 true 5 false) (demo, 4) = (.ok (.ok ()), iv 0 true 5 false, 0) ∧
    Interval.intersectionC (iv 2 true 3 false) (demo, 3) = (.error .user, iv 2 true 3 true, 0) ∧
    Interval.intersectionC (iv 2 true 3 false) (demo, 9) = (.ok (), iv 2 true 3 false, 5) :=
  ⟨rfl, rfl, rfl, rfl⟩

example : Interval.opAssignC (· + 1) (demo, 1) = (.error .user, iv 2 false 4 true, 0) ∧
    ∀ x y : Int, x < y → x + 1 < y + 1 := ⟨rfl, by omega⟩

end Itv
