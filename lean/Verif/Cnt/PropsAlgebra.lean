import Verif.Cnt.Props
/-!
# The counter property C76: counting and subtracting in pieces

Counting a sequence at once or in pieces, and subtracting counters one by one or together, give equal counters,
whatever the iteration orders of the maps.
-/

open Rust
namespace Cnt
open Counter

section
variable {T : Type} [DecidableEq T] [Cfg]

/-- C76: `(a - b) - c == (a - c) - b`, also when counts are zero, and both equal `a - (b + c)` if `b + c` does
not overflow. -/
theorem c76_sub_sub {a b c : Counter T} (ha : Valid a) (hb : Valid b) (hc : Valid c)
    {o1 o2 o3 o4 : List (T × Nat)} (h1 : IterOf o1 b) (h2 : IterOf o2 c) (h3 : IterOf o3 c) (h4 : IterOf o4 b) :
    ∃ ab abc ac acb, sub o1 a = .ok ab ∧ sub o2 ab = .ok abc ∧ sub o3 a = .ok ac ∧ sub o4 ac = .ok acb ∧
      abc.eq acb = true ∧
      ((∀ k, mult b k + mult c k ≤ usizeMax) → ∀ o5, IterOf o5 c → ∃ bc, add o5 b = .ok bc ∧
        ∀ o6, IterOf o6 bc → ∃ d, sub o6 a = .ok d ∧ d.eq abc = true) := by
  obtain ⟨ab, e1, d1⟩ := sub_diff ha hb h1
  obtain ⟨abc, e2, d2⟩ := sub_diff d1.1 hc h2
  obtain ⟨ac, e3, d3⟩ := sub_diff ha hc h3
  obtain ⟨acb, e4, d4⟩ := sub_diff d3.1 hb h4
  refine ⟨ab, abc, ac, acb, e1, e2, e3, e4, (eq_iff d2.1 d4.1).mpr fun k => ?_, fun hf o5 h5 => ?_⟩
  · rw [d2.2, d4.2, d1.mult, d3.mult, d1.2, d3.2]
    cases hbk : b.get k <;> cases hck : c.get k <;> simp only [Option.isSome_none, Option.isSome_some, if_true,
      Bool.false_eq_true, if_false]
    · rw [mult_of_none hbk, Nat.sub_zero]
    · rw [mult_of_none hck, Nat.sub_zero]
    · rename_i m n
      rw [mult_of_some hbk, mult_of_some hck]
      by_cases hle : mult a k ≤ m + n
      · rw [if_pos (by omega), if_pos (by omega)]
      · rw [if_neg (by omega), if_neg (by omega)]
        congr 1; omega
  · obtain ⟨bc, e5, s5⟩ := add_fits hb hc h5 (.inr hf)
    refine ⟨bc, e5, fun o6 h6 => ?_⟩
    obtain ⟨d, e6, d6⟩ := sub_diff ha s5.1 h6
    refine ⟨d, e6, (eq_iff d6.1 d2.1).mpr fun k => ?_⟩
    have hfk := hf k
    rw [d6.2, d2.2, d1.mult, d1.2, s5.isSome, s5.mult hb, Nat.mod_eq_of_lt (by omega)]
    cases hbk : b.get k <;> cases hck : c.get k <;> simp only [Option.isSome_none, Option.isSome_some, if_true,
      Bool.false_eq_true, if_false, Bool.or_false, Bool.or_true, Bool.or_self]
    · rw [mult_of_none hbk, Nat.sub_zero, Nat.zero_add]
    · rw [mult_of_none hck, Nat.add_zero]
    · rename_i m n
      rw [mult_of_some hbk, mult_of_some hck]
      by_cases hle : mult a k ≤ m + n
      · rw [if_pos hle, if_pos (by omega)]
      · rw [if_neg hle, if_neg (by omega)]
        congr 1; omega

/-- C76: `c.extend(items)` and `c + from_iter(items)` are the same thing in every build: where all counts fit
or the build wraps, both return and the counters are equal; otherwise both ways panic with overflow. -/
theorem c76_extend_is_add {c : Counter T} (h : Valid c) (items : List T) :
    (Cfg.overflowChecks = false ∨ (∀ k, mult c k + items.count k ≤ usizeMax) →
      ∃ f e, fromIter items = .ok f ∧ extend items false c = (.ok (), e) ∧
        ∀ order, IterOf order f → ∃ s, add order c = .ok s ∧ s.eq e = true) ∧
    (Cfg.overflowChecks = true → (∃ k, usizeMax < mult c k + items.count k) →
      (extend items false c).1 = .error .overflow ∧
      (fromIter items = .error .overflow ∨ ∃ f, fromIter items = .ok f ∧
        ∀ order, IterOf order f → add order c = .error .overflow)) := by
  have h0 : ∀ k, mult (Counter.new : Counter T) k = 0 := fun k => rfl
  refine ⟨fun hf => ?_, fun hc hf => ?_⟩
  · obtain ⟨f, e1, v1, g1⟩ := addLoop_ok (ones items) false (valid_new (T := T))
      (fun e he => (ones_le items e he).2) (hf.imp id fun hf k => by
        have := hf k; rw [sumFor_ones, h0]; omega)
    obtain ⟨e, e2, v2, g2⟩ := addLoop_ok (ones items) false h
      (fun e he => (ones_le items e he).2) (hf.imp id fun hf k => by rw [sumFor_ones]; exact hf k)
    simp only [keys_ones, sumFor_ones, h0, Nat.zero_add] at g1 g2
    refine ⟨f, e, by rw [Counter.fromIter, fromIterLoop_eq, owned_of_ok e1], by rw [extend_eq]; exact e2,
      fun order ho => ?_⟩
    have hm : ∀ k, mult f k = items.count k % (usizeMax + 1) := by
      intro k
      rw [mult, g1]
      by_cases hk : k ∈ items
      · rw [if_pos hk]; rfl
      · rw [if_neg hk, List.count_eq_zero.mpr hk]; exact (Nat.zero_mod _).symm
    obtain ⟨s, e3, s3⟩ := add_fits h v1 ho (hf.imp id fun hf k => by
      have := hf k; rw [hm, Nat.mod_eq_of_lt (by omega)]; exact this)
    refine ⟨s, e3, (eq_iff s3.1 v2).mpr fun k => ?_⟩
    rw [s3.2, g2, g1, hm]
    by_cases hk : k ∈ items
    · simp only [if_pos hk, Option.isSome_some, if_true, Nat.add_mod_mod]
    · simp only [if_neg hk]; rfl
  · obtain ⟨_, o2⟩ := c52_extend hc h items
    obtain ⟨c', o3, _⟩ := o2 hf
    refine ⟨by rw [o3], ?_⟩
    obtain ⟨f1, f2⟩ := c52_from_iter (T := T) hc items
    by_cases hi : ∀ k, items.count k ≤ usizeMax
    · obtain ⟨f, e1, _, hm⟩ := f1 hi
      have v1 : Valid f := built_valid (.fromIter e1)
      exact .inr ⟨f, e1, fun order ho => ((c52_add hc h v1 ho).2 (by simpa only [hm] using hf)).1⟩
    · exact .inl (f2 (by simpa only [not_forall, Nat.not_le] using hi)).1

/-- C76: `from_iter(xs ++ ys) == from_iter(xs) + from_iter(ys)`, and taking `from_iter(ys)` away again leaves
`from_iter(xs)`, if no item occurs more than `usize::MAX` times. -/
theorem c76_from_iter_append (xs ys : List T) (hf : ∀ k, (xs ++ ys).count k ≤ usizeMax) :
    ∃ a b ab, fromIter xs = .ok a ∧ fromIter ys = .ok b ∧ fromIter (xs ++ ys) = .ok ab ∧
      ∀ o1 o2, IterOf o1 b → IterOf o2 b →
        (∃ s, add o1 a = .ok s ∧ s.eq ab = true) ∧ ∃ d, sub o2 ab = .ok d ∧ d.eq a = true := by
  have h0 : ∀ k, mult (Counter.new : Counter T) k = 0 := fun k => rfl
  have key : ∀ items : List T, (∀ k, items.count k ≤ usizeMax) → ∃ f, fromIter items = .ok f ∧ Valid f ∧
      ∀ k, f.get k = if k ∈ items then some (items.count k) else none := by
    intro items hi
    obtain ⟨f, e1, v1, g1⟩ := feed_run (.extend items false) (valid_new (T := T))
      (fun k => by rw [h0, Nat.zero_add]; exact hi k)
    simp only [Feed.run, extend_eq] at e1
    refine ⟨f, by rw [Counter.fromIter, fromIterLoop_eq, owned_of_ok e1], v1, fun k => ?_⟩
    rw [g1, h0, Nat.zero_add]; rfl
  have hm : ∀ {f : Counter T} {items : List T}, (∀ k, f.get k = if k ∈ items then some (items.count k) else none) →
      ∀ k, mult f k = items.count k := by
    intro f items hg k
    rw [mult, hg]
    by_cases hk : k ∈ items
    · rw [if_pos hk]; rfl
    · rw [if_neg hk, List.count_eq_zero.mpr hk]; rfl
  simp only [List.count_append] at hf
  obtain ⟨a, ea, va, ga⟩ := key xs fun k => by have := hf k; omega
  obtain ⟨b, eb, vb, gb⟩ := key ys fun k => by have := hf k; omega
  obtain ⟨ab, ec, vc, gc⟩ := key (xs ++ ys) fun k => by rw [List.count_append]; exact hf k
  refine ⟨a, b, ab, ea, eb, ec, fun o1 o2 h1 h2 => ⟨?_, ?_⟩⟩
  · obtain ⟨s, e, hs⟩ := add_fits va vb h1 (.inr fun k => by rw [hm ga, hm gb]; exact hf k)
    refine ⟨s, e, (eq_iff hs.1 vc).mpr fun k => ?_⟩
    have := hf k
    rw [hs.2, hm ga, hm gb, Nat.mod_eq_of_lt (by omega), ga, gb, gc, List.count_append]
    have hz : k ∉ ys → ys.count k = 0 := List.count_eq_zero.mpr
    by_cases hx : k ∈ xs <;> by_cases hy : k ∈ ys <;> simp [hx, hy, hz]
  · obtain ⟨d, e, hd⟩ := sub_diff vc vb h2
    refine ⟨d, e, (eq_iff hd.1 va).mpr fun k => ?_⟩
    rw [hd.2, hm gc, hm gb, ga, gb, gc, List.count_append]
    by_cases hx : k ∈ xs
    · have := List.count_pos_iff.mpr hx
      by_cases hy : k ∈ ys
      · simp only [List.mem_append, hx, hy, or_true, if_true, Option.isSome_some]
        rw [if_neg (by omega), Nat.add_sub_cancel]
      · simp [hx, hy, List.count_eq_zero.mpr hy]
    · by_cases hy : k ∈ ys <;> simp [hx, hy, List.count_eq_zero.mpr hx]

end

open Demo in
example : (∀ k, ([1, 2, 1] ++ [2, 3] : List Nat).count k ≤ usizeMax) ∧
    fromIter [1, 2, 1] = .ok (⟨⟨[(2, 1), (1, 2)]⟩⟩ : Counter Nat) ∧
    sub [(2, 1), (3, 1)] (⟨⟨[(1, 2), (2, 2), (3, 1)]⟩⟩ : Counter Nat) = .ok ⟨⟨[(1, 2), (2, 1)]⟩⟩ := by
  refine ⟨fun k => ?_, rfl, rfl⟩
  exact Nat.le_trans List.count_le_length (by decide)

end Cnt
