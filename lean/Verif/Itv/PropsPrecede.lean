import Verif.Itv.LemmasPrecede
import Verif.Itv.PropsSchedule
import Verif.Itv.PropsOrder
/-!
# C134: the shape of the order of intervals
-/

open Rust
namespace Itv

section
variable {T : Type} [LinearOrder T] {a b c d x : Interval T} {l : List (Interval T)}

/-- **C134 (interval order).** If `a < b` and `c < d` then `a < d` or `c < b`. -/
theorem c134_interval_order (hab : a.lt b = true) (hcd : c.lt d = true) :
    a.lt d = true ∨ c.lt b = true := by
  obtain ⟨p, hp, q, hq, h⟩ := lt_cuts.mp hab
  obtain ⟨r, hr, s, hs, h'⟩ := lt_cuts.mp hcd
  rcases le_total p.2 s.1 with g | g
  · exact Or.inl (lt_cuts.mpr ⟨p, hp, s, hs, g⟩)
  · exact Or.inr (lt_cuts.mpr ⟨r, hr, q, hq, h'.trans (g.trans h)⟩)

/-- **C134 (between).** An interval that intersects one interval before `b` and one behind `b` contains `b`. -/
theorem c134_between (ha : Obtainable a) (hb : Obtainable b) (hc : Obtainable c) (hx : Obtainable x)
    (hne : x.isEmpty = false) (hab : a.lt b = true) (hbc : b.lt c = true) (hxa : x.intersects a = true)
    (hxc : x.intersects c = true) : x.containsInterval b = true := by
  have nonempty : ∀ {u v : Interval T}, u.lt v = true → cuts u ≠ none ∧ cuts v ≠ none := by
    intro u v h
    obtain ⟨p, hp, q, hq, _⟩ := lt_cuts.mp h
    rw [hp, hq]
    exact ⟨Option.some_ne_none _, Option.some_ne_none _⟩
  have real : ∀ {u : Interval T}, Obtainable u → cuts u ≠ none → Real u := by
    intro u hu h
    refine real_of hu ?_
    rw [← Bool.not_eq_true, isEmpty_cuts]; exact h
  have ra := real ha (nonempty hab).1
  have rb := real hb (nonempty hab).2
  have rc := real hc (nonempty hbc).2
  have rx := real_of hx hne
  rw [lt_iff_real ra rb] at hab
  rw [lt_iff_real rb rc] at hbc
  rw [int_iff rx ra] at hxa
  rw [int_iff rx rc] at hxc
  rw [contains_iff_real rx rb]
  exact ⟨(hxa.1.trans_le hab).le, (hbc.trans_lt hxc.2).le⟩

/-- **C134 (sorting by a bound).** Whether intervals are sorted by upper or by lower bounds, no later interval is `<` an
earlier one. -/
theorem c134_extension (hl : ∀ i ∈ l, Obtainable i) (hs : SortedByUpper l ∨ SortedByLower l) :
    l.Pairwise fun a b => b.lt a = false := by
  have hne : ∀ i ∈ l, i.isEmpty = false := hs.elim (·.1) (·.1)
  have hr : ∀ i ∈ l, Real i := fun i hi => real_of (hl i hi) (hne i hi)
  have : l.Pairwise fun a b => upp a ≤ upp b ∨ low a ≤ low b := by
    rcases hs with h | h
    · exact (upper_sorted h).imp Or.inl
    · exact (lower_sorted h).imp Or.inr
  refine this.imp_of_mem ?_
  intro a b ha hb h
  rw [← Bool.not_eq_true, lt_iff_real (hr b hb) (hr a ha), not_le]
  rcases h with h | h
  · exact (hr a ha).2.trans_le h
  · exact h.trans_lt (hr b hb).2

/-- **C134 (elimination).** In intervals sorted by upper bounds, those behind `a` that intersect `a` also intersect
each other. -/
theorem c134_elimination (hl : ∀ i ∈ l, Obtainable i) (hs : SortedByUpper l) (pre post : List (Interval T))
    (he : l = pre ++ a :: post) : Clash (post.filter fun i => a.intersects i) := by
  have hr : ∀ i ∈ l, Real i := fun i hi => real_of (hl i hi) (hs.1 i hi)
  have hu := upper_sorted hs
  subst he
  have ha := hr a (by simp)
  have hle := (List.pairwise_cons.mp (List.pairwise_append.mp hu).2.1).1
  refine List.pairwise_of_forall_mem_list ?_
  intro i hi j hj
  obtain ⟨hi, hai⟩ := List.mem_filter.mp hi
  obtain ⟨hj, haj⟩ := List.mem_filter.mp hj
  have ri := hr i (by simp [hi])
  have rj := hr j (by simp [hj])
  rw [int_iff ha ri] at hai
  rw [int_iff ha rj] at haj
  rw [int_iff ri rj]
  exact ⟨hai.2.trans_le (hle j hj), haj.2.trans_le (hle i hi)⟩

/-- **C134 (chords).** If four or more intervals stand in a ring and each intersects the next, two that are not next to
each other intersect. -/
theorem c134_chord (n : Nat) (hn : 4 ≤ n) (ring : Nat → Interval T)
    (ho : ∀ i < n, Obtainable (ring i) ∧ (ring i).isEmpty = false)
    (hi : ∀ i < n, (ring i).intersects (ring ((i + 1) % n)) = true) :
    ∃ i < n, ∃ j < n, i ≠ j ∧ j ≠ (i + 1) % n ∧ i ≠ (j + 1) % n ∧ (ring i).intersects (ring j) = true := by
  have hr : ∀ i < n, Real (ring i) := fun i h => real_of (ho i h).1 (ho i h).2
  obtain ⟨m, hm, hmin'⟩ := least_at (fun i => upp (ring i)) n (by omega)
  have key : ∀ p s, p < n → s < n → (p + 1) % n = m → s = (m + 1) % n → (ring p).intersects (ring s) = true := by
    intro p s hp hs h1 h2
    have i1 := hi p hp
    have i2 := hi m hm
    rw [h1, int_iff (hr p hp) (hr m hm)] at i1
    rw [← h2, int_iff (hr m hm) (hr s hs)] at i2
    rw [int_iff (hr p hp) (hr s hs)]
    exact ⟨i1.1.trans_le (hmin' s hs), i2.2.trans_le (hmin' p hp)⟩
  have md : ∀ k, k < n → (k + 1) % n = if k + 1 = n then 0 else k + 1 := by
    intro k hk
    split
    · rename_i h; rw [h, Nat.mod_self]
    · exact Nat.mod_eq_of_lt (by omega)
  let p := if m = 0 then n - 1 else m - 1
  let s := if m + 1 = n then 0 else m + 1
  have hp : p < n := by simp only [p]; split <;> omega
  have hs : s < n := by simp only [s]; split <;> omega
  refine ⟨p, hp, s, hs, ?_, ?_, ?_, key p s hp hs ?_ ?_⟩
  · simp only [p, s]; split <;> split <;> omega
  · rw [md p hp]; simp only [p, s]; split <;> split <;> split <;> omega
  · rw [md s hs]; simp only [p, s]; split <;> split <;> split <;> omega
  · rw [md p hp]; simp only [p]; split <;> split <;> omega
  · rw [md m hm]

/-- **C134 (sorting with `partial_cmp().unwrap()`).** Comparing non-empty intervals never gives `None` exactly if any two
of the collection are equal or do not intersect; then only one order of the collection is sorted. -/
theorem c134_unwrap (hl : ∀ i ∈ l, Obtainable i) (hne : ∀ i ∈ l, i.isEmpty = false) :
    ((∀ a ∈ l, ∀ b ∈ l, a.partialCmp b ≠ none) ↔ ∀ a ∈ l, ∀ b ∈ l, a = b ∨ a.intersects b = false) ∧
    ((∀ a ∈ l, ∀ b ∈ l, a.partialCmp b ≠ none) → ∀ m m' : List (Interval T), m.Perm l → m'.Perm l →
      m.Pairwise (fun a b => a.partialCmp b ≠ some .gt) → m'.Pairwise (fun a b => a.partialCmp b ≠ some .gt) → m = m') := by
  have hr : ∀ i ∈ l, Real i := fun i hi => real_of (hl i hi) (hne i hi)
  have lt' : ∀ a ∈ l, ∀ b ∈ l, (a.lt b = true ↔ upp a ≤ low b) := fun a ha b hb => lt_iff_real (hr a ha) (hr b hb)
  have gt' : ∀ a ∈ l, ∀ b ∈ l, a.gt b = b.lt a := fun a ha b hb => (c30_strict (hl a ha) (hl b hb)).2.2.1
  have iff' : (∀ a ∈ l, ∀ b ∈ l, a.partialCmp b ≠ none) ↔ ∀ a ∈ l, ∀ b ∈ l, a = b ∨ a.intersects b = false := by
    refine forall₂_congr fun a ha => forall₂_congr fun b hb => ?_
    unfold Interval.partialCmp Interval.intersects
    rw [gt' a ha b hb]
    by_cases hab : a = b
    · subst hab; cases a.lt a <;> simp
    · cases h1 : a.lt b <;> cases h2 : b.lt a <;> simp [hab]
  refine ⟨iff', fun htot m m' hp hp' hs hs' => ?_⟩
  have hsep := iff'.mp htot
  -- on this collection `≠ Greater` is antisymmetric
  refine List.Perm.eq_of_pairwise (le := fun a b => a.partialCmp b ≠ some .gt) ?_ hs hs' (hp.trans hp'.symm)
  intro a b ha hb h1 h2
  have ha := hp.subset ha
  have hb := hp'.subset hb
  by_contra hab
  have g := (hsep a ha b hb).resolve_left hab
  rw [not_int_iff (hr a ha) (hr b hb)] at g
  have k1 := lt' a ha b hb
  have k2 := lt' b hb a ha
  unfold Interval.partialCmp at h1 h2
  rw [gt' a ha b hb] at h1
  rw [gt' b hb a ha] at h2
  rcases g with g | g
  · have t := k2.mpr g
    simp [t] at h1
  · have t := k1.mpr g
    simp [t] at h2

end

-- `(1, 3] < [4]` and `[3, 5) < [7]`; of the two conclusions only `(1, 3] < [7]` holds
example : demo.lt (Interval.single 4) = true ∧ demo2.lt (Interval.single 7) = true ∧
    demo.lt (Interval.single 7) = true ∧ demo2.lt (Interval.single 4) = false :=
  ⟨rfl, rfl, rfl, rfl⟩

/-- `[0, 9]` -/
def wide : Interval Int := ⟨some ⟨⟨⟨0, true⟩⟩, ⟨⟨9, true⟩⟩⟩⟩
theorem wide_ok : Obtainable wide := Obtainable.new (l := 0) (lc := true) (u := 9) (uc := true) rfl

example : Obtainable demo ∧ Obtainable (Interval.single (4 : Int)) ∧ Obtainable (Interval.single (7 : Int)) ∧
    Obtainable wide ∧ wide.isEmpty = false ∧ demo.lt (Interval.single 4) = true ∧
    (Interval.single (4 : Int)).lt (Interval.single 7) = true ∧ wide.intersects demo = true ∧
    wide.intersects (Interval.single 7) = true :=
  ⟨demo_ok, Obtainable.single 4, Obtainable.single 7, wide_ok, rfl, rfl, rfl, rfl, rfl⟩

example : (∀ i ∈ jobs, Obtainable i) ∧ SortedByUpper jobs ∧ SortedByLower jobs ∧
    (∃ a post, jobs = [] ++ a :: post ∧ (post.filter fun i => a.intersects i) ≠ []) :=
  ⟨jobs_ok, jobs_upper, jobs_lower, _, _, rfl, by decide +kernel⟩

/-- `(1, 3]`, `[3, 5)`, `[0, 9]`, `[3, 5)` in a ring -/
def ring4 (i : Nat) : Interval Int := if i = 0 then demo else if i = 2 then wide else demo2

example : (∀ i < 4, Obtainable (ring4 i) ∧ (ring4 i).isEmpty = false) ∧
    ∀ i < 4, (ring4 i).intersects (ring4 ((i + 1) % 4)) = true := by
  refine ⟨fun i _ => ?_, by decide⟩
  unfold ring4
  split
  · exact ⟨demo_ok, rfl⟩
  · split
    · exact ⟨wide_ok, rfl⟩
    · exact ⟨demo2_ok, rfl⟩

-- the collection `[7]`, `(1, 3]`, `[7]` can be sorted, `(1, 3]`, `[3, 5)` cannot
example : (∀ i ∈ [Interval.single (7 : Int), demo, Interval.single 7], Obtainable i ∧ i.isEmpty = false) ∧
    (∀ a ∈ [Interval.single (7 : Int), demo, Interval.single 7],
      ∀ b ∈ [Interval.single (7 : Int), demo, Interval.single 7], a.partialCmp b ≠ none) ∧
    [demo, Interval.single (7 : Int), Interval.single 7].Pairwise (fun a b => a.partialCmp b ≠ some .gt) ∧
    demo.partialCmp demo2 = none := by
  refine ⟨?_, by decide, by decide, by decide⟩
  intro i hi
  simp only [List.mem_cons, List.not_mem_nil, or_false] at hi
  rcases hi with rfl | rfl | rfl
  · exact ⟨Obtainable.single 7, rfl⟩
  · exact ⟨demo_ok, rfl⟩
  · exact ⟨Obtainable.single 7, rfl⟩

end Itv
