import Verif.Itv.LemmasSet
import Verif.Itv.PropsCollect
import Mathlib.Data.List.Perm.Subperm
/-!
# C118: a set of values kept as intervals
-/

open Rust
namespace Itv

section
variable {T : Type} [LinearOrder T] {i : Interval T} {l m : List (Interval T)}

/-- **C118 (adding).** Adding an interval never panics and adds its values and no others. One pass is enough: afterwards no
two intervals can be merged. At most one interval more is needed. -/
theorem c118_add (hl : IsSet l) (hi : Obtainable i) : ∃ r, addTo i l = .ok r ∧ IsSet r ∧
    (∀ v, Covered r v ↔ Covered l v ∨ Mem i v) ∧ r.length ≤ l.length + 1 := by
  unfold addTo
  split <;> rename_i h
  · refine ⟨l, rfl, hl, fun v => ⟨.inl, fun hv => hv.elim id fun hv => ?_⟩, Nat.le_succ _⟩
    rw [mem_cuts, isEmpty_cuts.mp h] at hv
    obtain ⟨_, hv, _⟩ := hv
    cases hv
  · obtain ⟨r, h1, h2, _, h3, h4⟩ := addFrom_ok hl hi (by simpa using h)
    exact ⟨r, h1, h2, fun v => by rw [h3, or_comm], h4⟩

/-- **C118 (removing).** Removing an interval never panics and removes its values and no others, so bounds that were closed
become open and the other way round where the interval is cut. At most one interval more is needed. -/
theorem c118_remove (hl : IsSet l) (hi : Obtainable i) : ∃ r, removeFrom i l = .ok r ∧ IsSet r ∧
    (∀ v, Covered r v ↔ Covered l v ∧ ¬ Mem i v) ∧ r.length ≤ l.length + 1 := by
  obtain ⟨r, h1, h2, _, h3, h4, _⟩ := removeFrom_ok hl hi
  exact ⟨r, h1, h2, h3, h4⟩

/-- **C118 (histories).** After any calls, a value is found exactly if the calls, read one by one, leave it in the set. The
number of intervals is at most the number of calls. -/
theorem c118_history (ops : List (SetOp T)) (ho : ∀ o ∈ ops, Obtainable o.arg) (hl : IsSet l) :
    ∃ r, runSet ops l = .ok r ∧ IsSet r ∧ (∀ v, lookup v r = true ↔ Kept v ops (lookup v l = true)) ∧
      r.length ≤ l.length + ops.length := by
  have look : ∀ {l : List (Interval T)}, IsSet l → ∀ v, lookup v l = true ↔ Covered l v := by
    intro l hl v
    rw [lookup, List.any_eq_true]
    refine exists_congr fun i => and_congr_right fun hi => ?_
    obtain ⟨p, hp⟩ := nonempty_cuts.mp (hl.nonempty i hi)
    rw [containsVal_cuts, mem_cuts, hp]
    simp
  have kept : ∀ (v : T) (ops : List (SetOp T)) (p q : Prop), (p ↔ q) → (Kept v ops p ↔ Kept v ops q) := by
    intro v ops p q h
    rw [propext h]
  induction ops generalizing l with
  | nil => exact ⟨l, rfl, hl, fun v => Iff.rfl, Nat.le_refl _⟩
  | cons o ops ih =>
    have ho' := List.forall_mem_cons.mp ho
    have step : ∃ r, o.run l = .ok r ∧ IsSet r ∧ (∀ v, Covered r v ↔
        match o with | .add i => Covered l v ∨ Mem i v | .remove i => Covered l v ∧ ¬ Mem i v) ∧
        r.length ≤ l.length + 1 := by
      cases o with
      | add i => exact c118_add hl ho'.1
      | remove i => exact c118_remove hl ho'.1
    obtain ⟨r, h1, h2, h3, h4⟩ := step
    obtain ⟨s, g1, g2, g3, g4⟩ := ih ho'.2 h2
    refine ⟨s, ?_, g2, fun v => ?_, ?_⟩
    · show ((do runSet ops (← o.run l)) : Except Fault _) = _
      rw [h1]; exact g1
    · rw [g3 v, kept v ops _ _ ((look h2 v).trans (h3 v))]
      cases o with
      | add i => exact kept v ops _ _ (or_congr_left (look hl v).symm)
      | remove i => exact kept v ops _ _ (and_congr_left' (look hl v).symm)
    · rw [List.length_cons]; omega

/-- **C118 (one form).** On densely ordered types the intervals kept are determined by the values: histories that leave the
same values leave the same intervals, in some order. -/
theorem c118_one_form [DenselyOrdered T] (hl : IsSet l) (hm : IsSet m) (h : ∀ v, Covered l v ↔ Covered m v) :
    l.Perm m := by
  have sub : ∀ {l m : List (Interval T)}, IsSet l → IsSet m → (∀ v, Covered l v ↔ Covered m v) → ∀ i ∈ l, i ∈ m := by
    intro l m hl hm h i hi
    obtain ⟨v, hv⟩ := hl.value hi
    obtain ⟨j, hj, hjv⟩ := (h v).mp ⟨i, hi, hv⟩
    have h1 : ∀ w, Mem i w → Mem j w := fun w hw => hm.holds (fun v hv => (h v).mp ⟨i, hi, hv⟩) hj hv hjv hw
    have h2 : ∀ w, Mem j w → Mem i w := fun w hw => hl.holds (fun v hv => (h v).mpr ⟨j, hj, hv⟩) hi hjv hv hw
    have := (c43_eq_iff_same_points (hl.obt i hi) (hm.obt j hj)).2 inferInstance fun w => ⟨h1 w, h2 w⟩
    rw [beq_iff_eq.mp this]
    exact hj
  rw [List.perm_ext_iff_of_nodup (hl.merged.nodup hl.obt) (hm.merged.nodup hm.obt)]
  exact fun i => ⟨sub hl hm h i, sub hm hl (fun v => (h v).symm) i⟩

/-- **C118 (fewest).** On densely ordered types no collection of intervals with the same values, merged or not, has fewer
intervals. -/
theorem c118_fewest [DenselyOrdered T] (hl : IsSet l) (h : ∀ v, Covered l v ↔ Covered m v) : l.length ≤ m.length := by
  have : ∀ i ∈ l, ∃ j ∈ m, ∃ v, Mem i v ∧ Mem j v := by
    intro i hi
    obtain ⟨v, hv⟩ := hl.value hi
    obtain ⟨j, hj, hjv⟩ := (h v).mp ⟨i, hi, hv⟩
    exact ⟨j, hj, v, hv, hjv⟩
  choose! f hf v hv using this
  have inj : ∀ i ∈ l, ∀ j ∈ l, f i = f j → i = j := by
    intro i hi j hj e
    have h1 := hl.holds (fun w hw => (h w).mpr ⟨f i, hf i hi, hw⟩) hi (hv i hi).2 (hv i hi).1 (w := v j hj)
      (e ▸ (hv j hj).2)
    exact hl.one hi hj h1 (hv j hj).1
  have nd : (l.map f).Nodup := (List.nodup_map_iff_inj_on (hl.merged.nodup hl.obt)).mpr inj
  have := (nd.subperm fun j hj => by
    obtain ⟨i, hi, rfl⟩ := List.mem_map.mp hj
    exact hf i hi : (l.map f).Subperm m).length_le
  rwa [List.length_map] at this

end

/-- `[1, 5]`, `(8, 9]` is such a set -/
theorem pieces_set : IsSet pieces := by
  refine ⟨fun i hi => obtainable_of_wf ?_, by decide, by decide⟩
  simp only [pieces, List.mem_cons, List.not_mem_nil, or_false] at hi
  rcases hi with rfl | rfl <;> exact Or.inl (by decide)

/-- `[2, 4)` -/
abbrev hole : Interval Rat := ⟨some ⟨⟨⟨2, true⟩⟩, ⟨⟨4, false⟩⟩⟩⟩
/-- `(5, 8]` -/
abbrev gap : Interval Rat := ⟨some ⟨⟨⟨5, false⟩⟩, ⟨⟨8, true⟩⟩⟩⟩
theorem hole_ok : Obtainable hole := obtainable_of_wf (Or.inl (by decide))
theorem gap_ok : Obtainable gap := obtainable_of_wf (Or.inl (by decide))

/-- `(5, 8]` closes the gap: `[1, 9]` is left -/
example : IsSet pieces ∧ Obtainable gap ∧
    (addTo gap pieces).toOption = some [⟨some ⟨⟨⟨1, true⟩⟩, ⟨⟨9, true⟩⟩⟩⟩] :=
  ⟨pieces_set, gap_ok, by decide⟩
/-- without `[2, 4)` the set is `[1, 2)`, `[4, 5]`, `(8, 9]` -/
example : IsSet pieces ∧ Obtainable hole ∧
    (removeFrom hole pieces).toOption = some [⟨some ⟨⟨⟨1, true⟩⟩, ⟨⟨2, false⟩⟩⟩⟩, ⟨some ⟨⟨⟨4, true⟩⟩, ⟨⟨5, true⟩⟩⟩⟩,
      ⟨some ⟨⟨⟨8, false⟩⟩, ⟨⟨9, true⟩⟩⟩⟩] :=
  ⟨pieces_set, hole_ok, by decide⟩
/-- the value 3 is removed and comes back -/
example : (∀ o ∈ [SetOp.remove hole, .add gap, .add (Interval.single 3)], Obtainable o.arg) ∧ IsSet pieces ∧
    ((runSet [.remove hole, .add gap, .add (Interval.single 3)] pieces).toOption.map fun r =>
      (lookup 2 r, lookup 3 r, lookup 4 r, lookup 6 r, r.length)) = some (false, true, true, true, 3) := by
  refine ⟨fun o ho => ?_, pieces_set, by decide⟩
  simp only [List.mem_cons, List.not_mem_nil, or_false] at ho
  rcases ho with rfl | rfl | rfl
  · exact hole_ok
  · exact gap_ok
  · exact .single 3
/-- the two orders of adding give the same intervals in different orders -/
example : IsSet pieces ∧ IsSet pieces.reverse ∧ (∀ v, Covered pieces v ↔ Covered pieces.reverse v) ∧
    pieces ≠ pieces.reverse ∧ (∀ v, Covered pieces v ↔ Covered pile v) ∧ pieces.length < pile.length := by
  refine ⟨pieces_set, ⟨fun i hi => pieces_set.obt i (List.mem_reverse.mp hi), by decide, by decide⟩,
    fun v => by simp [Covered], by decide, fun v => ?_, by decide⟩
  obtain ⟨r, h1, h2, _⟩ := c92_sweep pile_ok pile_sorted
  rw [pile_swept] at h1
  cases h1
  exact (c92_points pile_ok h2).2.1 v
/-- On the integers `[1, 2]` and `[3, 4]` cannot be merged, and have the same values as `[1, 4]`: density is needed. -/
example : ∃ l m : List (Interval Int), IsSet l ∧ IsSet m ∧ (∀ v, Covered l v ↔ Covered m v) ∧ ¬ l.Perm m ∧
    m.length < l.length := by
  have ok : ∀ l u : Int, l < u → Obtainable (⟨some ⟨⟨⟨l, true⟩⟩, ⟨⟨u, true⟩⟩⟩⟩ : Interval Int) :=
    fun l u h => obtainable_of_wf (Or.inl h)
  refine ⟨[⟨some ⟨⟨⟨1, true⟩⟩, ⟨⟨2, true⟩⟩⟩⟩, ⟨some ⟨⟨⟨3, true⟩⟩, ⟨⟨4, true⟩⟩⟩⟩], [⟨some ⟨⟨⟨1, true⟩⟩, ⟨⟨4, true⟩⟩⟩⟩],
    ⟨fun i hi => ?_, by decide, by decide⟩, ⟨fun i hi => ?_, by decide, by decide⟩, fun v => ?_, by decide, by decide⟩
  · simp only [List.mem_cons, List.not_mem_nil, or_false] at hi
    rcases hi with rfl | rfl <;> exact ok _ _ (by decide)
  · cases List.mem_singleton.mp hi
    exact ok _ _ (by decide)
  · simp only [Covered, List.mem_cons, List.not_mem_nil, or_false, exists_eq_or_imp, exists_eq_left]
    rw [show (⟨some ⟨⟨⟨1, true⟩⟩, ⟨⟨2, true⟩⟩⟩⟩ : Interval Int) = iv 1 true 2 true from rfl,
      show (⟨some ⟨⟨⟨3, true⟩⟩, ⟨⟨4, true⟩⟩⟩⟩ : Interval Int) = iv 3 true 4 true from rfl,
      show (⟨some ⟨⟨⟨1, true⟩⟩, ⟨⟨4, true⟩⟩⟩⟩ : Interval Int) = iv 1 true 4 true from rfl, mem_mk, mem_mk, mem_mk]
    simp only [true_and]
    omega
/-- A client that keeps empty intervals finds every value: `c118_history` needs `IsSet`. -/
example (v : Rat) : lookup v [Interval.empty] = true ∧ ¬ Covered [Interval.empty] v := by
  refine ⟨rfl, ?_⟩
  rintro ⟨i, hi, hv⟩
  cases List.mem_singleton.mp hi
  exact hv

end Itv
