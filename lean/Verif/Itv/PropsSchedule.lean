import Verif.Itv.LemmasSchedule
import Verif.Itv.PropsFold
import Verif.Itv.PropsCollect
import Mathlib.Algebra.Order.Field.Rat
/-!
# C114: scheduling intervals
-/

open Rust
namespace Itv

section
variable {T : Type} [LinearOrder T] {l : List (Interval T)}

/-- **C114 (choosing).** Going through intervals sorted by upper bounds and taking each that does not intersect the one
taken last chooses intervals no two of which intersect, and no other such choice from the collection is larger. -/
theorem c114_schedule (hl : ∀ i ∈ l, Obtainable i) (hs : SortedByUpper l) :
    (schedule l).Sublist l ∧ Apart (schedule l) ∧ ∀ m, List.Subperm m l → Apart m → m.length ≤ (schedule l).length := by
  have hr : ∀ i ∈ l, Real i := fun i hi => real_of (hl i hi) (hs.1 i hi)
  have hu := upper_sorted hs
  refine ⟨?_, ?_, ?_⟩
  · cases l with
    | nil => exact List.Sublist.refl _
    | cons x l => exact (scheduleFrom_sublist x l).cons_cons x
  · cases l with
    | nil => exact List.Pairwise.nil
    | cons x l => exact scheduleFrom_apart (hr x List.mem_cons_self) (fun i hi => hr i (List.mem_cons_of_mem _ hi)) hu
  · rintro m ⟨m', hp, hsub⟩ ha
    rw [← hp.length_eq]
    exact schedule_best hr hu hsub (apart_perm hp.symm ha)

/-- **C114 (why no choice is larger).** The collection falls into as many groups as intervals are chosen, in each of which
any two intervals intersect. -/
theorem c114_groups (hl : ∀ i ∈ l, Obtainable i) (hs : SortedByUpper l) :
    ∃ groups : List (List (Interval T)), groups.flatten = l ∧ groups.length = (schedule l).length ∧
      ∀ g ∈ groups, g ≠ [] ∧ Clash g := by
  have hr : ∀ i ∈ l, Real i := fun i hi => real_of (hl i hi) (hs.1 i hi)
  cases l with
  | nil => exact ⟨[], rfl, rfl, fun g hg => by cases hg⟩
  | cons x l =>
    have hx := hr x List.mem_cons_self
    refine ⟨skipped x [x] l, skipped_flatten x [x] l, skipped_length x [x] l, ?_⟩
    refine skipped_clash hx (fun i hi => hr i (List.mem_cons_of_mem _ hi)) (upper_sorted hs) (List.cons_ne_nil _ _)
      (fun i hi => ?_) (List.pairwise_singleton _ _) (fun i hi => ?_)
    · rw [List.mem_singleton.mp hi]; exact ⟨hx.2, le_rfl⟩
    · rw [List.mem_singleton.mp hi]; exact hx

/-- intervals of which any two intersect have a common value -/
theorem clash_common [DenselyOrdered T] {g : List (Interval T)} (hg : g ≠ []) (ho : ∀ i ∈ g, Obtainable i)
    (hn : ∀ i ∈ g, i.isEmpty = false) (hc : Clash g) : ∃ v, ∀ i ∈ g, Mem i v := by
  cases g with
  | nil => exact absurd rfl hg
  | cons a rest =>
    refine (c104_common_value_dense (ho a List.mem_cons_self) fun x hx => ho x (List.mem_cons_of_mem _ hx)).mpr ?_
    intro x hx y hy
    refine ((c27_intersects_partial (ho x hx) (ho y hy)).2.1 inferInstance (hn x hx) (hn y hy)).mp ?_
    have : Std.Symm fun a b : Interval T => a.intersects b = true := ⟨fun a b h => by rw [int_comm]; exact h⟩
    refine List.Pairwise.forall_of_forall (R := fun a b : Interval T => a.intersects b = true) (fun i hi => ?_) hc hx hy
    have := real_of (ho i hi) (hn i hi)
    exact (int_iff this this).mpr ⟨this.2, this.2⟩

/-- **C114 (values).** On a densely ordered type the smallest number of values that meet every interval is the number of
intervals chosen. -/
theorem c114_values_dense [DenselyOrdered T] (hl : ∀ i ∈ l, Obtainable i) (hs : SortedByUpper l) :
    (∃ vs : List T, vs.length = (schedule l).length ∧ ∀ i ∈ l, ∃ v ∈ vs, Mem i v) ∧
    ∀ vs : List T, (∀ i ∈ l, ∃ v ∈ vs, Mem i v) → (schedule l).length ≤ vs.length := by
  obtain ⟨h1, h2, _⟩ := c114_schedule hl hs
  obtain ⟨groups, g1, g2, g3⟩ := c114_groups hl hs
  constructor
  · rw [← g2]
    have hmem : ∀ g ∈ groups, ∀ i ∈ g, i ∈ l := fun g hg i hi => by
      rw [← g1]; exact List.mem_flatten.mpr ⟨g, hg, hi⟩
    have : ∀ gs : List (List (Interval T)), (∀ g ∈ gs, g ∈ groups) →
        ∃ vs : List T, vs.length = gs.length ∧ ∀ g ∈ gs, ∀ i ∈ g, ∃ v ∈ vs, Mem i v := by
      intro gs
      induction gs with
      | nil => exact fun _ => ⟨[], rfl, fun g hg => by cases hg⟩
      | cons g gs ih =>
        intro hgs
        have hg := hgs g List.mem_cons_self
        obtain ⟨vs, e1, e2⟩ := ih fun g h => hgs g (List.mem_cons_of_mem _ h)
        obtain ⟨v, hv⟩ := clash_common (g3 g hg).1 (fun i hi => hl i (hmem g hg i hi))
          (fun i hi => hs.1 i (hmem g hg i hi)) (g3 g hg).2
        refine ⟨v :: vs, congrArg (· + 1) e1, fun g' hg' i hi => ?_⟩
        rcases List.mem_cons.mp hg' with rfl | hg'
        · exact ⟨v, List.mem_cons_self, hv i hi⟩
        · obtain ⟨w, hw, hm⟩ := e2 g' hg' i hi
          exact ⟨w, List.mem_cons_of_mem _ hw, hm⟩
    obtain ⟨vs, e1, e2⟩ := this groups fun g h => h
    refine ⟨vs, e1, fun i hi => ?_⟩
    rw [← g1] at hi
    obtain ⟨g, hg, hi⟩ := List.mem_flatten.mp hi
    exact e2 g hg i hi
  · intro vs hv
    -- different intervals of the choice are met by different values
    have : ∀ (m : List (Interval T)) (vs : List T), (∀ i ∈ m, Obtainable i) → Apart m → (∀ i ∈ m, ∃ v ∈ vs, Mem i v) →
        m.length ≤ vs.length := by
      intro m
      induction m with
      | nil => intro vs _ _ _; exact Nat.zero_le _
      | cons x m ih =>
        intro vs ho ha hm
        obtain ⟨v, hv, hx⟩ := hm x List.mem_cons_self
        obtain ⟨p, q, rfl⟩ := List.append_of_mem hv
        have ha' := List.pairwise_cons.mp ha
        have := ih (p ++ q) (fun i hi => ho i (List.mem_cons_of_mem _ hi)) ha'.2 fun i hi => by
          obtain ⟨w, hw, hi'⟩ := hm i (List.mem_cons_of_mem _ hi)
          refine ⟨w, ?_, hi'⟩
          rcases List.mem_append.mp hw with h | h
          · exact List.mem_append_left _ h
          · rcases List.mem_cons.mp h with rfl | h
            · exact absurd ⟨hx, hi'⟩ ((c27_intersects_partial (ho x List.mem_cons_self)
                (ho i (List.mem_cons_of_mem _ hi))).1 (ha'.1 i hi) w)
            · exact List.mem_append_right _ h
        simp only [List.length_append, List.length_cons] at this ⊢
        omega
    exact this _ vs (fun i hi => hl i (h1.subset hi)) h2 fun i hi => hv i (h1.subset hi)

/-- **C114 (rooms).** Going through intervals sorted by lower bounds and putting each into the first room whose last
interval it does not intersect, or into a new room, distributes all intervals; no two intervals in a room intersect; and
there are exactly as many rooms as intervals of the collection of which any two intersect, so that no distribution needs
fewer rooms. -/
theorem c114_rooms (hl : ∀ i ∈ l, Obtainable i) (hs : SortedByLower l) :
    (rooms l).flatten.Perm l ∧ (∀ r ∈ rooms l, r ≠ [] ∧ Apart r) ∧
    (∃ c, List.Subperm c l ∧ Clash c ∧ c.length = (rooms l).length) ∧
    (∀ c, List.Subperm c l → Clash c → c.length ≤ (rooms l).length) ∧
    ∀ rs : List (List (Interval T)), rs.flatten.Perm l → (∀ r ∈ rs, Apart r) → (rooms l).length ≤ rs.length := by
  have hr : ∀ i ∈ l, Real i := fun i hi => real_of (hl i hi) (hs.1 i hi)
  obtain ⟨b, hp, c, c1, c2, c3⟩ := fold_ok hr (lower_sorted hs) (rs := []) (c := [])
    ⟨(fun r h => by cases h), (fun r h => by cases h), (fun r h => by cases h)⟩ (fun r h => by cases h)
    List.nil_subperm List.Pairwise.nil rfl
  have count : ∀ (c : List (Interval T)) (rs : List (List (Interval T))), List.Subperm c l → Clash c → rs.flatten.Perm l →
      (∀ r ∈ rs, Apart r) → c.length ≤ rs.length := by
    intro c rs hc hcl hp ha
    obtain ⟨c', e1, e2⟩ := hc.trans hp.symm.subperm
    rw [← e1.length_eq]
    exact pigeon e2 (clash_perm e1.symm hcl) ha
  have hp : (rooms l).flatten.Perm l := hp
  refine ⟨hp, b.apart, ⟨c, c1, c2, c3⟩, fun c hc hcl => count c _ hc hcl hp fun r hr => (b.apart r hr).2, ?_⟩
  intro rs h1 h2
  have := count c rs c1 c2 h1 h2
  rw [c3] at this
  exact this

/-- **C114 (depth).** On a densely ordered type the number of rooms is the largest number of intervals with a common
value. -/
theorem c114_depth_dense [DenselyOrdered T] (hl : ∀ i ∈ l, Obtainable i) (hs : SortedByLower l) :
    (l ≠ [] → ∃ c v, List.Subperm c l ∧ c.length = (rooms l).length ∧ ∀ i ∈ c, Mem i v) ∧
    ∀ c v, List.Subperm c l → (∀ i ∈ c, Mem i v) → c.length ≤ (rooms l).length := by
  obtain ⟨h1, h2, ⟨c, c1, c2, c3⟩, h4, _⟩ := c114_rooms hl hs
  constructor
  · intro hn
    have hc : c ≠ [] := by
      rintro rfl
      have : rooms l = [] := List.length_eq_zero_iff.mp c3.symm
      rw [this] at h1
      exact hn h1.symm.eq_nil
    obtain ⟨v, hv⟩ := clash_common hc (fun i hi => hl i (c1.subset hi)) (fun i hi => hs.1 i (c1.subset hi)) c2
    exact ⟨c, v, c1, c3, hv⟩
  · intro c v hc hv
    refine h4 c hc (List.pairwise_of_forall_mem_list fun a ha b hb => ?_)
    by_contra hn
    exact (c27_intersects_partial (hl a (hc.subset ha)) (hl b (hc.subset hb))).1 (by simpa using hn) v ⟨hv a ha, hv b hb⟩

end

/-- `[0, 2]`, `[1, 3)`, `(2, 5]`, `[3, 6)`, `[6, 6]`, sorted by lower and by upper bounds -/
def jobs : List (Interval Rat) :=
  [⟨some ⟨⟨⟨0, true⟩⟩, ⟨⟨2, true⟩⟩⟩⟩, ⟨some ⟨⟨⟨1, true⟩⟩, ⟨⟨3, false⟩⟩⟩⟩, ⟨some ⟨⟨⟨2, false⟩⟩, ⟨⟨5, true⟩⟩⟩⟩,
   ⟨some ⟨⟨⟨3, true⟩⟩, ⟨⟨6, false⟩⟩⟩⟩, Interval.single 6]

theorem jobs_ok : ∀ i ∈ jobs, Obtainable i := by
  intro i hi
  refine obtainable_of_wf ?_
  simp only [jobs, List.mem_cons, List.not_mem_nil, or_false] at hi
  rcases hi with rfl | rfl | rfl | rfl | rfl
  · exact Or.inl (by decide)
  · exact Or.inl (by decide)
  · exact Or.inl (by decide)
  · exact Or.inl (by decide)
  · exact Or.inr ⟨rfl, rfl, rfl⟩

theorem jobs_upper : SortedByUpper jobs := by
  refine ⟨by decide, ?_⟩
  simp only [jobs, List.pairwise_cons, List.mem_cons, List.not_mem_nil, or_false, forall_eq_or_imp, forall_eq]
  refine ⟨⟨?_, ?_, ?_, ?_⟩, ⟨?_, ?_, ?_⟩, ⟨?_, ?_⟩, ?_, by simp⟩ <;>
  · rintro lo up lo' up' h h'
    cases h; cases h'; decide

theorem jobs_lower : SortedByLower jobs := by
  refine ⟨by decide, ?_⟩
  simp only [jobs, List.pairwise_cons, List.mem_cons, List.not_mem_nil, or_false, forall_eq_or_imp, forall_eq]
  refine ⟨⟨?_, ?_, ?_, ?_⟩, ⟨?_, ?_, ?_⟩, ⟨?_, ?_⟩, ?_, by simp⟩ <;>
  · rintro lo up lo' up' h h'
    cases h; cases h'; decide

-- `[0, 2]` and `(2, 5]` have the bound 2 in common but no value, `(2, 5]` and `[3, 6)` intersect
example : (∀ i ∈ jobs, Obtainable i) ∧ SortedByUpper jobs ∧
    schedule jobs = [⟨some ⟨⟨⟨0, true⟩⟩, ⟨⟨2, true⟩⟩⟩⟩, ⟨some ⟨⟨⟨2, false⟩⟩, ⟨⟨5, true⟩⟩⟩⟩, Interval.single 6] :=
  ⟨jobs_ok, jobs_upper, by decide +kernel⟩
example : (∀ i ∈ jobs, Obtainable i) ∧ SortedByLower jobs ∧
    rooms jobs = [[Interval.single 6, ⟨some ⟨⟨⟨2, false⟩⟩, ⟨⟨5, true⟩⟩⟩⟩, ⟨some ⟨⟨⟨0, true⟩⟩, ⟨⟨2, true⟩⟩⟩⟩],
      [⟨some ⟨⟨⟨3, true⟩⟩, ⟨⟨6, false⟩⟩⟩⟩, ⟨some ⟨⟨⟨1, true⟩⟩, ⟨⟨3, false⟩⟩⟩⟩]] :=
  ⟨jobs_ok, jobs_lower, by decide +kernel⟩

end Itv
