import Verif.DS.Local
/-!
# The disjoint set property C78: what one `union` changes

Stated with the answers of `in_union` and `contains` before and after, not with the abstract state.
-/

open Rust
namespace DS

section
variable {T : Type} [DecidableEq T] [Cfg]

/-- C78: `union(x, y)` returns and joins exactly the groups of `x` and `y`: afterwards `u` and `v` are together
iff they were before, or one was with `x` (or is `x`) and the other with `y` (or is `y`), or both are the same
one of `x` and `y`. In particular all pairs outside the two groups are answered as before. `contains` changes
only for `x` and `y`. -/
theorem c78_union_is_local {k : Nat} {st : Start T} {ops : List (Op T)} {s : DSet T} {a : Abs T}
    (h : Reached k st ops s a) (x y : T) (hm : (a.step (.union x y false false)).card ≤ usizeMax) :
    ∃ s', DSet.union k x y false false s = (.ok (), s') ∧
      (∀ u v, Together k s' u v ↔ Together k s u v ∨
        ((u = x ∨ Together k s u x) ∧ (v = y ∨ Together k s y v)) ∨
        ((u = y ∨ Together k s u y) ∧ (v = x ∨ Together k s x v)) ∨
        (u = v ∧ (u = x ∨ u = y))) ∧
      ∀ u, Has s' u ↔ Has s u ∨ u = x ∨ u = y := by
  obtain ⟨out, s', h1, _, h2⟩ := step_ok (stack := k) h.rel (.union x y false false) hm
    (lt_two_pow hm h.stack_ge)
  have h3 : Reached k st (ops ++ [.union x y false false]) s' (a.run [.union x y false false]) := by
    have := h.after [.union x y false false] (by
      intro pre hp
      rcases List.prefix_cons_iff.mp hp with rfl | ⟨t, rfl, ht⟩
      · exact h.small_now
      · rw [List.prefix_nil.mp ht]; exact hm)
    simpa only [run, h1] using this
  have h4 : DSet.union k x y false false s = (.ok (), s') := by
    simp only [step, wrap] at h1
    rcases hu : DSet.union k x y false false s with ⟨r, s1⟩
    rw [hu] at h1
    cases r with
    | ok r => cases h1; rfl
    | error e => cases h1; cases h2
  have hsup := h.rel.pairs
  have hs : ∀ {u v : T}, Conn a.pairs u v → u = v ∨ (u ∈ a.elems ∧ v ∈ a.elems) := fun hc =>
    conn_support hsup hc
  have hsame : ∀ u v, (u = v ∨ a.Same u v) ↔ Conn a.pairs u v := by
    intro u v
    constructor
    · rintro (rfl | h)
      · exact .refl _
      · exact h.2.2
    · intro hc
      exact (hs hc).imp id fun h => ⟨h.1, h.2, hc⟩
  refine ⟨s', h4, fun u v => ?_, fun u => ?_⟩
  · rw [h3.together]
    simp only [h.together]
    have e1 : (u = x ∨ a.Same u x) ↔ Conn a.pairs u x := hsame u x
    have e2 : (v = y ∨ a.Same y v) ↔ Conn a.pairs y v := by rw [← hsame y v, eq_comm]
    have e3 : (u = y ∨ a.Same u y) ↔ Conn a.pairs u y := hsame u y
    have e4 : (v = x ∨ a.Same x v) ↔ Conn a.pairs x v := by rw [← hsame x v, eq_comm]
    rw [e1, e2, e3, e4]
    show (u ∈ y :: x :: a.elems ∧ v ∈ y :: x :: a.elems ∧ Conn ((x, y) :: a.pairs) u v) ↔ _
    rw [conn_cons]
    simp only [List.mem_cons]
    constructor
    · rintro ⟨hu, hv, hc | hc | hc⟩
      · rcases hs hc with rfl | ⟨h5, h6⟩
        · rcases hu with hu | hu | hu
          · exact .inr (.inr (.inr ⟨rfl, .inr hu⟩))
          · exact .inr (.inr (.inr ⟨rfl, .inl hu⟩))
          · exact .inl ⟨hu, hu, hc⟩
        · exact .inl ⟨h5, h6, hc⟩
      · exact .inr (.inl hc)
      · exact .inr (.inr (.inl hc))
    · rintro (hc | ⟨c1, c2⟩ | ⟨c1, c2⟩ | ⟨rfl, hu⟩)
      · exact ⟨.inr (.inr hc.1), .inr (.inr hc.2.1), .inl hc.2.2⟩
      · refine ⟨?_, ?_, .inr (.inl ⟨c1, c2⟩)⟩
        · rcases hs c1 with h | h
          · exact .inr (.inl h)
          · exact .inr (.inr h.1)
        · rcases hs c2 with h | h
          · exact .inl h.symm
          · exact .inr (.inr h.2)
      · refine ⟨?_, ?_, .inr (.inr ⟨c1, c2⟩)⟩
        · rcases hs c1 with h | h
          · exact .inl h
          · exact .inr (.inr h.1)
        · rcases hs c2 with h | h
          · exact .inr (.inl h.symm)
          · exact .inr (.inr h.2)
      · refine ⟨?_, ?_, .inl (.refl _)⟩ <;> rcases hu with h | h <;> simp [h]
  · rw [h3.has, h.has]
    show u ∈ y :: x :: a.elems ↔ _
    simp only [List.mem_cons]
    tauto

/-- C78: once two elements are together, or an element is contained, it stays so through any later calls other
than `clear`, panicking ones included. -/
theorem c78_stays_joined {k : Nat} {st : Start T} {ops : List (Op T)} {s : DSet T} {a : Abs T}
    (h : Reached k st ops s a) (later : List (Op T)) (hc : ∀ op ∈ later, op ≠ .clear)
    (hm : ∀ pre, pre <+: later → (a.run pre).card ≤ usizeMax) :
    (∀ x y, Together k s x y → Together k (run k later s).2 x y) ∧
    ∀ x, Has s x → Has (run k later s).2 x := by
  have h2 := h.after later hm
  obtain ⟨g1, g2⟩ := abs_grows later hc a
  refine ⟨fun x y => ?_, fun x => ?_⟩
  · rw [h.together, h2.together]
    exact fun hs => ⟨g1 _ hs.1, g1 _ hs.2.1, conn_mono g2 hs.2.2⟩
  · rw [h.has, h2.has]
    exact g1 x

/-- C78: `make_set`, `extend` and all queries never join existing groups: if `x` and `y` are different and not
together, then no calls other than `union` make them so. -/
theorem c78_only_union_joins {k : Nat} {st : Start T} {ops : List (Op T)} {s : DSet T} {a : Abs T}
    (h : Reached k st ops s a) (later : List (Op T)) (hc : ∀ op ∈ later, ∀ u v up vp, op ≠ .union u v up vp)
    (hm : ∀ pre, pre <+: later → (a.run pre).card ≤ usizeMax) (x y : T) (hxy : x ≠ y)
    (hn : ¬ Together k s x y) : ¬ Together k (run k later s).2 x y := by
  have h2 := h.after later hm
  rw [h2.together]
  rw [h.together] at hn
  have key : ∀ (later : List (Op T)) (a : Abs T), (∀ op ∈ later, ∀ u v up vp, op ≠ .union u v up vp) →
      ∀ p ∈ (a.run later).pairs, p ∈ a.pairs := by
    intro later
    induction later with
    | nil => exact fun _ _ _ h => h
    | cons op ops ih =>
      intro a ho p hp
      have := ih (a.step op) (fun o hx => ho o (List.mem_cons_of_mem _ hx)) p hp
      have h0 := ho op List.mem_cons_self
      cases op with
      | makeSet x kp => cases kp <;> exact this
      | union u v up vp => exact absurd rfl (h0 u v up vp)
      | clear => cases this
      | extend n c items q => cases c <;> exact this
      | extendRef n c items q => cases c <;> exact this
      | inUnion | contains | len | isEmpty | reserve | iterate => exact this
  rintro ⟨_, _, hc3⟩
  have hcon := conn_mono (key later a hc) hc3
  rcases conn_support h.rel.pairs hcon with h4 | h4
  · exact hxy h4
  · exact hn ⟨h4.1, h4.2, hcon⟩

end

open Demo in
example : Reached 64 (.fromIter [7, 3]) demoOps demoEnd (Start.abs (.fromIter [7, 3]) |>.run demoOps) ∧
    Together 64 demoEnd 1 4 ∧ ¬ Together 64 demoEnd 1 7 ∧
    Together 64 (DSet.union 64 2 7 false false demoEnd).2 1 7 ∧
    ¬ Together 64 (DSet.union 64 2 7 false false demoEnd).2 1 6 := by
  unfold Together
  refine ⟨demo_reached, by decide, by decide, by decide, by decide⟩

end DS
