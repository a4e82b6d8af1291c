import Verif.Itv.SpecFold
import Verif.Itv.PropsAlgebra
import Verif.Itv.Collect
import Mathlib.Data.List.Induction
/-!
# Lemmas on the intersection and span of a collection
-/

open Rust
namespace Itv

section
variable {T : Type} [LinearOrder T] {a b c i : Interval T} {rest : List (Interval T)}

/-- the intersection of two intervals, with all that is known of it -/
theorem meet_two (ha : Obtainable a) (hb : Obtainable b) :
    ∃ i, Interval.intoIntersection a b = .ok i ∧ Interval.intersection b a = (.ok (), i) ∧ Obtainable i ∧
      cuts i = cutMeet (cuts a) (cuts b) := by
  obtain ⟨i, h1, h2, _, _⟩ := c26_intersection ha hb
  obtain ⟨j, h3, _, h4⟩ := intoIntersection_cut ha.wf hb.wf
  rw [h1] at h3; cases h3
  exact ⟨i, h1, h2, .intoIntersection ha hb h1, h4⟩

theorem span_two (ha : Obtainable a) (hb : Obtainable b) :
    ∃ i, Interval.intoSpan a b = .ok i ∧ Interval.span b a = (.ok (), i) ∧ Obtainable i ∧
      cuts i = cutJoin (cuts a) (cuts b) := by
  obtain ⟨i, h1, h2, _⟩ := c29_least_enclosing ha hb
  obtain ⟨j, h3, _, h4⟩ := intoSpan_cut ha.wf hb.wf
  rw [h1] at h3; cases h3
  exact ⟨i, h1, h2, .intoSpan ha hb h1, h4⟩

/-- the intersection of a collection: its bounds are bounds of two of the intervals -/
theorem meetAll_ok (ha : Obtainable a) (hr : ∀ x ∈ rest, Obtainable x) :
    ∃ i, meetAll a rest = .ok i ∧ meetEach rest a = (.ok (), i) ∧ Obtainable i ∧
      (∀ x ∈ a :: rest, x.containsInterval i = true) ∧
      (cuts i = none → ∃ x ∈ a :: rest, ∃ y ∈ a :: rest, cutMeet (cuts x) (cuts y) = none) ∧
      ∀ p ∈ cuts i, (∃ x ∈ a :: rest, ∃ q, cuts x = some (p.1, q)) ∧ ∃ x ∈ a :: rest, ∃ q, cuts x = some (q, p.2) := by
  induction rest using List.reverseRecOn with
  | nil =>
    refine ⟨a, rfl, rfl, ha, ?_, fun h => ⟨a, List.mem_cons_self, a, List.mem_cons_self, by rw [h]; rfl⟩,
      fun p hp => ⟨⟨a, List.mem_cons_self, p.2, hp⟩, a, List.mem_cons_self, p.1, hp⟩⟩
    intro x hx
    rw [List.mem_singleton.mp hx]
    exact (c71_partial_order (a := a) (b := a) (c := a)).1
  | append_singleton rest b ih =>
    have hb := hr b (by simp)
    obtain ⟨j, j1, j2, j3, j4, j5, j6⟩ := ih (fun x hx => hr x (by simp [hx]))
    obtain ⟨i, i1, i2, i3, i4⟩ := meet_two j3 hb
    obtain ⟨i', e, g1, g2, _⟩ := c71_intersection_greatest j3 hb
    rw [i1] at e; cases e
    have sub : ∀ x ∈ a :: rest, x ∈ a :: (rest ++ [b]) := by
      intro x hx
      simp only [List.mem_cons, List.mem_append] at hx ⊢
      tauto
    have bin : b ∈ a :: (rest ++ [b]) := by simp
    have each : ∀ (l : List (Interval T)) (s s' : Interval T), meetEach l s = (.ok (), s') →
        meetEach (l ++ [b]) s = meetEach [b] s' := by
      intro l
      induction l with
      | nil => intro s s' h; cases h; rfl
      | cons x l ihl =>
        intro s s' h
        change (Interval.intersection x >>= fun _ => meetEach l) s = _ at h
        change (Interval.intersection x >>= fun _ => meetEach (l ++ [b])) s = _
        rw [M.bind_run] at h ⊢
        generalize Interval.intersection x s = q at h ⊢
        obtain ⟨r, s1⟩ := q
        cases r with
        | error f => cases h
        | ok u => exact ihl s1 s' h
    refine ⟨i, ?_, ?_, i3, ?_, ?_, ?_⟩
    · unfold meetAll at j1 ⊢
      rw [List.foldlM_append, j1]
      change Except.bind _ _ = _
      simp only [List.foldlM_cons, List.foldlM_nil, Except.bind]
      rw [i1]; rfl
    · rw [each rest a j j2]
      change (Interval.intersection b >>= fun _ => pure ()) j = _
      rw [M.bind_ok i2]; rfl
    · intro x hx
      simp only [List.mem_cons, List.mem_append, List.not_mem_nil, or_false] at hx
      rcases hx with rfl | hx | rfl
      · exact contains_trans (j4 _ List.mem_cons_self) g1
      · exact contains_trans (j4 _ (List.mem_cons_of_mem _ hx)) g1
      · exact g2
    · intro hn
      rw [i4] at hn
      rcases hj : cuts j with _ | ⟨p, q⟩
      · obtain ⟨x, hx, y, hy, h⟩ := j5 hj
        exact ⟨x, sub x hx, y, sub y hy, h⟩
      · rcases hc : cuts b with _ | ⟨l, u⟩
        · exact ⟨b, bin, b, bin, by rw [hc]; rfl⟩
        · have hpq := wf_cuts.mp j3.wf (p, q) hj
          have hlu := wf_cuts.mp hb.wf (l, u) hc
          obtain ⟨⟨x, hx, qx, ex⟩, y, hy, py, ey⟩ := j6 (p, q) hj
          rw [hj, hc, cutMeet_some] at hn
          split at hn
          · cases hn
          · next hlt =>
            simp only [max_lt_iff, lt_min_iff, not_and_or, not_lt] at hlt hpq hlu
            rcases hlt with (h | h) | (h | h)
            · exact absurd hpq (not_lt.mpr h)
            · refine ⟨y, sub y hy, b, bin, ?_⟩
              rw [ey, hc, cutMeet_some, if_neg]
              exact not_lt.mpr ((min_le_left _ _).trans (h.trans (le_max_right _ _)))
            · refine ⟨x, sub x hx, b, bin, ?_⟩
              rw [ex, hc, cutMeet_some, if_neg]
              exact not_lt.mpr ((min_le_right _ _).trans (h.trans (le_max_left _ _)))
            · exact absurd hlu (not_lt.mpr h)
    · intro r hp
      rw [i4] at hp
      rcases hj : cuts j with _ | ⟨p, q⟩ <;> rcases hc : cuts b with _ | ⟨l, u⟩ <;> rw [hj, hc] at hp
      · cases hp
      · cases hp
      · cases hp
      · obtain ⟨⟨x, hx, qx, ex⟩, y, hy, py, ey⟩ := j6 (p, q) hj
        rw [cutMeet_some] at hp
        split at hp
        · cases hp
          constructor
          · rcases max_choice p l with h | h
            · exact ⟨x, sub x hx, qx, by rw [ex, h]⟩
            · exact ⟨b, bin, u, by rw [hc, h]⟩
          · rcases min_choice q u with h | h
            · exact ⟨y, sub y hy, py, by rw [ey, h]⟩
            · exact ⟨b, bin, l, by rw [hc, h]⟩
        · cases hp

/-- the span of a collection: its bounds are bounds of two of the intervals -/
theorem spanAll_ok (ha : Obtainable a) (hr : ∀ x ∈ rest, Obtainable x) :
    ∃ i, spanAll a rest = .ok i ∧ spanEach rest a = (.ok (), i) ∧ Obtainable i ∧
      (∀ x ∈ a :: rest, i.containsInterval x = true) ∧
      (∀ c : Interval T, (∀ x ∈ a :: rest, c.containsInterval x = true) → c.containsInterval i = true) ∧
      ∀ p ∈ cuts i, (∃ x ∈ a :: rest, ∃ q, cuts x = some (p.1, q)) ∧ ∃ x ∈ a :: rest, ∃ q, cuts x = some (q, p.2) := by
  induction rest using List.reverseRecOn with
  | nil =>
    refine ⟨a, rfl, rfl, ha, ?_, fun c h => h a List.mem_cons_self,
      fun p hp => ⟨⟨a, List.mem_cons_self, p.2, hp⟩, a, List.mem_cons_self, p.1, hp⟩⟩
    intro x hx
    rw [List.mem_singleton.mp hx]
    exact (c71_partial_order (a := a) (b := a) (c := a)).1
  | append_singleton rest b ih =>
    have hb := hr b (by simp)
    obtain ⟨j, j1, j2, j3, j4, j5, j6⟩ := ih (fun x hx => hr x (by simp [hx]))
    obtain ⟨i, i1, i2, i3, i4⟩ := span_two j3 hb
    obtain ⟨i', e, _, g1, g2, g3⟩ := c29_least_enclosing j3 hb
    rw [i1] at e; cases e
    have sub : ∀ x ∈ a :: rest, x ∈ a :: (rest ++ [b]) := by
      intro x hx
      simp only [List.mem_cons, List.mem_append] at hx ⊢
      tauto
    have bin : b ∈ a :: (rest ++ [b]) := by simp
    have each : ∀ (l : List (Interval T)) (s s' : Interval T), spanEach l s = (.ok (), s') →
        spanEach (l ++ [b]) s = spanEach [b] s' := by
      intro l
      induction l with
      | nil => intro s s' h; cases h; rfl
      | cons x l ihl =>
        intro s s' h
        change (Interval.span x >>= fun _ => spanEach l) s = _ at h
        change (Interval.span x >>= fun _ => spanEach (l ++ [b])) s = _
        rw [M.bind_run] at h ⊢
        generalize Interval.span x s = q at h ⊢
        obtain ⟨r, s1⟩ := q
        cases r with
        | error f => cases h
        | ok u => exact ihl s1 s' h
    refine ⟨i, ?_, ?_, i3, ?_, ?_, ?_⟩
    · unfold spanAll at j1 ⊢
      rw [List.foldlM_append, j1]
      change Except.bind _ _ = _
      simp only [List.foldlM_cons, List.foldlM_nil, Except.bind]
      rw [i1]; rfl
    · rw [each rest a j j2]
      change (Interval.span b >>= fun _ => pure ()) j = _
      rw [M.bind_ok i2]; rfl
    · intro x hx
      simp only [List.mem_cons, List.mem_append, List.not_mem_nil, or_false] at hx
      rcases hx with rfl | hx | rfl
      · exact contains_trans g1 (j4 _ List.mem_cons_self)
      · exact contains_trans g1 (j4 _ (List.mem_cons_of_mem _ hx))
      · exact g2
    · exact fun c hc => g3 c (j5 c fun x hx => hc x (sub x hx)) (hc b bin)
    · intro r hp
      rw [i4] at hp
      rcases hj : cuts j with _ | ⟨p, q⟩ <;> rcases hc : cuts b with _ | ⟨l, u⟩ <;> rw [hj, hc] at hp
      · cases hp
      · cases hp
        exact ⟨⟨b, bin, u, hc⟩, b, bin, l, hc⟩
      · cases hp
        obtain ⟨⟨x, hx, qx, ex⟩, y, hy, py, ey⟩ := j6 (p, q) hj
        exact ⟨⟨x, sub x hx, qx, ex⟩, y, sub y hy, py, ey⟩
      · obtain ⟨⟨x, hx, qx, ex⟩, y, hy, py, ey⟩ := j6 (p, q) hj
        rw [cutJoin_some] at hp
        cases hp
        constructor
        · rcases min_choice p l with h | h
          · exact ⟨x, sub x hx, qx, by rw [ex, h]⟩
          · exact ⟨b, bin, u, by rw [hc, h]⟩
        · rcases max_choice q u with h | h
          · exact ⟨y, sub y hy, py, by rw [ey, h]⟩
          · exact ⟨b, bin, l, by rw [hc, h]⟩

end
end Itv
