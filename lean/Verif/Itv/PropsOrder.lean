import Verif.Itv.Props
import Mathlib.Data.List.Chain
/-!
# Property theorem C73: the comparisons of intervals compose
-/

open Rust
namespace Itv

section
variable {T : Type} [LinearOrder T] {a b c i : Interval T}

/-- C73: `<` is a strict order; `<=` composes with it and with itself, on either side. -/
theorem c73_strict_order (ha : Obtainable a) (hb : Obtainable b) (hc : Obtainable c) :
    a.lt a = false ∧ a.gt a = false ∧
    (a.lt b = true → b.lt c = true → a.lt c = true) ∧ (a.gt b = true → b.gt c = true → a.gt c = true) ∧
    (a.le b = true → b.lt c = true → a.lt c = true) ∧ (a.lt b = true → b.le c = true → a.lt c = true) ∧
    (a.ge b = true → b.gt c = true → a.gt c = true) ∧ (a.gt b = true → b.ge c = true → a.gt c = true) ∧
    (a.le b = true → b.le c = true → a.le c = true) ∧ (a.ge b = true → b.ge c = true → a.ge c = true) := by
  have key : ∀ {a b c : Interval T}, Obtainable a → Obtainable b → Obtainable c →
      (a.le b = true → b.lt c = true → a.lt c = true) ∧ (a.lt b = true → b.le c = true → a.lt c = true) ∧
      (a.le b = true → b.le c = true → a.le c = true) := by
    intro a b c ha hb hc
    have h2 := hb.wf
    rcases Interval.cases2 a with rfl | ⟨l, lc, u, uc, rfl⟩
    · exact ⟨fun h => (by cases h), fun h => (by cases h), fun h => (by cases h)⟩
    rcases Interval.cases2 b with rfl | ⟨l', lc', u', uc', rfl⟩
    · exact ⟨fun h => (by cases h), fun h => (by cases h), fun h => (by cases h)⟩
    rcases Interval.cases2 c with rfl | ⟨l'', lc'', u'', uc'', rfl⟩
    · exact ⟨fun _ h => (by cases h), fun _ h => (by cases h), fun _ h => (by cases h)⟩
    rw [wf_mk] at h2
    simp only [Interval.le_mk, Interval.lt_mk]
    refine ⟨?_, ?_, ?_⟩
    · cases lc' <;> cases uc' <;> grind
    · cases lc' <;> cases uc' <;> grind
    · cases lc' <;> cases uc' <;> grind
  have hab := c31_weak ha hb
  have hba := c31_weak hb ha
  have hbc := c31_weak hb hc
  have hcb := c31_weak hc hb
  have hca := c31_weak hc ha
  have hac := c31_weak ha hc
  have gab := (c30_strict ha hb).2.2.1
  have gbc := (c30_strict hb hc).2.2.1
  have gac := (c30_strict ha hc).2.2.1
  have gaa := (c30_strict ha ha).2.2.1
  have k1 := key ha hb hc
  have k2 := key hc hb ha
  have irr : a.lt a = false := by
    cases h : a.lt a with
    | false => rfl
    | true => exact absurd ⟨h, h⟩ (c30_strict ha ha).2.2.2.1
  rw [gaa, gab, gbc, gac, hab.2.2.2.2, hbc.2.2.2.2, hac.2.2.2.2]
  exact ⟨irr, irr, fun h h' => k1.1 (hab.2.2.1 h) h', fun h h' => k2.2.1 h' (hba.2.2.1 h), k1.1, k1.2.1,
    fun h h' => k2.2.1 h' h, fun h h' => k2.1 h' h, k1.2.2, fun h h' => k2.2.2 h' h⟩

/-- C73: a value between two intervals orders them. -/
theorem c73_through_value (ha : Obtainable a) (hb : Obtainable b) (v : T) :
    (a.leV v = true → b.gtV v = true → a.lt b = true) ∧
    (a.ltV v = true → b.geV v = true → a.lt b = true) ∧
    (a.leV v = true → b.geV v = true → a.le b = true) ∧
    (a.lt b = true → b.leV v = true → a.ltV v = true) ∧ (a.gt b = true → b.geV v = true → a.gtV v = true) ∧
    (a.le b = true → b.ltV v = true → a.ltV v = true) ∧ (a.ge b = true → b.gtV v = true → a.gtV v = true) ∧
    (∀ w, a.leV v = true → v < w → a.ltV w = true) ∧ (∀ w, a.geV v = true → w < v → a.gtV w = true) := by
  have h1 := ha.wf
  have h2 := hb.wf
  rcases Interval.cases2 a with rfl | ⟨l, lc, u, uc, rfl⟩
  · exact ⟨fun h => (by cases h), fun h => (by cases h), fun h => (by cases h), fun h => (by cases h),
      fun h => (by cases h), fun h => (by cases h), fun h => (by cases h), fun _ h => (by cases h),
      fun _ h => (by cases h)⟩
  rcases Interval.cases2 b with rfl | ⟨l', lc', u', uc', rfl⟩
  · refine ⟨fun _ h => (by cases h), fun _ h => (by cases h), fun _ h => (by cases h), fun h => (by cases h),
      fun h => (by cases h), fun h => (by cases h), fun h => (by cases h), ?_, ?_⟩
    · intro w; rw [Interval.ltV_mk, Interval.leV_mk]; grind
    · intro w; rw [Interval.gtV_mk, Interval.geV_mk]; grind
  rw [wf_mk] at h1 h2
  simp only [Interval.le_mk, Interval.lt_mk, Interval.ge_mk, Interval.gt_mk, Interval.ltV_mk, Interval.leV_mk,
    Interval.gtV_mk, Interval.geV_mk]
  refine ⟨?_, ?_, ?_, ?_, ?_, ?_, ?_, ?_, ?_⟩ <;> cases lc' <;> cases uc' <;> cases lc <;> cases uc <;> grind

/-- C73: a non-empty part of an interval compares like the whole. -/
theorem c73_parts (ha : Obtainable a) (hb : Obtainable b) (hc : Obtainable c)
    (hpart : a.containsInterval c = true) (hne : c.isEmpty = false) :
    (a.lt b = true → c.lt b = true) ∧ (a.gt b = true → c.gt b = true) ∧
    (a.le b = true → c.le b = true) ∧ (a.ge b = true → c.ge b = true) ∧
    (b.lt a = true → b.lt c = true) ∧ (b.gt a = true → b.gt c = true) ∧
    (b.le a = true → b.le c = true) ∧ (b.ge a = true → b.ge c = true) ∧
    (∀ v, (a.ltV v = true → c.ltV v = true) ∧ (a.gtV v = true → c.gtV v = true) ∧
      (a.leV v = true → c.leV v = true) ∧ (a.geV v = true → c.geV v = true)) := by
  rcases Interval.cases2 c with rfl | ⟨l'', lc'', u'', uc'', rfl⟩
  · cases hne
  rcases Interval.cases2 a with rfl | ⟨l, lc, u, uc, rfl⟩
  · cases hpart
  rw [Interval.containsInterval_mk] at hpart
  have hv : ∀ v, ((iv l lc u uc).ltV v = true → (iv l'' lc'' u'' uc'').ltV v = true) ∧
      ((iv l lc u uc).gtV v = true → (iv l'' lc'' u'' uc'').gtV v = true) ∧
      ((iv l lc u uc).leV v = true → (iv l'' lc'' u'' uc'').leV v = true) ∧
      ((iv l lc u uc).geV v = true → (iv l'' lc'' u'' uc'').geV v = true) := by
    intro v
    simp only [Interval.ltV_mk, Interval.leV_mk, Interval.gtV_mk, Interval.geV_mk]
    refine ⟨?_, ?_, ?_, ?_⟩ <;> cases lc'' <;> cases uc'' <;> cases lc <;> cases uc <;> grind
  rcases Interval.cases2 b with rfl | ⟨l', lc', u', uc', rfl⟩
  · exact ⟨fun h => (by cases h), fun h => (by cases h), fun h => (by cases h), fun h => (by cases h),
      fun h => (by cases h), fun h => (by cases h), fun h => (by cases h), fun h => (by cases h), hv⟩
  simp only [Interval.le_mk, Interval.lt_mk, Interval.ge_mk, Interval.gt_mk]
  refine ⟨?_, ?_, ?_, ?_, ?_, ?_, ?_, ?_, hv⟩ <;>
    cases lc'' <;> cases uc'' <;> cases lc <;> cases uc <;> grind

/-- C73: two non-empty intervals are ordered one way, or the other, or they intersect; never two of these.
`partial_cmp` seen from the other side is reversed. -/
theorem c73_trichotomy (ha : Obtainable a) (hb : Obtainable b) :
    (a.isEmpty = false → b.isEmpty = false →
      (a.lt b = true ∨ b.lt a = true ∨ a.intersects b = true) ∧
      ¬ (a.lt b = true ∧ a.intersects b = true) ∧ ¬ (b.lt a = true ∧ a.intersects b = true)) ∧
    a.partialCmp b = (b.partialCmp a).map Ordering.swap := by
  have g1 := (c30_strict ha hb).2.2.1
  have g2 := (c30_strict hb ha).2.2.1
  have hx := (c30_strict ha hb).2.2.2.1
  refine ⟨fun _ _ => ?_, ?_⟩
  · unfold Interval.intersects
    rw [g1]
    cases a.lt b <;> cases b.lt a <;> simp_all
  · unfold Interval.partialCmp
    rw [g1, g2]
    by_cases hab : a = b
    · subst hab; cases h : a.lt a <;> simp_all
    · have hba : ¬ b = a := fun h => hab h.symm
      cases h1 : a.lt b <;> cases h2 : b.lt a <;> simp_all

/-- C73: in a list where each interval is `<` the next one, every earlier interval is `<` every later one,
and all their points are in order. -/
theorem c73_sorted (is : List (Interval T)) (h : ∀ i ∈ is, Obtainable i)
    (hs : is.IsChain fun a b => a.lt b = true) :
    is.Pairwise (fun a b => a.lt b = true ∧ a.intersects b = false ∧ ∀ x y, Mem a x → Mem b y → x < y) := by
  have tr : ∀ (is : List (Interval T)), (∀ i ∈ is, Obtainable i) →
      is.IsChain (fun a b => a.lt b = true) → is.Pairwise fun a b => a.lt b = true := by
    intro is
    induction is with
    | nil => intro _ _; exact List.Pairwise.nil
    | cons a is ih =>
      intro h hs
      have ih := ih (fun i hi => h i (by simp [hi])) hs.tail
      refine List.pairwise_cons.mpr ⟨?_, ih⟩
      cases is with
      | nil => intro b hb; cases hb
      | cons b is =>
        have hab : a.lt b = true := (List.isChain_cons_cons.mp hs).1
        intro c hc
        rcases List.mem_cons.mp hc with rfl | hc'
        · exact hab
        · exact (c73_strict_order (h a (by simp)) (h b (by simp)) (h c (by simp [hc']))).2.2.1 hab
            ((List.pairwise_cons.mp ih).1 c hc')
  refine (tr is h hs).imp_of_mem fun {a b} ha hb hab => ⟨hab, ?_, (c30_strict (h a ha) (h b hb)).1 hab⟩
  unfold Interval.intersects
  rw [hab]; simp

end

example : Obtainable demo ∧ Obtainable (Interval.single (4 : Int)) ∧ Obtainable (Interval.single (3 : Int)) ∧
    demo.lt (Interval.single 4) = true ∧ demo.le (Interval.single 3) = true ∧
    (Interval.single (3 : Int)).lt (Interval.single 4) = true ∧ demo.leV 3 = true ∧
    (Interval.single (4 : Int)).gtV 3 = true ∧ demo.containsInterval (Interval.single 3) = true ∧
    [demo, Interval.single 4, Interval.single 7].IsChain (fun a b => a.lt b = true) ∧
    demo.isEmpty = false :=
  ⟨demo_ok, Obtainable.single 4, Obtainable.single 3, rfl, rfl, rfl, rfl, rfl, rfl, by decide, rfl⟩

end Itv
