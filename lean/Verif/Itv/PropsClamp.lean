import Verif.Itv.ModelClamp
import Verif.Itv.Props
/-!
# C127: `min`, `max` and `clamp` of bounds are set operations on half-lines
-/

open Rust
namespace Itv
section
variable {T : Type} [LinearOrder T]

/-- **C127 (`min`, `max`).** The greater of two lower bounds admits the values that both admit, the lesser those that one of
them admits. For upper bounds it is the other way round. -/
theorem c127_min_max (a b : LowerBound T) (c d : UpperBound T) (v : T) :
    (Spec.Above (a.max b).val (a.max b).isClosed v ↔ Spec.Above a.val a.isClosed v ∧ Spec.Above b.val b.isClosed v) ∧
    (Spec.Above (a.min b).val (a.min b).isClosed v ↔ Spec.Above a.val a.isClosed v ∨ Spec.Above b.val b.isClosed v) ∧
    (Spec.Below (c.max d).val (c.max d).isClosed v ↔ Spec.Below c.val c.isClosed v ∨ Spec.Below d.val d.isClosed v) ∧
    (Spec.Below (c.min d).val (c.min d).isClosed v ↔ Spec.Below c.val c.isClosed v ∧ Spec.Below d.val d.isClosed v) := by
  have hl : ∀ {a b : LowerBound T}, a.le b = true → Spec.Above b.val b.isClosed v → Spec.Above a.val a.isClosed v :=
    fun h => (c34_half_lines _ _ (⟨⟨v, true⟩⟩ : UpperBound T) ⟨⟨v, true⟩⟩).1 h v
  have hu : ∀ {a b : UpperBound T}, a.le b = true → Spec.Below a.val a.isClosed v → Spec.Below b.val b.isClosed v :=
    fun h => (c34_half_lines (⟨⟨v, true⟩⟩ : LowerBound T) ⟨⟨v, true⟩⟩ _ _).2.1 h v
  obtain ⟨_, _, _, _, _, _, hle, _, hmin, hmax⟩ := c34_lower_total_order a b a
  obtain ⟨_, _, _, _, _, _, hle', _, hmin', hmax'⟩ := c34_upper_total_order c d c
  rw [hmin, hmax, hmin', hmax']
  have tl : a.le b = true ∨ b.le a = true := by rw [LowerBound.le_iff, LowerBound.le_iff]; grind
  have tu : c.le d = true ∨ d.le c = true := by rw [UpperBound.le_iff, UpperBound.le_iff]; grind
  refine ⟨?_, ?_, ?_, ?_⟩
  · split
    · rename_i h; exact ⟨fun g => ⟨hl h g, g⟩, fun g => g.2⟩
    · rename_i h; exact ⟨fun g => ⟨g, hl (tl.resolve_left h) g⟩, fun g => g.1⟩
  · split
    · rename_i h; exact ⟨fun g => .inl g, fun g => g.elim id (hl h)⟩
    · rename_i h; exact ⟨fun g => .inr g, fun g => g.elim (hl (tl.resolve_left h)) id⟩
  · split
    · rename_i h; exact ⟨fun g => .inr g, fun g => g.elim (hu h) id⟩
    · rename_i h; exact ⟨fun g => .inl g, fun g => g.elim id (hu (tu.resolve_left h))⟩
  · split
    · rename_i h; exact ⟨fun g => ⟨g, hu h g⟩, fun g => g.1⟩
    · rename_i h; exact ⟨fun g => ⟨hu (tu.resolve_left h) g, g⟩, fun g => g.2⟩

/-- **C127 (`clamp` of a lower bound).** It panics exactly if the limits are in the wrong order. The result is one of the
three bounds, lies between the limits, is the bound itself if that does, and admits the values that the lower limit and one
of the other two admit. -/
theorem c127_clamp_lower (a lo hi : LowerBound T) :
    (a.clamp lo hi = .error .explicit ↔ hi.lt lo = true) ∧
    (lo.le hi = true → ∃ c, a.clamp lo hi = .ok c ∧ (c = a ∨ c = lo ∨ c = hi) ∧ lo.le c = true ∧ c.le hi = true ∧
      (lo.le a = true → a.le hi = true → c = a) ∧
      ∀ v, Spec.Above c.val c.isClosed v ↔
        Spec.Above lo.val lo.isClosed v ∧ (Spec.Above a.val a.isClosed v ∨ Spec.Above hi.val hi.isClosed v)) := by
  have hn : ∀ {x y : LowerBound T}, x.le y = false ↔ y.lt x = true := by
    intro x y
    rw [← Bool.not_eq_true, LowerBound.le_iff, LowerBound.lt_iff]
    cases x.isClosed <;> cases y.isClosed <;> grind
  have hg : ∀ {x y : LowerBound T}, x.gt y = true ↔ y.lt x = true := by
    intro x y
    rw [LowerBound.gt_iff, LowerBound.lt_iff]; grind
  have hw : ∀ {x y : LowerBound T}, x.lt y = true → x.le y = true := by
    intro x y
    rw [LowerBound.le_iff, LowerBound.lt_iff]; grind
  have hr : ∀ {x : LowerBound T}, x.le x = true := by
    intro x
    rw [LowerBound.le_iff]; cases x.isClosed <;> simp
  have hm : ∀ {x y : LowerBound T}, x.le y = true → ∀ v, Spec.Above y.val y.isClosed v → Spec.Above x.val x.isClosed v := 
    fun h => (c34_half_lines _ _ (⟨⟨a.val, true⟩⟩ : UpperBound T) ⟨⟨a.val, true⟩⟩).1 h
  refine ⟨?_, fun h => ?_⟩
  · rw [← hn (x := lo) (y := hi)]
    unfold LowerBound.clamp
    cases lo.le hi <;> cases a.lt lo <;> cases a.gt hi <;> simp [throw, throwThe, MonadExceptOf.throw, bind, Except.bind, pure, Except.pure]
  · have hc : a.clamp lo hi = if a.lt lo = true then .ok lo else if a.gt hi = true then .ok hi else .ok a := by
      unfold LowerBound.clamp
      rw [h]
      cases a.lt lo <;> cases a.gt hi <;> rfl
    rw [hc]
    by_cases h1 : a.lt lo = true
    · rw [if_pos h1]
      refine ⟨lo, rfl, .inr (.inl rfl), hr, h, fun h2 => absurd (hn.mpr h1) (by rw [h2]; simp), fun v => ?_⟩
      exact ⟨fun g => ⟨g, .inl (hm (hw h1) v g)⟩, fun g => g.1⟩
    · rw [if_neg h1]
      have h1' : lo.le a = true := by
        cases hq : lo.le a with
        | true => rfl
        | false => exact absurd (hn.mp hq) h1
      by_cases h2 : a.gt hi = true
      · rw [if_pos h2]
        refine ⟨hi, rfl, .inr (.inr rfl), h, hr, fun _ h3 => absurd (hn.mpr (hg.mp h2)) (by rw [h3]; simp), fun v => ?_⟩
        exact ⟨fun g => ⟨hm h v g, .inr g⟩, fun g => g.2.elim (hm (hw (hg.mp h2)) v) id⟩
      · rw [if_neg h2]
        have h2' : a.le hi = true := by
          cases hq : a.le hi with
          | true => rfl
          | false => exact absurd (hg.mpr (hn.mp hq)) h2
        refine ⟨a, rfl, .inl rfl, h1', h2', fun _ _ => rfl, fun v => ?_⟩
        exact ⟨fun g => ⟨hm h1' v g, .inl g⟩, fun g => g.2.elim id (hm h2' v)⟩

/-- **C127 (`clamp` of an upper bound).** The same; the result admits the values that the lower limit or both of the others
admit. -/
theorem c127_clamp_upper (a lo hi : UpperBound T) :
    (a.clamp lo hi = .error .explicit ↔ hi.lt lo = true) ∧
    (lo.le hi = true → ∃ c, a.clamp lo hi = .ok c ∧ (c = a ∨ c = lo ∨ c = hi) ∧ lo.le c = true ∧ c.le hi = true ∧
      (lo.le a = true → a.le hi = true → c = a) ∧
      ∀ v, Spec.Below c.val c.isClosed v ↔
        Spec.Below lo.val lo.isClosed v ∨ (Spec.Below a.val a.isClosed v ∧ Spec.Below hi.val hi.isClosed v)) := by
  have hn : ∀ {x y : UpperBound T}, x.le y = false ↔ y.lt x = true := by
    intro x y
    rw [← Bool.not_eq_true, UpperBound.le_iff, UpperBound.lt_iff]
    cases x.isClosed <;> cases y.isClosed <;> grind
  have hg : ∀ {x y : UpperBound T}, x.gt y = true ↔ y.lt x = true := by
    intro x y
    rw [UpperBound.gt_iff, UpperBound.lt_iff]; grind
  have hw : ∀ {x y : UpperBound T}, x.lt y = true → x.le y = true := by
    intro x y
    rw [UpperBound.le_iff, UpperBound.lt_iff]; grind
  have hr : ∀ {x : UpperBound T}, x.le x = true := by
    intro x
    rw [UpperBound.le_iff]; cases x.isClosed <;> simp
  have hm : ∀ {x y : UpperBound T}, x.le y = true → ∀ v, Spec.Below x.val x.isClosed v → Spec.Below y.val y.isClosed v := 
    fun h => (c34_half_lines (⟨⟨a.val, true⟩⟩ : LowerBound T) ⟨⟨a.val, true⟩⟩ _ _).2.1 h
  refine ⟨?_, fun h => ?_⟩
  · rw [← hn (x := lo) (y := hi)]
    unfold UpperBound.clamp
    cases lo.le hi <;> cases a.lt lo <;> cases a.gt hi <;> simp [throw, throwThe, MonadExceptOf.throw, bind, Except.bind, pure, Except.pure]
  · have hc : a.clamp lo hi = if a.lt lo = true then .ok lo else if a.gt hi = true then .ok hi else .ok a := by
      unfold UpperBound.clamp
      rw [h]
      cases a.lt lo <;> cases a.gt hi <;> rfl
    rw [hc]
    by_cases h1 : a.lt lo = true
    · rw [if_pos h1]
      refine ⟨lo, rfl, .inr (.inl rfl), hr, h, fun h2 => absurd (hn.mpr h1) (by rw [h2]; simp), fun v => ?_⟩
      exact ⟨fun g => .inl g, fun g => g.elim id fun g => hm (hw h1) v g.1⟩
    · rw [if_neg h1]
      have h1' : lo.le a = true := by
        cases hq : lo.le a with
        | true => rfl
        | false => exact absurd (hn.mp hq) h1
      by_cases h2 : a.gt hi = true
      · rw [if_pos h2]
        refine ⟨hi, rfl, .inr (.inr rfl), h, hr, fun _ h3 => absurd (hn.mpr (hg.mp h2)) (by rw [h3]; simp), fun v => ?_⟩
        exact ⟨fun g => .inr ⟨hm (hw (hg.mp h2)) v g, g⟩, fun g => g.elim (hm h v) fun g => g.2⟩
      · rw [if_neg h2]
        have h2' : a.le hi = true := by
          cases hq : a.le hi with
          | true => rfl
          | false => exact absurd (hg.mpr (hn.mp hq)) h2
        refine ⟨a, rfl, .inl rfl, h1', h2', fun _ _ => rfl, fun v => ?_⟩
        exact ⟨fun g => .inr ⟨g, hm h2' v g⟩, fun g => g.elim (hm h1' v) fun g => g.1⟩

end

example : (LowerBound.new (1 : Int) true).le (LowerBound.new 1 false) = true ∧
    (LowerBound.new (0 : Int) true).clamp (LowerBound.new 1 true) (LowerBound.new 1 false) = .ok (LowerBound.new 1 true) ∧
    (LowerBound.new (5 : Int) true).clamp (LowerBound.new 1 true) (LowerBound.new 1 false) = .ok (LowerBound.new 1 false) ∧
    (LowerBound.new (1 : Int) true).lt (LowerBound.new 1 false) = true ∧
    (UpperBound.new (1 : Int) false).le (UpperBound.new 1 true) = true ∧
    (UpperBound.new (5 : Int) false).clamp (UpperBound.new 1 false) (UpperBound.new 1 true) = .ok (UpperBound.new 1 true) ∧
    (UpperBound.new (5 : Int) false).clamp (UpperBound.new 1 true) (UpperBound.new 1 false) = .error .explicit :=
  ⟨rfl, rfl, rfl, rfl, rfl, rfl, rfl⟩

end Itv
