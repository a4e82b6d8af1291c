import Verif.Itv.SpecNarrow
import Verif.Itv.PropsAlgebra
import Verif.Itv.PropsArith
/-!
# Lemmas for C145
-/

open Rust
namespace Itv

section
variable {V T : Type} [DecidableEq V] [LinearOrder T] [AddCommGroup T] [IsOrderedAddMonoid T]

/-- every interval of the first lies in the one of the second -/
def Narrower (e dom : V → Interval T) : Prop := ∀ v, (dom v).containsInterval (e v) = true

omit [DecidableEq V] [AddCommGroup T] [IsOrderedAddMonoid T] in
theorem Narrower.refl (dom : V → Interval T) : Narrower dom dom :=
  fun v => (c71_partial_order (a := dom v) (b := dom v) (c := dom v)).1

omit [DecidableEq V] [AddCommGroup T] [IsOrderedAddMonoid T] in
theorem Narrower.trans {d e f : V → Interval T} (h1 : Narrower d e) (h2 : Narrower e f) : Narrower d f :=
  fun v => contains_trans (h2 v) (h1 v)

omit [DecidableEq V] [AddCommGroup T] [IsOrderedAddMonoid T] in
theorem Narrower.antisymm {d e : V → Interval T} (h1 : Narrower d e) (h2 : Narrower e d) : d = e :=
  funext fun v => contains_antisymm (h2 v) (h1 v)

/-- one half of a step: the interval of `b` is cut with that of `a` moved by `c` -/
theorem half_ok {dom : V → Interval T} (hd : ∀ v, Obtainable (dom v)) (a b : V) (c : T) :
    ∃ p i, Interval.binOp (fun x => .ok (x + c)) (dom a) = .ok p ∧ Interval.intoIntersection (dom b) p = .ok i ∧
      (∀ v, Obtainable (setDom dom b i v)) ∧ Narrower (setDom dom b i) dom ∧ p.containsInterval i = true ∧
      (∀ y, Mem p y ↔ Mem (dom a) (y - c)) ∧
      (∀ x : V → T, (∀ v, Mem (dom v) (x v)) → x b = x a + c → ∀ v, Mem (setDom dom b i v) (x v)) ∧
      ∀ (e : V → Interval T) (q : Interval T), (∀ v, Obtainable (e v)) → Narrower e dom →
        Interval.binOp (fun x => .ok (x + c)) (e a) = .ok q → q.containsInterval (e b) = true → Narrower e (setDom dom b i) := by
  obtain ⟨p, _, h1, _, hm, _⟩ := c36_translate (hd a) c
  have op : Obtainable p := .arith _ _ (hd a) h1
  obtain ⟨i, g1, g2, g3, g4⟩ := c71_intersection_greatest (hd b) op
  obtain ⟨i', k1, _, k2, _⟩ := c26_intersection (hd b) op
  rw [g1] at k1; cases k1
  refine ⟨p, i, h1, g1, fun v => ?_, fun v => ?_, g3, hm, fun x hx hl v => ?_, fun e q he hn hq hc v => ?_⟩
  · unfold setDom
    split
    · exact .intoIntersection (hd b) op g1
    · exact hd v
  · unfold setDom
    split
    · next h => subst h; exact g2
    · exact Narrower.refl dom v
  · unfold setDom
    split
    · next h =>
        subst h
        rw [k2, hm, hl]
        exact ⟨hl ▸ hx v, by rw [add_sub_cancel_right]; exact hx a⟩
    · exact hx v
  · unfold setDom
    split
    · next h =>
        subst h
        obtain ⟨p', q', s1, s2, _, _, s3, _⟩ := c72_order_preserving (fun x => x + c) (fun x y => add_lt_add_iff_right c) (hd a) (he a)
        rw [h1] at s1; cases s1
        rw [hq] at s2; cases s2
        exact g4 _ (he v) (hn v) (contains_trans (s3.trans (hn a)) hc)
    · exact hn v

/-- a step: it never panics, only narrows, loses no solution, and keeps what it would leave as it is -/
theorem narrow_ok {dom : V → Interval T} (hd : ∀ v, Obtainable (dom v)) (l : Distance V T) :
    ∃ dom', narrow l dom = .ok dom' ∧ (∀ v, Obtainable (dom' v)) ∧ Narrower dom' dom ∧
      (∀ x : V → T, (∀ v, Mem (dom v) (x v)) → x l.b = x l.a + l.c → ∀ v, Mem (dom' v) (x v)) ∧
      (dom' = dom → (∀ y, Mem (dom l.b) y → Mem (dom l.a) (y - l.c)) ∧ (∀ y, Mem (dom l.a) y → Mem (dom l.b) (y + l.c)) ∧
        ∃ p q, Interval.binOp (fun x => .ok (x + l.c)) (dom l.a) = .ok p ∧ p.containsInterval (dom l.b) = true ∧
          Interval.binOp (fun x => .ok (x + -l.c)) (dom l.b) = .ok q ∧ q.containsInterval (dom l.a) = true) ∧
      ∀ e : V → Interval T, (∀ v, Obtainable (e v)) → Narrower e dom →
        (∃ p q, Interval.binOp (fun x => .ok (x + l.c)) (e l.a) = .ok p ∧ p.containsInterval (e l.b) = true ∧
          Interval.binOp (fun x => .ok (x + -l.c)) (e l.b) = .ok q ∧ q.containsInterval (e l.a) = true) → Narrower e dom' := by
  obtain ⟨p, i, h1, h2, h3, h4, h5, h6, h7, h8⟩ := half_ok hd l.a l.b l.c
  obtain ⟨q, j, g1, g2, g3, g4, g5, g6, g7, g8⟩ := half_ok h3 l.b l.a (-l.c)
  have esub : (fun x : T => (Except.ok (x - l.c) : Except Fault T)) = fun x => .ok (x + -l.c) := by
    funext x; rw [sub_eq_add_neg]
  refine ⟨setDom (setDom dom l.b i) l.a j, ?_, g3, g4.trans h4, fun x hx hl v => ?_, fun heq => ?_, fun e he hn hs => ?_⟩
  · unfold narrow
    simp only [h1, h2, esub, g1, g2, bind, Except.bind, pure, Except.pure]
  · exact g7 x (h7 x hx hl) (by rw [hl, add_neg_cancel_right]) v
  · have h9 : setDom dom l.b i = dom := by
      refine Narrower.antisymm h4 ?_
      have := g4
      rwa [heq] at this
    rw [h9] at heq g1 g6
    have ei : dom l.b = i := by
      have := congrFun h9 l.b
      simpa [setDom] using this.symm
    have ej : dom l.a = j := by
      have := congrFun heq l.a
      simpa [setDom] using this.symm
    have oi : Obtainable i := ei ▸ hd l.b
    have oj : Obtainable j := ej ▸ hd l.a
    refine ⟨fun y hy => ?_, fun y hy => ?_, p, q, h1, ei ▸ h5, g1, ej ▸ g5⟩
    · rw [← h6]
      exact c25_sound (.arith _ _ (hd l.a) h1) oi h5 y (ei ▸ hy)
    · have : Mem q y := c25_sound (.arith _ _ (hd l.b) g1) oj g5 y (ej ▸ hy)
      rw [g6, sub_neg_eq_add] at this
      exact this
  · obtain ⟨p', q', s1, s2, s3, s4⟩ := hs
    exact g8 e q' he (h8 e p' he hn s1 s2) s3 s4

theorem narrowAll_ok (ls : List (Distance V T)) : ∀ {dom : V → Interval T}, (∀ v, Obtainable (dom v)) →
    ∃ dom', narrowAll ls dom = .ok dom' ∧ (∀ v, Obtainable (dom' v)) ∧ Narrower dom' dom ∧
      (∀ x : V → T, (∀ v, Mem (dom v) (x v)) → (∀ l ∈ ls, x l.b = x l.a + l.c) → ∀ v, Mem (dom' v) (x v)) ∧
      ∀ e : V → Interval T, (∀ v, Obtainable (e v)) → Narrower e dom → (∀ l ∈ ls, narrow l e = .ok e) → Narrower e dom' := by
  induction ls with
  | nil => intro dom hd; exact ⟨dom, rfl, hd, .refl dom, fun x hx _ => hx, fun e _ hn _ => hn⟩
  | cons l ls ih =>
    intro dom hd
    obtain ⟨d1, h1, h2, h3, h4, _, h6⟩ := narrow_ok hd l
    obtain ⟨d2, g1, g2, g3, g4, g5⟩ := ih h2
    refine ⟨d2, ?_, g2, g3.trans h3, fun x hx hl => ?_, fun e he hn hs => ?_⟩
    · unfold narrowAll
      rw [h1]
      exact g1
    · exact g4 x (h4 x hx (hl l List.mem_cons_self)) fun k hk => hl k (List.mem_cons_of_mem _ hk)
    · obtain ⟨e', k1, _, _, _, k5, _⟩ := narrow_ok he l
      have hl := hs l List.mem_cons_self
      rw [k1] at hl
      exact g5 e he (h6 e he hn (k5 (Except.ok.inj hl)).2.2) fun k hk => hs k (List.mem_cons_of_mem _ hk)

end
end Itv
