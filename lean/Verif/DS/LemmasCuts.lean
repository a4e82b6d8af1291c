import Verif.DS.SpecCuts
import Verif.DS.LemmasEquality
import Verif.DS.LemmasForest
/-!
# Lemmas for C143
-/

open Rust
namespace DS

section
variable {V : Type} [DecidableEq V]

/-- the connections that are never cut -/
def left : List (V × V) → List (Event V) → List (V × V)
  | g, [] => g
  | g, .cut a b :: rest => left (g.filter fun e => decide (e ≠ (a, b))) rest
  | g, .ask _ _ :: rest => left g rest

theorem left_eq (g : List (V × V)) (events : List (Event V)) :
    left g events = g.filter fun e => decide (Event.cut e.1 e.2 ∉ events) := by
  induction events generalizing g with
  | nil => simp [left]
  | cons ev rest ih =>
    cases ev with
    | ask a b =>
      unfold left
      rw [ih]
      refine List.filter_congr fun e _ => decide_eq_decide.mpr ?_
      simp
    | cut a b =>
      unfold left
      rw [ih, List.filter_filter]
      refine List.filter_congr fun e _ => ?_
      rw [← Bool.decide_and]
      refine decide_eq_decide.mpr ?_
      obtain ⟨x, y⟩ := e
      simp only [List.mem_cons, Event.cut.injEq, Prod.mk.injEq, ne_eq]
      tauto

variable [Cfg]

theorem replay_append {stack : Nat} {l1 l2 : List (Event V)} {s s1 s2 : DSet V} {xs ys : List Bool}
    (h1 : replay stack l1 s = (.ok xs, s1)) (h2 : replay stack l2 s1 = (.ok ys, s2)) :
    replay stack (l1 ++ l2) s = (.ok (xs ++ ys), s2) := by
  induction l1 generalizing s xs with
  | nil =>
    obtain ⟨e1, rfl⟩ := Prod.mk.inj h1
    cases e1
    exact h2
  | cons ev rest ih =>
    cases ev with
    | cut a b =>
      rw [List.cons_append]
      unfold replay at h1 ⊢
      rw [M.bind_run] at h1 ⊢
      generalize DSet.union stack a b false false s = o at h1 ⊢
      obtain ⟨o, t⟩ := o
      cases o with
      | error e => cases h1
      | ok v => exact ih h1
    | ask a b =>
      rw [List.cons_append]
      unfold replay at h1 ⊢
      rw [M.bind_run] at h1 ⊢
      generalize DSet.inUnion stack a b false false s = o at h1 ⊢
      obtain ⟨o, t⟩ := o
      cases o with
      | error e => cases h1
      | ok v =>
        dsimp only at h1 ⊢
        rw [M.bind_run] at h1
        rcases ho : replay stack rest t with ⟨o, t'⟩
        rw [ho] at h1
        cases o with
        | error e => cases h1
        | ok vs =>
          obtain ⟨e1, e2⟩ := Prod.mk.inj h1
          cases e1
          obtain rfl : t' = s1 := e2
          rw [M.bind_ok (ih ho)]
          rfl

/-- the answer to a question is right -/
def Right (b : Bool) (q : List (V × V) × V × V) : Prop := b = true ↔ Conn q.1 q.2.1 q.2.2

theorem replay_ok {stack : Nat} (hk : 64 ≤ stack) {places : List V} (hs : places.dedup.length ≤ usizeMax) (events : List (Event V)) :
    ∀ {g : List (V × V)} {s : DSet V} {a : Abs V}, Rel s a → (∀ x, x ∈ a.elems ↔ x ∈ places) →
      (∀ e ∈ g, e.1 ∈ places ∧ e.2 ∈ places) → Proper g events →
      (∀ q ∈ asked g events, q.2.1 ∈ places ∧ q.2.2 ∈ places) → (∀ x y, Conn a.pairs x y ↔ Conn (left g events) x y) →
      ∃ ans s' a', replay stack events.reverse s = (.ok ans, s') ∧ Rel s' a' ∧ (∀ x, x ∈ a'.elems ↔ x ∈ places) ∧
        (∀ x y, Conn a'.pairs x y ↔ Conn g x y) ∧ List.Forall₂ Right ans.reverse (asked g events) := by
  induction events with
  | nil =>
    intro g s a r he _ _ _ hc
    exact ⟨[], s, a, rfl, r, he, hc, .nil⟩
  | cons ev rest ih =>
    intro g s a r he hg hp hq hc
    cases ev with
    | cut x y =>
      have hx := hg _ hp.1
      obtain ⟨ans, s1, a1, h1, r1, e1, c1, f1⟩ := ih (g := g.filter fun e => decide (e ≠ (x, y))) r he
        (fun e h => hg e (List.mem_filter.mp h).1) hp.2 hq hc
      have e2 : ∀ z, z ∈ (a1.step (.union x y false false)).elems ↔ z ∈ places := fun z => by
        have : z ∈ (a1.step (.union x y false false)).elems ↔ z = y ∨ z = x ∨ z ∈ a1.elems := by simp [Abs.step]
        rw [this, e1]
        constructor
        · rintro (rfl | rfl | h)
          · exact hx.2
          · exact hx.1
          · exact h
        · exact fun h => .inr (.inr h)
      have p2 : (a1.step (.union x y false false)).pairs = (x, y) :: a1.pairs := by simp [Abs.step]
      obtain ⟨s2, h2, r2⟩ := union_run hk r1 x y (Nat.le_trans (card_le fun z hz => (e2 z).mp hz) hs)
      refine ⟨ans ++ [], s2, _, ?_, r2, e2, fun u v => ?_, by rw [List.append_nil]; exact f1⟩
      · rw [List.reverse_cons]
        refine replay_append h1 ?_
        unfold replay
        rw [M.bind_ok h2]
        rfl
      · rw [p2]
        constructor
        · refine conn_bind fun p hm => ?_
          rcases List.mem_cons.mp hm with rfl | hm
          · exact .step hp.1
          · exact conn_mono (fun q hq => (List.mem_filter.mp hq).1) ((c1 p.1 p.2).mp (.step hm))
        · refine conn_bind fun p hm => ?_
          by_cases h : p = (x, y)
          · rw [h]; exact .step List.mem_cons_self
          · have : Conn a1.pairs p.1 p.2 := (c1 _ _).mpr (.step (List.mem_filter.mpr ⟨hm, decide_eq_true h⟩))
            exact conn_mono (fun q hq => List.mem_cons_of_mem _ hq) this
    | ask x y =>
      obtain ⟨ans, s1, a1, h1, r1, e1, c1, f1⟩ := ih (g := g) r he hg hp (fun q h => hq q (List.mem_cons_of_mem _ h)) hc
      have hx := hq (g, x, y) List.mem_cons_self
      have hcard : a1.card ≤ usizeMax := Nat.le_trans (card_le fun z hz => (e1 z).mp hz) hs
      obtain ⟨b, s2, h2, tw, hb⟩ := inUnion_ok (stack := stack) r1 (by rw [r1.card]; exact lt_two_pow hcard hk) x y
      refine ⟨ans ++ [b], s2, a1, ?_, tw.rel r1, e1, c1, ?_⟩
      · rw [List.reverse_cons]
        refine replay_append h1 ?_
        unfold replay
        rw [M.bind_ok h2]
        rfl
      · rw [List.reverse_append]
        refine .cons ?_ f1
        refine hb.trans ⟨fun h => (c1 x y).mp h.2.2, fun h => ⟨(e1 x).mpr hx.1, (e1 y).mpr hx.2, (c1 x y).mpr h⟩⟩

end
end DS
