import Verif.CB.Ledger
/-!
# The two ends of the deque are symmetric
-/

set_option linter.unusedSectionVars false

open Rust
namespace CB
open Spec (Deque)

/-- The calls that treat the two ends alike, or have a counterpart at the other end. -/
def Symmetric {α : Type} : Op α → Prop
  | .pushBack _ | .pushFront _ | .popBack | .popFront | .replaceFirst _ | .replaceLast _ | .first | .last
  | .reverse | .linearize | .iter | .len | .capacity | .isEmpty | .isFull => True
  | _ => False

/-- The counterpart of a call at the other end. -/
def mirror {α : Type} : Op α → Op α
  | .pushBack v => .pushFront v
  | .pushFront v => .pushBack v
  | .popBack => .popFront
  | .popFront => .popBack
  | .replaceFirst v => .replaceLast v
  | .replaceLast v => .replaceFirst v
  | .first => .last
  | .last => .first
  | op => op

/-- What a call returns, seen from the other end. -/
def mirrorOut {α : Type} : Out α → Out α
  | .seq vs => .seq vs.reverse
  | o => o

section
variable {α : Type} [Cfg] [Elem α]

theorem spec_mirror (d : Deque α) (op : Op α) (hop : Symmetric op) (hl : d.items.length ≤ d.cap) :
    let r := Spec.step d op
    let r' := Spec.step { d with items := d.items.reverse } (mirror op)
    r'.ret = r.ret.map mirrorOut ∧ r'.deque = { r.deque with items := r.deque.items.reverse } ∧
      r'.dropped = r.dropped := by
  rcases d with ⟨n, xs⟩
  cases op <;> try cases hop
  case pushBack v =>
    simp only [Spec.step, mirror, Spec.pushFront, Spec.pushBack, List.length_reverse]
    by_cases h0 : n = 0
    · simp only [h0, if_true, Spec.userIf]
      cases Elem.dropPanics v <;> simp [Except.map, mirrorOut]
    · by_cases h1 : xs.length < n
      · simp [h0, h1, Except.map, mirrorOut]
      · cases xs with
        | nil => simp [h0, Except.map, mirrorOut]
        | cons x xs =>
          simp only [h0, h1, if_false, List.reverse_cons, List.getLast?_concat, List.dropLast_concat]
          cases Elem.dropPanics x <;> simp [Except.map, mirrorOut]
  case pushFront v =>
    simp only [Spec.step, mirror, Spec.pushFront, Spec.pushBack, List.length_reverse]
    by_cases h0 : n = 0
    · simp only [h0, if_true, Spec.userIf]
      cases Elem.dropPanics v <;> simp [Except.map, mirrorOut]
    · by_cases h1 : xs.length < n
      · simp [h0, h1, Except.map, mirrorOut]
      · rcases List.eq_nil_or_concat xs with rfl | ⟨ys, x, rfl⟩
        · simp [h0, Except.map, mirrorOut]
        · rw [List.concat_eq_append] at h1 ⊢
          simp only [h0, h1, if_false, List.reverse_append, List.reverse_singleton, List.singleton_append,
            List.getLast?_concat, List.dropLast_concat]
          cases Elem.dropPanics x <;> simp [Except.map, mirrorOut]
  case replaceFirst v =>
    cases xs with
    | nil => simp [Spec.step, mirror, Except.map, mirrorOut]
    | cons x xs =>
      simp only [Spec.step, mirror, Except.map, mirrorOut, List.reverse_cons,
        List.length_append, List.length_reverse, List.length_cons, List.length_nil]
      refine ⟨by simp, ?_, trivial⟩
      congr 1
      rw [List.set_append_right _ _ (by simp)]
      simp
  case replaceLast v =>
    rcases List.eq_nil_or_concat xs with rfl | ⟨ys, x, rfl⟩
    · simp [Spec.step, mirror, Except.map, mirrorOut]
    · rw [List.concat_eq_append]
      simp only [Spec.step, mirror, Except.map, mirrorOut, List.reverse_append, List.reverse_singleton,
        List.singleton_append, List.length_append, List.length_cons, List.length_nil]
      refine ⟨by simp, ?_, trivial⟩
      congr 1
      rw [List.set_append_right _ _ (by simp)]
      simp
  all_goals simp [Spec.step, mirror, Except.map, mirrorOut]

theorem run_mirror (ops : List (Op α)) : (∀ op ∈ ops, Symmetric op) → ∀ d : Deque α, d.items.length ≤ d.cap →
    Spec.run (ops.map mirror) { d with items := d.items.reverse } =
      ((Spec.run ops d).1.map (Except.map mirrorOut),
        { (Spec.run ops d).2.1 with items := (Spec.run ops d).2.1.items.reverse }, (Spec.run ops d).2.2) := by
  induction ops with
  | nil => intro _ d _; rfl
  | cons op ops ih =>
    intro hops d hl
    obtain ⟨h1, h2, h3⟩ := spec_mirror d op (hops op (by simp)) hl
    have hl' : (Spec.step d op).deque.items.length ≤ (Spec.step d op).deque.cap := by
      exact step_length hl op
    have ih := ih (fun o ho => hops o (by simp [ho])) (Spec.step d op).deque hl'
    rw [List.map_cons]
    by_cases hab : (Spec.step d op).ret = .error .abort
    · have hab' : (Spec.step { d with items := d.items.reverse } (mirror op)).ret = .error .abort := by
        rw [h1, hab]; rfl
      rw [specRun_cons_abort hab, specRun_cons_abort hab', h2, h3]; rfl
    · have hab' : (Spec.step { d with items := d.items.reverse } (mirror op)).ret ≠ .error .abort := by
        rw [h1]; intro h; apply hab
        cases hr : (Spec.step d op).ret with
        | error e => rw [hr] at h; cases h; rfl
        | ok o => rw [hr] at h; cases h
      rw [specRun_cons hab, specRun_cons hab', h1, h2, h3, ih]; rfl

end
end CB
