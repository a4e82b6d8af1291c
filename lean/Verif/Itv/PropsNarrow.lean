import Verif.Itv.LemmasNarrow
import Mathlib.Tactic.Abel
/-!
# C145: narrowing what unknowns may be
-/

open Rust
namespace Itv

section
variable {V T : Type} [DecidableEq V] [LinearOrder T] [AddCommGroup T] [IsOrderedAddMonoid T] {dom : V → Interval T}
  {links : List (Distance V T)}

/-- **C145 (soundness).** In whatever order and how often the distances are used, nothing panics, every interval lies in the
one there was, and no solution is lost; if an unknown is left without values there is no solution. -/
theorem c145_sound (hd : ∀ v, Obtainable (dom v)) {ls : List (Distance V T)} (hl : ∀ l ∈ ls, l ∈ links) :
    ∃ dom', narrowAll ls dom = .ok dom' ∧ (∀ v, WellFormed (dom' v)) ∧ (∀ v, (dom v).containsInterval (dom' v) = true) ∧
      (∀ x, Solves links dom x ↔ Solves links dom' x) ∧
      ((∃ v, ∀ y, ¬ Mem (dom' v) y) → ¬ ∃ x, Solves links dom x) := by
  obtain ⟨dom', h1, h2, h3, h4, _⟩ := narrowAll_ok ls hd
  refine ⟨dom', h1, fun v => (h2 v).wf, h3, fun x => ⟨fun h => ⟨?_, h.2⟩, fun h => ⟨fun v => ?_, h.2⟩⟩, ?_⟩
  · exact h4 x h.1 fun l hm => h.2 l (hl l hm)
  · exact c25_sound (hd v) (h2 v) (h3 v) _ (h.1 v)
  · rintro ⟨v, hv⟩ ⟨x, hx⟩
    exact hv _ (h4 x hx.1 (fun l hm => hx.2 l (hl l hm)) v)

/-- **C145 (one result).** When nothing changes any more the result does not depend on the order in which the distances were
used. -/
theorem c145_unique (hd : ∀ v, Obtainable (dom v)) {ls ls' : List (Distance V T)} (hl : ∀ l ∈ ls, l ∈ links)
    (hl' : ∀ l ∈ ls', l ∈ links) {d d' : V → Interval T} (h : narrowAll ls dom = .ok d) (h' : narrowAll ls' dom = .ok d')
    (hs : ∀ l ∈ links, narrow l d = .ok d) (hs' : ∀ l ∈ links, narrow l d' = .ok d') : d = d' := by
  obtain ⟨_, h1, h2, h3, _, h5⟩ := narrowAll_ok ls hd
  rw [h] at h1; cases h1
  obtain ⟨_, g1, g2, g3, _, g5⟩ := narrowAll_ok ls' hd
  rw [h'] at g1; cases g1
  exact Narrower.antisymm (g5 d h2 h3 fun l hm => hs l (hl' l hm)) (h5 d' g2 g3 fun l hm => hs' l (hl l hm))

/-- **C145 (exactness).** If the distances do not contradict each other and lead from one unknown to all others then, when
nothing changes any more, the interval of the unknown holds exactly the values it has in solutions. -/
theorem c145_exact (hd : ∀ v, Obtainable (dom v)) {ls : List (Distance V T)} (hl : ∀ l ∈ ls, l ∈ links) {d : V → Interval T}
    (h : narrowAll ls dom = .ok d) (hs : ∀ l ∈ links, narrow l d = .ok d) {p : V → T} (hp : ∀ l ∈ links, p l.b = p l.a + l.c)
    {v : V} (hv : ∀ w, Linked links v w) (y : T) : Mem (d v) y ↔ ∃ x, Solves links dom x ∧ x v = y := by
  obtain ⟨_, h1, h2, h3, h4, _⟩ := narrowAll_ok ls hd
  rw [h] at h1; cases h1
  constructor
  · intro hy
    have hm : ∀ w, Mem (d w) (p w - p v + y) := fun w => by
      induction hv w with
      | refl => simpa using hy
      | @forth l _ hm ih =>
        obtain ⟨_, k1, _, _, _, k5, _⟩ := narrow_ok h2 l
        rw [hs l hm] at k1; cases k1
        have := (k5 rfl).2.1 _ ih
        rw [hp l hm]
        have e : p l.a + l.c - p v + y = p l.a - p v + y + l.c := by abel
        rw [e]; exact this
      | @back l _ hm ih =>
        obtain ⟨_, k1, _, _, _, k5, _⟩ := narrow_ok h2 l
        rw [hs l hm] at k1; cases k1
        have := (k5 rfl).1 _ ih
        rw [hp l hm] at this
        have e : p l.a + l.c - p v + y - l.c = p l.a - p v + y := by abel
        rw [e] at this; exact this
    refine ⟨fun w => p w - p v + y, ⟨fun w => c25_sound (hd w) (h2 w) (h3 w) _ (hm w), fun l hm => ?_⟩, by simp⟩
    dsimp only
    rw [hp l hm]
    abel
  · rintro ⟨x, hx, rfl⟩
    exact h4 x hx.1 (fun l hm => hx.2 l (hl l hm)) v

end

namespace Trial
/-- three unknowns, closed at one end -/
def rooms : Fin 3 → Interval Int
  | 0 => ⟨some ⟨⟨⟨0, true⟩⟩, ⟨⟨10, false⟩⟩⟩⟩
  | 1 => ⟨some ⟨⟨⟨5, false⟩⟩, ⟨⟨20, true⟩⟩⟩⟩
  | 2 => ⟨some ⟨⟨⟨0, true⟩⟩, ⟨⟨9, true⟩⟩⟩⟩

/-- the second is the first plus three, the third is the second minus one -/
def apart : List (Distance (Fin 3) Int) := [⟨0, 1, 3⟩, ⟨1, 2, -1⟩]

/-- what is left: `2 < x₀ ≤ 7`, `5 < x₁ ≤ 10`, `4 < x₂ ≤ 9` -/
def rest : Fin 3 → Interval Int
  | 0 => ⟨some ⟨⟨⟨2, false⟩⟩, ⟨⟨7, true⟩⟩⟩⟩
  | 1 => ⟨some ⟨⟨⟨5, false⟩⟩, ⟨⟨10, true⟩⟩⟩⟩
  | 2 => ⟨some ⟨⟨⟨4, false⟩⟩, ⟨⟨9, true⟩⟩⟩⟩

theorem rooms_ok : ∀ v, Obtainable (rooms v)
  | 0 => .lowerClosed (l := 0) (u := 10) rfl
  | 1 => .upperClosed (l := 5) (u := 20) rfl
  | 2 => .closed (l := 0) (u := 9) rfl

/-- equality of finite families of intervals, point by point -/
def same (x : Except Fault (Fin 3 → Interval Int)) (d : Fin 3 → Interval Int) : Prop :=
  ∀ v, (x.toOption.map fun e => e v) = some (d v)

theorem same_eq {x : Except Fault (Fin 3 → Interval Int)} {d : Fin 3 → Interval Int} (h : same x d) : x = .ok d := by
  cases x with
  | error e => exact absurd (h 0) (by simp [Except.toOption])
  | ok e => exact congrArg _ (funext fun v => by simpa [Except.toOption] using h v)

end Trial

open Trial in
example : (∀ v, Obtainable (rooms v)) ∧ narrowAll (apart ++ apart) rooms = .ok rest ∧
    narrowAll (apart.reverse ++ apart) rooms = .ok rest ∧ (∀ l ∈ apart, narrow l rest = .ok rest) ∧
    (∀ l ∈ apart, (fun v : Fin 3 => ([0, 3, 2] : List Int)[v]) l.b = (fun v : Fin 3 => ([0, 3, 2] : List Int)[v]) l.a + l.c) ∧
    (∀ w, Linked apart 0 w) := by
  have f0 : same (narrow ⟨0, 1, 3⟩ rest) rest := by unfold same; decide +kernel
  have f1 : same (narrow ⟨1, 2, -1⟩ rest) rest := by unfold same; decide +kernel
  have g0 : same (narrowAll (apart ++ apart) rooms) rest := by unfold same; decide +kernel
  have g1 : same (narrowAll (apart.reverse ++ apart) rooms) rest := by unfold same; decide +kernel
  refine ⟨rooms_ok, same_eq g0, same_eq g1, fun l hl => ?_, by decide, fun w => ?_⟩
  · simp only [apart, List.mem_cons, List.not_mem_nil, or_false] at hl
    rcases hl with rfl | rfl
    · exact same_eq f0
    · exact same_eq f1
  · have l1 : Linked apart 0 (1 : Fin 3) := .forth (l := ⟨0, 1, 3⟩) (.refl 0) (by simp [apart])
    match w with
    | 0 => exact .refl 0
    | 1 => exact l1
    | 2 => exact .forth (l := ⟨1, 2, -1⟩) l1 (by simp [apart])

end Itv
