import Verif.DS.LemmasEquality
import Verif.DS.Props
/-!
# C137: equations and inequations
-/

open Rust
namespace DS

section
variable {V : Type} [DecidableEq V] [Cfg]

/-- **C137 (agreement).** The client answers `true` exactly if there are values, of any kind, that agree with all equations
and inequations; then there are also numbers that do. -/
theorem c137_agree {stack : Nat} (hk : 64 ≤ stack) {equal differ : List (V × V)}
    (small : (mentioned (equal ++ differ)).dedup.length ≤ usizeMax) :
    ∃ b s', agree stack equal differ DSet.new = (.ok b, s') ∧ (b = true → ∃ val : V → Nat, Agrees val equal differ) ∧
      ∀ (U : Type) (val : V → U), Agrees val equal differ → b = true := by
  obtain ⟨b, s', a, h1, _, _, _, h2, h3⟩ := agree_ok hk small
  refine ⟨b, s', h1, fun hb => ?_, fun U val hv => ?_⟩
  · have hd := h3.mp hb
    refine ⟨classOf equal a.elems, fun p hp => classOf_equal (.step hp), fun p hp he => hd p hp (classOf_differ ?_ he)⟩
    rw [h2]
    exact List.mem_flatMap.mpr ⟨p, List.mem_append_right _ hp, by simp⟩
  · exact h3.mpr fun p hp hc => hv.2 p hp (agree_sound hv.1 hc)

/-- **C137 (consequences).** If they agree, `in_union` afterwards tells which unknowns are equal whatever the values. -/
theorem c137_consequences {stack : Nat} (hk : 64 ≤ stack) {equal differ : List (V × V)}
    (small : (mentioned (equal ++ differ)).dedup.length ≤ usizeMax) {s' : DSet V}
    (h : agree stack equal differ DSet.new = (.ok true, s')) {x y : V} (hx : x ∈ mentioned (equal ++ differ))
    (hy : y ∈ mentioned (equal ++ differ)) :
    ∃ r, (DSet.inUnion stack x y false false s').1 = .ok r ∧
      (r = true ↔ ∀ (U : Type) (val : V → U), Agrees val equal differ → val x = val y) := by
  obtain ⟨b, t, a, h1, r, hc, h4, h2, h3⟩ := agree_ok hk small
  rw [h] at h1
  obtain ⟨e1, rfl⟩ := Prod.mk.inj h1
  cases e1
  obtain ⟨r', s2, g1, _, g2⟩ := inUnion_ok (stack := stack) r (by rw [r.card]; exact lt_two_pow hc hk) x y
  refine ⟨r', by rw [g1], ?_⟩
  rw [g2]
  constructor
  · rintro ⟨_, _, hxy⟩ U val hv
    exact agree_sound hv.1 ((h4 _ _).mp hxy)
  · intro hall
    refine ⟨(h2 x).mpr hx, (h2 y).mpr hy, (h4 _ _).mpr ?_⟩
    have hd := h3.mp rfl
    refine classOf_differ ((h2 x).mpr hx) (hall Nat (classOf equal a.elems) ⟨fun p hp => classOf_equal (.step hp),
      fun p hp he => hd p hp (classOf_differ ?_ he)⟩)
    rw [h2]
    exact List.mem_flatMap.mpr ⟨p, List.mem_append_right _ hp, by simp⟩

end

-- `1 = 2`, `2 = 3`, `4 = 5` agree with `1 ≠ 4` but not with `3 ≠ 1`, nor with `6 ≠ 6`; the latter only because the
-- unknowns of inequations are added: `in_union` of an element that is not there with itself is `false`
open Demo in
example : (mentioned ([(1, 2), (2, 3), (4, 5)] ++ [(1, 4)])).dedup.length ≤ usizeMax ∧
    (agree 64 [(1, 2), (2, 3), (4, 5)] [(1, 4)] DSet.new).1.toOption = some true ∧
    (agree 64 [(1, 2), (2, 3), (4, 5)] [(1, 4), (3, 1)] DSet.new).1.toOption = some false ∧
    (agree 64 [(1, 2), (2, 3), (4, 5)] [(6, 6)] DSet.new).1.toOption = some false ∧
    (allApart 64 [(6, 6)] DSet.new).1.toOption = some true ∧ 3 ∈ mentioned ([(1, 2), (2, 3), (4, 5)] ++ [(1, 4)]) :=
  ⟨by decide +kernel, by decide +kernel, by decide +kernel, by decide +kernel, by decide +kernel, by decide⟩

end DS
