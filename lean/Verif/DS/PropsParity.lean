import Verif.DS.LemmasParity
import Verif.DS.Props
/-!
# C110: equations between two-valued unknowns, and two-colourings
-/

open Rust
namespace DS

section
variable {V : Type} [DecidableEq V] [Cfg]

/-- **C110 (equations).** The client accepts an equation exactly if it does not contradict those it has accepted before.
So the accepted equations have a solution, and all are accepted exactly if all of them together have one. -/
theorem c110_accepts {stack : Nat} (hk : 64 ≤ stack) {es : List (Equation V)}
    (small : 2 * (unknowns es).dedup.length ≤ usizeMax) :
    ∃ accepted s', accept stack es DSet.new = (.ok accepted, s') ∧ accepted = kept [] es ∧ accepted.Sublist es ∧
      Solvable accepted ∧ (accepted = es ↔ Solvable es) := by
  obtain ⟨s', _, h1, _⟩ := accept_new hk small
  have hs : Solvable (kept [] es) := by
    have := kept_solvable (before := []) ⟨fun _ => false, fun e he => by cases he⟩ es
    rwa [List.append_nil] at this
  refine ⟨_, s', h1, rfl, kept_sublist _ _, hs, fun h => h ▸ hs, fun h => kept_all (by rwa [List.append_nil])⟩

/-- **C110 (consequences).** Afterwards `in_union` knows everything that follows from the accepted equations: whether two
unknowns are equal, or different, in all solutions. -/
theorem c110_consequences {stack : Nat} (hk : 64 ≤ stack) {es : List (Equation V)}
    (small : 2 * (unknowns es).dedup.length ≤ usizeMax) {accepted : List (Equation V)} {s' : DSet (V × Bool)}
    (h : accept stack es DSet.new = (.ok accepted, s')) {x y : V} (hx : x ∈ unknowns es) (hy : y ∈ unknowns es)
    (b c : Bool) :
    ∃ r, (DSet.inUnion stack (x, b) (y, c) false false s').1 = .ok r ∧
      (r = true ↔ ∀ val, Solves val accepted → (val x ^^ val y) = (b ^^ c)) := by
  obtain ⟨t, a', h1, h2, h3, h4, h5⟩ := accept_new hk small
  rw [h] at h1
  obtain ⟨e1, rfl⟩ := Prod.mk.inj h1
  cases e1
  obtain ⟨r, s2, g1, _, g2⟩ := inUnion_ok (stack := stack) h2 (by rw [h2.card]; exact lt_two_pow h3 hk) (x, b) (y, c)
  refine ⟨r, by rw [g1], ?_⟩
  have hs : Solvable (kept [] es) := by
    have := kept_solvable (before := []) ⟨fun _ => false, fun e he => by cases he⟩ es
    rwa [List.append_nil] at this
  rw [g2]
  constructor
  · rintro ⟨_, _, hc⟩ val hv
    have := parity_sound hv ((h4 _ _).mp hc)
    simp only at this
    revert this
    cases val x <;> cases val y <;> cases b <;> cases c <;> simp
  · intro hall
    refine ⟨h5 x hx b, h5 y hy c, (h4 _ _).mpr ?_⟩
    by_contra hn
    obtain ⟨val, hv, hne⟩ := parity_complete hs hn
    have := hall val hv
    simp only at hne
    revert this hne
    cases val x <;> cases val y <;> cases b <;> cases c <;> simp

/-- **C110 (two-colouring).** With "differ" for every edge of a graph, the client accepts all edges exactly if the graph is
bipartite. -/
theorem c110_two_colours {stack : Nat} (hk : 64 ≤ stack) (edges : List (V × V))
    (small : 2 * (edges.flatMap fun e => [e.1, e.2]).dedup.length ≤ usizeMax) :
    ∃ accepted s', accept stack (edges.map fun e => ⟨e.1, e.2, true⟩) DSet.new = (.ok accepted, s') ∧
      (accepted.length = edges.length ↔ ∃ colour : V → Bool, ∀ e ∈ edges, colour e.1 ≠ colour e.2) := by
  have hu : unknowns (edges.map fun e => (⟨e.1, e.2, true⟩ : Equation V)) = edges.flatMap fun e => [e.1, e.2] := by
    rw [unknowns, List.flatMap_map]
  obtain ⟨acc, s', h1, _, h2, _, h3⟩ := c110_accepts hk (es := edges.map fun e => ⟨e.1, e.2, true⟩) (by rw [hu]; exact small)
  refine ⟨acc, s', h1, ?_⟩
  have : acc.length = edges.length ↔ acc = edges.map fun e => ⟨e.1, e.2, true⟩ := by
    constructor
    · intro hl
      exact h2.eq_of_length (by rw [hl, List.length_map])
    · intro h; rw [h, List.length_map]
  rw [this, h3]
  refine exists_congr fun val => ?_
  simp only [Solves, List.forall_mem_map, Equation.Holds]
  refine forall_congr' fun e => forall_congr' fun _ => ?_
  cases val e.1 <;> cases val e.2 <;> simp

end

namespace Demo
/-- a triangle with a tail: not bipartite; the third edge is refused -/
def triangle : List (Nat × Nat) := [(1, 2), (2, 3), (3, 1), (3, 4)]
end Demo

open Demo in
example : 2 * (triangle.flatMap fun e => [e.1, e.2]).dedup.length ≤ usizeMax ∧
    (accept 64 (triangle.map fun e => ⟨e.1, e.2, true⟩) DSet.new).1.toOption =
      some [⟨1, 2, true⟩, ⟨2, 3, true⟩, ⟨3, 4, true⟩] ∧
    (accept 64 [⟨5, 5, true⟩, ⟨1, 2, false⟩, ⟨2, 3, true⟩, ⟨1, 3, true⟩] DSet.new).1.toOption =
      some [⟨1, 2, false⟩, ⟨2, 3, true⟩, (⟨1, 3, true⟩ : Equation Nat)] ∧ (4 : Nat) ∈ unknowns
        (triangle.map fun e => (⟨e.1, e.2, true⟩ : Equation Nat)) :=
  ⟨by decide +kernel, by decide +kernel, by decide +kernel, by decide⟩

end DS
