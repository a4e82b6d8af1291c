import Verif.DS.LemmasCuts
import Verif.DS.Props
/-!
# C143: connections that are cut
-/

open Rust
namespace DS

section
variable {V : Type} [DecidableEq V] [Cfg]

/-- **C143.** Going through the events backwards, every question is answered as if it had been asked at its time: the answer
is `true` exactly if the two were connected by the connections that had not been cut by then. -/
theorem c143_cuts {stack : Nat} (hk : 64 ≤ stack) {places : List V} (hs : places.dedup.length ≤ usizeMax)
    {edges : List (V × V)} (he : ∀ e ∈ edges, e.1 ∈ places ∧ e.2 ∈ places) {events : List (Event V)} (hp : Proper edges events)
    (hq : ∀ q ∈ asked edges events, q.2.1 ∈ places ∧ q.2.2 ∈ places) :
    ∃ answers s', cuts stack places edges events DSet.new = (.ok answers, s') ∧
      List.Forall₂ (fun answer q => answer = true ↔ Conn q.1 q.2.1 q.2.2) answers (asked edges events) := by
  obtain ⟨s1, h1, r1⟩ := extendLoop_ok places false (rel_new (T := V))
  have h1' : DSet.extend 0 false places false DSet.new = (.ok (), s1) := h1
  have e1 : ∀ x, x ∈ ({ (Abs.new : Abs V) with elems := places.reverse ++ (Abs.new : Abs V).elems } : Abs V).elems ↔ x ∈ places :=
    fun x => by simp [Abs.new]
  have hm : ∀ x ∈ mentioned (left edges events), x ∈ places := fun x hx => by
    rw [left_eq] at hx
    obtain ⟨e, hm, hx⟩ := List.mem_flatMap.mp hx
    have := he e (List.mem_filter.mp hm).1
    simp only [List.mem_cons, List.not_mem_nil, or_false] at hx
    rcases hx with rfl | rfl
    · exact this.1
    · exact this.2
  obtain ⟨s2, a2, h2, r2, p2, e2⟩ := equateAll_ok hk hs (left edges events) r1 (fun x hx => (e1 x).mp hx) hm
  have e2' : ∀ x, x ∈ a2.elems ↔ x ∈ places := fun x => by
    rw [e2, e1]
    exact ⟨fun h => h.elim (hm x) id, .inr⟩
  obtain ⟨ans, s3, a3, h3, _, _, _, f3⟩ := replay_ok hk hs events (g := edges) r2 e2' he hp hq (fun x y => by
    have hmem : ∀ p, p ∈ a2.pairs ↔ p ∈ left edges events := fun p => by rw [p2]; simp [Abs.new]
    exact ⟨conn_mono fun q hq => (hmem q).mp hq, conn_mono fun q hq => (hmem q).mpr hq⟩)
  refine ⟨ans.reverse, s3, ?_, f3⟩
  unfold cuts
  rw [M.bind_ok h1', ← left_eq, M.bind_ok h2, M.bind_ok h3]
  rfl

end

-- a ring of four with a place apart; the ring falls into two when it is cut the second time
open Demo in
example : [0, 1, 2, 3, 4].dedup.length ≤ usizeMax ∧
    (∀ e ∈ [(0, 1), (1, 2), (2, 3), (3, 0)], e.1 ∈ [0, 1, 2, 3, 4] ∧ e.2 ∈ [0, 1, 2, 3, 4]) ∧
    Proper [(0, 1), (1, 2), (2, 3), (3, 0)] [.cut 1 2, .ask 1 2, .cut 3 0, .ask 1 2, .ask 2 3, .ask 0 4] ∧
    (∀ q ∈ asked [(0, 1), (1, 2), (2, 3), (3, 0)] [.cut 1 2, .ask 1 2, .cut 3 0, .ask 1 2, .ask 2 3, .ask 0 4],
      q.2.1 ∈ [0, 1, 2, 3, 4] ∧ q.2.2 ∈ [0, 1, 2, 3, 4]) ∧
    (cuts 64 [0, 1, 2, 3, 4] [(0, 1), (1, 2), (2, 3), (3, 0)]
      [.cut 1 2, .ask 1 2, .cut 3 0, .ask 1 2, .ask 2 3, .ask 0 4] DSet.new).1.toOption = some [true, false, true, false] :=
  ⟨by decide +kernel, by decide, ⟨by decide, by decide, trivial⟩, by decide, by decide +kernel⟩

end DS
