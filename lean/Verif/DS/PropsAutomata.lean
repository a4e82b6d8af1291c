import Verif.DS.LemmasAutomata
import Verif.DS.Props
/-!
# C140: states of an automaton that accept the same words
-/

open Rust
namespace DS

section
variable {Q A : Type} [DecidableEq Q] [Cfg]

/-- **C140.** The algorithm of Hopcroft and Karp answers whether two states of a finite automaton accept the same words, in no
more than `1 + letters * states` rounds and one to see that there is nothing left. If it answers `true`, all states that
are in union afterwards accept the same words, the two among them. -/
theorem c140_alike {stack : Nat} (hk : 64 ≤ stack) {m : Automaton Q A} {states : List Q}
    (small : states.dedup.length ≤ usizeMax) (hnext : ∀ x ∈ states, ∀ c ∈ m.letters, m.next x c ∈ states) {p q : Q}
    (hp : p ∈ states) (hq : q ∈ states) {fuel : Nat} (hf : 1 + m.letters.length * states.dedup.length < fuel) :
    ∃ b s', alike stack m fuel [(p, q)] DSet.new = (.ok b, s') ∧ (b = true ↔ m.Alike p q) ∧
      (b = true → ∀ x y, (DSet.inUnion stack x y false false s').1 = .ok true → m.Alike x y) ∧
      (b = true → p ≠ q → (DSet.inUnion stack p q false false s').1 = .ok true) := by
  obtain ⟨b, s', a, h1, r, hc, h2, h3⟩ := alike_ok hk small hnext (p := p) (q := q) fuel [(p, q)] (rel_new (T := Q))
    (fun x hx => by cases hx) (fun t ht => by rw [List.mem_singleton.mp ht]; exact ⟨hp, hq⟩)
    (fun t ht => ⟨[], fun _ h => (List.not_mem_nil h).elim, by rw [List.mem_singleton.mp ht]; rfl⟩)
    (fun t ht => by cases ht) (.step (by simp [Abs.new])) (by simpa [Abs.new] using hf)
  refine ⟨b, s', h1, h2, fun hb x y hxy => ?_, fun hb hne => ?_⟩
  · obtain ⟨c, s2, g1, _, g2⟩ := inUnion_ok (stack := stack) r (by rw [r.card]; exact lt_two_pow hc hk) x y
    rw [g1] at hxy
    exact (h3 hb).1.alike (g2.mp (Except.ok.inj hxy)).2.2
  · obtain ⟨c, s2, g1, _, g2⟩ := inUnion_ok (stack := stack) r (by rw [r.card]; exact lt_two_pow hc hk) p q
    have hcn := (h3 hb).2
    rcases conn_support r.pairs hcn with h | ⟨h4, h5⟩
    · exact absurd h hne
    · rw [g1, g2.mpr ⟨h4, h5, hcn⟩]

end

/-- counts letters modulo six and accepts multiples of three, with a dead state 6 for the letter `false` -/
def countSix : Automaton Nat Bool := ⟨[true, false], fun x b => if b && x < 6 then (x + 1) % 6 else 6, fun x => x % 3 == 0 && x < 6⟩

-- 1 and 4 accept the same words, 1 and 2 do not
open Demo in
example : [0, 1, 2, 3, 4, 5, 6].dedup.length ≤ usizeMax ∧
    (∀ x ∈ [0, 1, 2, 3, 4, 5, 6], ∀ c ∈ countSix.letters, countSix.next x c ∈ [0, 1, 2, 3, 4, 5, 6]) ∧
    1 + countSix.letters.length * [0, 1, 2, 3, 4, 5, 6].dedup.length < 16 ∧
    (alike 64 countSix 16 [(1, 4)] DSet.new).1.toOption = some true ∧
    (alike 64 countSix 16 [(1, 2)] DSet.new).1.toOption = some false :=
  ⟨by decide +kernel, by decide, by decide, by decide +kernel, by decide +kernel⟩

end DS
