import Verif.Client.LemmasOnce
/-!
# C154: the first item of a stream that has come only once
-/

open Rust CB Cnt
namespace Client

section
variable {α : Type} [Cfg] [Elem α] [DecidableEq α] {n : Nat}

/-- **C154.** If the line has room for the different items of the stream, nothing panics and nothing is overwritten. After every
item the answer is the first item so far that has come only once, or `None` if each has come again. -/
theorem c154_first_once (hu : Elem.uninitOk α = true) (hn : n ≤ isizeMax) (hs : (n + 1) * Elem.size α ≤ isizeMax)
    (stream : List α) (hl : stream.length ≤ usizeMax) (hroom : stream.dedup.length ≤ n) :
    ∃ cb answers w, withCapacity n = .ok cb ∧ seeAll stream ⟨⟨cb, []⟩, Counter.new⟩ = (.ok answers, w) ∧ w.st.dropped = [] ∧
      answers.length = stream.length ∧
      ∀ i (hi : i < answers.length), (∀ x, answers[i] = some x ↔ FirstOnce (stream.take (i + 1)) x) ∧
        (answers[i] = none ↔ ∀ x ∈ stream.take (i + 1), 2 ≤ (stream.take (i + 1)).count x) := by
  obtain ⟨cb, e1, hr⟩ := withCapacity_rep hu hn hs
  obtain ⟨as, w, h1, h2, h3, h4⟩ := seeAll_ok stream (xs := []) (q := []) (w := ⟨⟨cb, []⟩, Counter.new⟩) hl hroom hr valid_new
    (fun k => rfl) ⟨.nil, fun x h => (by cases h), rfl⟩
  refine ⟨cb, as, w, e1, h1, h2, h3, fun i hi => ?_⟩
  rw [h4 i hi, List.nil_append]
  exact ⟨fun x => once_head, once_none⟩

/-- **C154 (little room).** With any capacity, if the destructors of the items do not panic, an answer is an item that has come
only once so far; but it need not be the first (see the example). -/
theorem c154_once (hu : Elem.uninitOk α = true) (hn : n ≤ isizeMax) (hs : (n + 1) * Elem.size α ≤ isizeMax)
    (stream : List α) (hl : stream.length ≤ usizeMax) (hc : Calm stream) :
    ∃ cb answers w, withCapacity n = .ok cb ∧ seeAll stream ⟨⟨cb, []⟩, Counter.new⟩ = (.ok answers, w) ∧
      answers.length = stream.length ∧
      ∀ i (hi : i < answers.length) x, answers[i] = some x → (stream.take (i + 1)).count x = 1 := by
  obtain ⟨cb, e1, hr⟩ := withCapacity_rep hu hn hs
  obtain ⟨as, w, h1, h3, h4⟩ := seeAll_any stream (xs := []) (q := []) (w := ⟨⟨cb, []⟩, Counter.new⟩) hl hc hr valid_new
    (fun k => rfl) (fun x h => by cases h)
  exact ⟨cb, as, w, e1, h1, h3, h4⟩

end

/-- the answers of a run with a line of `n` places -/
def answersOf [Cfg] [Elem Nat] (n : Nat) (stream : List Nat) : Option (List (Option Nat)) :=
  match (withCapacity n : Except Fault (Buf Nat)) with
  | .ok cb => (seeAll stream ⟨⟨cb, []⟩, Counter.new⟩).1.toOption
  | .error _ => none

open CB.Demo in
example : Elem.uninitOk Nat = true ∧ 3 ≤ isizeMax ∧ (3 + 1) * Elem.size Nat ≤ isizeMax ∧ [4, 5, 4, 6, 5, 6].length ≤ usizeMax ∧
    [4, 5, 4, 6, 5, 6].dedup.length ≤ 3 ∧
    answersOf 3 [4, 5, 4, 6, 5, 6] = some [some 4, some 4, some 5, some 5, some 6, none] :=
  ⟨rfl, by decide, by decide, by decide, by decide, by decide +kernel⟩

-- with one place 4 is overwritten by 5, and the answer is 5 though 4 has come only once
open CB.Demo in
example : Calm [4, 5, 5] ∧ answersOf 1 [4, 5, 5] = some [some 4, some 5, none] ∧ FirstOnce [4, 5] 4 :=
  ⟨by unfold Calm; decide, by decide +kernel, [], [5], rfl, by simp, by simp, fun y hy => by cases hy⟩

end Client
