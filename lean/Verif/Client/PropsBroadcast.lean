import Verif.Client.LemmasBroadcast
/-!
# C141: readers that may fall behind
-/

open Rust CB
namespace Client

section
variable {ρ α : Type} [Cfg] [Elem α] [DecidableEq ρ] {cap : Nat}

/-- **C141.** Whatever is written and whoever looks when, nothing panics; every poll returns the latest messages that the
reader has not seen, in order, as many as fit in the buffer, and the exact number of those it missed. At the end the buffer
holds the latest messages. -/
theorem c141_polls (hu : Elem.uninitOk α = true) (hw : cap ≤ isizeMax) (hs : (cap + 1) * Elem.size α ≤ isizeMax)
    (hd : ∀ x : α, Elem.dropPanics x = false) (os : List (Occur ρ α)) (hn : (written os).length ≤ usizeMax) :
    ∃ cb outs b, withCapacity cap = .ok cb ∧ occurAll os ⟨⟨cb, []⟩, 0, fun _ => 0⟩ = (.ok outs, b) ∧
      b.st.cb.contents = .ok (lastN cap (written os)) ∧ outs.length = os.length ∧
      (∀ (i : Nat) (v : α), os[i]? = some (.write v) → outs[i]? = some none) ∧
      ∀ pre r post, os = pre ++ .poll r :: post →
        outs[pre.length]? = some (some ((unseen r [] pre).length - cap, lastN cap (unseen r [] pre))) := by
  obtain ⟨cb, h1, h2⟩ := withCapacity_rep hu hw hs
  obtain ⟨b, outs, g1, k, l, w, p⟩ := occurAll_ok (c := cap) hd os (b := ⟨⟨cb, []⟩, 0, fun _ => 0⟩) (w := [])
    (new := fun _ : ρ => []) ⟨by simpa [lastN] using h2, rfl, fun _ => Nat.le_refl _, fun _ => rfl⟩ hn
  exact ⟨cb, outs, b, h1, g1, k.ring.contents_eq, l, w, p⟩

/-- **C141 (a whole reader).** What a reader got, what it was told to have missed and what it has not seen yet are all
messages; and if it missed none, it got all messages in order. -/
theorem c141_reader (hu : Elem.uninitOk α = true) (hw : cap ≤ isizeMax) (hs : (cap + 1) * Elem.size α ≤ isizeMax)
    (hd : ∀ x : α, Elem.dropPanics x = false) (os : List (Occur ρ α)) (hn : (written os).length ≤ usizeMax) (r : ρ) :
    ∃ cb outs b, withCapacity cap = .ok cb ∧ occurAll os ⟨⟨cb, []⟩, 0, fun _ => 0⟩ = (.ok outs, b) ∧
      ((pollsOf r os outs).map fun g => g.1 + g.2.length).sum + (unseen r [] os).length = (written os).length ∧
      ((∀ g ∈ pollsOf r os outs, g.1 = 0) → (pollsOf r os outs).flatMap (·.2) ++ unseen r [] os = written os) := by
  obtain ⟨cb, h1, h2⟩ := withCapacity_rep hu hw hs
  have k : Keeps cap (⟨⟨cb, []⟩, 0, fun _ => 0⟩ : Broadcast ρ α) [] fun _ => [] :=
    ⟨by simpa [lastN] using h2, rfl, fun _ => Nat.le_refl _, fun _ => rfl⟩
  obtain ⟨b, outs, g1, -⟩ := occurAll_ok (c := cap) hd os k hn
  obtain ⟨i1, i2⟩ := polls_sum hd r os k hn g1
  exact ⟨cb, outs, b, h1, g1, by simpa using i1, by simpa using i2⟩

end

section
open CB.Demo

local instance calmMessages : Elem Nat := ⟨8, fun _ => false, true⟩

-- a reader that looks often enough, and one that looks once and misses two of five messages
example : Elem.uninitOk Nat = true ∧ 3 ≤ isizeMax ∧ (3 + 1) * Elem.size Nat ≤ isizeMax ∧
    (∀ n : Nat, Elem.dropPanics n = false) ∧
    (written ([.write 1, .write 2, .poll true, .write 3, .write 4, .write 5, .poll true, .poll false] : List (Occur Bool Nat))).length
      ≤ usizeMax ∧
    (withCapacity 3).toOption.map (fun cb : Buf Nat =>
      (occurAll [.write 1, .write 2, .poll true, .write 3, .write 4, .write 5, .poll true, .poll false]
        (⟨⟨cb, []⟩, 0, fun _ => 0⟩ : Broadcast Bool Nat)).1.toOption)
      = some (some [none, none, some (0, [1, 2]), none, none, none, some (0, [3, 4, 5]), some (2, [3, 4, 5])]) :=
  ⟨rfl, by decide, by decide, fun _ => rfl, by decide, by decide +kernel⟩

end
end Client
