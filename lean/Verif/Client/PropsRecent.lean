import Verif.Client.LemmasRecent
/-!
# C144: the keys used most recently
-/

open Rust CB
namespace Client

section
variable {α : Type} [Cfg] [Elem α] [DecidableEq α] {cap : Nat}

/-- **C144 (hits and content).** A key is a hit exactly if it was used before and fewer than `cap` different keys were used
since. The buffer holds every key once, in the order of their last uses, and of those the last `cap`. Nothing panics. -/
theorem c144_recent (hu : Elem.uninitOk α = true) (hw : cap ≤ isizeMax) (hs : (cap + 1) * Elem.size α ≤ isizeMax)
    (hd : ∀ x : α, Elem.dropPanics x = false) (keys : List α) :
    ∃ cb hits s', withCapacity cap = .ok cb ∧ serve refresh keys ⟨cb, []⟩ = (.ok hits, s') ∧
      s'.cb.contents = .ok (lastN cap keys.dedup) ∧ hits.length = keys.length ∧
      ∀ pre key post, keys = pre ++ key :: post →
        ∃ hit, hits[pre.length]? = some hit ∧ (hit = true ↔ Fresh cap pre key) := by
  obtain ⟨cb, h1, h2⟩ := withCapacity_rep hu hw hs
  obtain ⟨hits, cb', dr', e, f, l, b⟩ := serve_ok (n := cap) hd keys (cb := cb) (past := []) []
    ⟨Reachable.withCapacity (.inl hw) h1, by simpa [lastN] using h2⟩
  exact ⟨cb, hits, _, h1, e, by simpa using f.2.contents_eq, l, by simpa using b⟩

/-- **C144 (more room never hurts).** What is a hit in a small buffer is a hit in a larger one. -/
theorem c144_inclusion (hu : Elem.uninitOk α = true) {large : Nat} (hl : cap ≤ large) (hw : large ≤ isizeMax)
    (hs : (large + 1) * Elem.size α ≤ isizeMax) (hd : ∀ x : α, Elem.dropPanics x = false) (keys : List α) :
    ∃ cb cb' hits hits' s s', withCapacity cap = .ok cb ∧ withCapacity large = .ok cb' ∧
      serve refresh keys ⟨cb, []⟩ = (.ok hits, s) ∧ serve refresh keys ⟨cb', []⟩ = (.ok hits', s') ∧
      ∀ i : Nat, hits[i]? = some true → hits'[i]? = some true := by
  have hs' : (cap + 1) * Elem.size α ≤ isizeMax := Nat.le_trans (Nat.mul_le_mul_right _ (by omega)) hs
  obtain ⟨cb, hits, s, h1, h2, _, l, h3⟩ := c144_recent hu (Nat.le_trans hl hw) hs' hd keys
  obtain ⟨cb', hits', s', g1, g2, _, _, g3⟩ := c144_recent hu hw hs hd keys
  refine ⟨cb, cb', hits, hits', s, s', h1, g1, h2, g2, fun i hi => ?_⟩
  have hlt : i < keys.length := by
    rw [← l]
    exact (List.getElem?_eq_some_iff.mp hi).1
  have e : keys = keys.take i ++ keys[i] :: keys.drop (i + 1) := by
    rw [← List.drop_eq_getElem_cons hlt, List.take_append_drop]
  have ei : (keys.take i).length = i := by rw [List.length_take]; omega
  obtain ⟨hit, a1, a2⟩ := h3 _ _ _ e
  obtain ⟨hit', b1, b2⟩ := g3 _ _ _ e
  rw [ei] at a1 b1
  rw [hi] at a1
  obtain ⟨a, b, e1, e2, e3⟩ := a2.mp (Option.some.inj a1).symm
  rw [b1, b2.mpr ⟨a, b, e1, e2, by omega⟩]

end

section
open CB.Demo

local instance calmKeys : Elem Nat := ⟨8, fun _ => false, true⟩

/-- the number of hits of a client in a buffer of a capacity -/
def hitsOf (step : Nat → M (St Nat) Bool) (cap : Nat) (keys : List Nat) : Option Nat :=
  (withCapacity cap).toOption.bind fun cb => (serve step keys ⟨cb, []⟩).1.toOption.map fun hits => hits.count true

/-- **C144 (contrast).** If instead the key that came in first falls out, more room can hurt: these keys have three hits in a
buffer of three, and only two in a buffer of four. -/
theorem c144_first_in :
    hitsOf fetch 3 [1, 2, 3, 4, 1, 2, 5, 1, 2, 3, 4, 5] = some 3 ∧ hitsOf fetch 4 [1, 2, 3, 4, 1, 2, 5, 1, 2, 3, 4, 5] = some 2 :=
  ⟨by decide +kernel, by decide +kernel⟩

-- the same keys with `refresh`; a buffer of two keeps the last two keys of `1, 2, 1, 3`
example : Elem.uninitOk Nat = true ∧ 4 ≤ isizeMax ∧ (4 + 1) * Elem.size Nat ≤ isizeMax ∧
    (∀ n : Nat, Elem.dropPanics n = false) ∧ hitsOf refresh 3 [1, 2, 3, 4, 1, 2, 5, 1, 2, 3, 4, 5] = some 2 ∧
    hitsOf refresh 4 [1, 2, 3, 4, 1, 2, 5, 1, 2, 3, 4, 5] = some 4 ∧ Fresh 2 [1, 2, 1, 3] 1 ∧ ¬ Fresh 2 [1, 2, 1, 3] 2 ∧
    lastN 2 [1, 2, 1, 3].dedup = [1, 3] := by
  refine ⟨rfl, by decide, by decide, fun _ => rfl, by decide +kernel, by decide +kernel, ?_, ?_, by decide⟩
  · rw [← mem_lastN_dedup]; decide
  · rw [← mem_lastN_dedup]; decide

end
end Client
