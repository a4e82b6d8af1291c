import Verif.Map.Memory
/-!
# Amortised cost of growing

Nothing in this file models a file of the crate. If a collection that grows at least doubles (`Std.Doubles`), the number
of elements that were moved is paid by the room there is and by the places lost to removed keys.
-/

open Rust
namespace Mem.Room

/-- A collection of `len` elements has this memory, the elements moved so far are paid by the capacity (and `extra`), and
the number of allocations is logarithmic. -/
structure Paid (len extra : Nat) (r : Room) : Prop where
  fit : r.Fit len
  moved : r.moved ≤ r.cap + extra
  allocs : r.allocs = 0 ∨ 2 ^ r.allocs ≤ 2 * r.slots

theorem paid_empty : Paid 0 0 {} := ⟨⟨Nat.le_refl _, Nat.le_refl _⟩, Nat.le_refl _, .inl rfl⟩

variable {std : Std} {len additional extra : Nat} {r : Room}

theorem Paid.moment (h : Paid len extra r) (m : Nat) : Paid len extra { r with moment := m } :=
  ⟨h.fit, h.moved, h.allocs⟩

theorem Paid.le (h : Paid len extra r) {len' : Nat} (hl : len' ≤ len) : Paid len' extra r :=
  ⟨⟨Nat.le_trans hl h.fit.1, h.fit.2⟩, h.moved, h.allocs⟩

theorem Paid.more (h : Paid len extra r) {len' : Nat} (hl : len' ≤ r.cap) : Paid len' extra r :=
  ⟨⟨hl, h.fit.2⟩, h.moved, h.allocs⟩

theorem Paid.weaken (h : Paid len extra r) {extra' : Nat} (he : extra ≤ extra') : Paid len extra' r :=
  ⟨h.fit, Nat.le_trans h.moved (Nat.add_le_add_left he _), h.allocs⟩

theorem Paid.grown (hd : std.Doubles) (h : Paid len extra r) (hc : ¬len + additional ≤ r.cap) {n : Nat}
    (hg : std.grow r.moment r.slots (len + additional) = some n) : Paid (len + additional) extra (r.grown len n) := by
  obtain ⟨⟨h1, h2⟩, h3, h4⟩ := h
  have h5 := std.enough hg
  refine ⟨⟨h5, Nat.le_refl _⟩, ?_, ?_⟩
  · show r.moved + len ≤ n + extra
    rcases hd hg with hd | ⟨rfl, hd⟩ <;> omega
  · show (if n = r.slots then r.allocs else r.allocs + 1) = 0 ∨
      2 ^ (if n = r.slots then r.allocs else r.allocs + 1) ≤ 2 * n
    by_cases hn : n = r.slots
    · rw [if_pos hn, hn]; exact h4
    · rw [if_neg hn]
      refine .inr ?_
      rcases hd hg with hd | ⟨hd, _⟩
      · rcases h4 with h4 | h4
        · rw [h4]; omega
        · rw [Nat.pow_succ]; omega
      · exact absurd hd hn

/-- a request for room, granted or refused -/
theorem Paid.reserve (hd : std.Doubles) (h : Paid len extra r) (additional : Nat) :
    Paid len extra (r.reserve std len additional).2 ∧
    ((r.reserve std len additional).1 = .ok () → Paid (len + additional) extra (r.reserve std len additional).2) := by
  rcases reserve_cases std len additional r with ⟨h1, h2⟩ | ⟨h1, n, h2, h3⟩ | ⟨h1, h2, h3⟩
  · rw [h2]; exact ⟨h, fun _ => h.more h1⟩
  · rw [h3]
    have := h.grown hd h1 h2
    exact ⟨this.le (Nat.le_add_right _ _), fun _ => this⟩
  · rw [h3]; exact ⟨h.moment _, fun h => by cases h⟩

theorem Paid.removed (h : Paid (len + 1) extra r) : Paid len (extra + 1) (r.removed std) := by
  obtain ⟨⟨h1, h2⟩, h3, h4⟩ := h
  refine ⟨⟨?_, ?_⟩, ?_, h4⟩
  · show len ≤ if std.scar r.moment then r.cap - 1 else r.cap
    split <;> omega
  · show (if std.scar r.moment then r.cap - 1 else r.cap) ≤ r.slots
    split <;> omega
  · show r.moved ≤ (if std.scar r.moment then r.cap - 1 else r.cap) + (extra + 1)
    split <;> omega

end Mem.Room
