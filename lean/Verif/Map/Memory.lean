import Verif.Rust.Base
/-!
# The contract of the capacity of `HashMap` and `Vec`

Nothing in this file models a file of the crate. `capacity()` is the number of elements a collection can hold before
it must grow. How much a collection grows, and whether it gets the memory, is decided by the standard library and the
allocator: `Std` collects these decisions, about which only what the documentation of `HashMap` and `Vec` promises is
assumed. A refused request is the panic "capacity overflow"; that the process is stopped because the allocator has no
memory left is not modelled.
-/

open Rust
namespace Mem

/-- What the standard library and the allocator decide. `moment` numbers the decisions, so that nothing is assumed
about two decisions being alike. -/
structure Std where
  /-- How many elements there is room for after a collection with room for `slots` was asked to hold `need`, more than
  it can take at the moment; `none`: refused. -/
  grow : (moment slots need : Nat) → Option Nat
  /-- growing gives what was asked for -/
  enough : ∀ {moment slots need n : Nat}, grow moment slots need = some n → need ≤ n
  /-- growing takes nothing away -/
  keeps : ∀ {moment slots need n : Nat}, grow moment slots need = some n → slots ≤ n
  /-- `HashMap::entry` makes room for a missing key before it is known whether the key will be inserted -/
  eager : Bool
  /-- removing a key leaves a place that cannot be used again before the next growth -/
  scar : (moment : Nat) → Bool

/-- A collection that grows takes at most `a` times what was asked for, and `b`. (`HashMap` rounds up to a power of two
of which it uses seven eighths, `Vec` doubles.) -/
def Std.Modest (std : Std) (a b : Nat) : Prop :=
  ∀ {moment slots need n : Nat}, std.grow moment slots need = some n → n ≤ max slots (a * need + b)

/-- A collection that grows gets at least twice its room; but if what it is asked to hold fits in half of its room, it
may tidy up in place instead. (`Vec` doubles. So does `HashMap`, which tidies up in place if the elements need at most
half of the places, the others being lost to removed keys.) -/
def Std.Doubles (std : Std) : Prop :=
  ∀ {moment slots need n : Nat}, std.grow moment slots need = some n → 2 * slots ≤ n ∨ n = slots ∧ 2 * need ≤ slots

/-- Nothing is refused. -/
def Std.Generous (std : Std) : Prop := ∀ moment slots need, std.grow moment slots need ≠ none

/-- The memory of one collection. -/
structure Room where
  /-- `capacity()` -/
  cap : Nat := 0
  /-- how many elements its memory has room for -/
  slots : Nat := 0
  /-- how often memory was taken from the allocator -/
  allocs : Nat := 0
  /-- how many decisions were made -/
  moment : Nat := 0
  /-- how many elements were moved to another place because the collection grew or tidied up -/
  moved : Nat := 0
deriving DecidableEq, Repr

namespace Room

/-- `reserve(additional)` on a collection that holds `len` elements. Growing to the room that is there already is tidying
up in place. -/
def reserve (std : Std) (len additional : Nat) : M Room Unit := fun r =>
  if len + additional ≤ r.cap then (.ok (), r)
  else
    match std.grow r.moment r.slots (len + additional) with
    | some n =>
      (.ok (), { cap := n, slots := n, allocs := if n = r.slots then r.allocs else r.allocs + 1, moment := r.moment + 1,
                 moved := r.moved + len })
    | none => (.error .capacityOverflow, { r with moment := r.moment + 1 })

/-- a key was removed -/
def removed (std : Std) (r : Room) : Room :=
  { r with cap := if std.scar r.moment then r.cap - 1 else r.cap, moment := r.moment + 1 }

/-- A collection of `len` elements can have this memory. -/
def Fit (len : Nat) (r : Room) : Prop := len ≤ r.cap ∧ r.cap ≤ r.slots

variable {std : Std} {len additional : Nat} {r : Room}

/-- the memory after growing to `n` with `len` elements inside -/
def grown (r : Room) (len n : Nat) : Room :=
  { cap := n, slots := n, allocs := if n = r.slots then r.allocs else r.allocs + 1, moment := r.moment + 1,
    moved := r.moved + len }

theorem reserve_fits (h : len + additional ≤ r.cap) : r.reserve std len additional = (.ok (), r) := by
  rw [reserve, if_pos h]

theorem reserve_grown {n : Nat} (h : ¬len + additional ≤ r.cap)
    (hg : std.grow r.moment r.slots (len + additional) = some n) :
    r.reserve std len additional = (.ok (), r.grown len n) := by
  rw [reserve, if_neg h, hg] <;> rfl

theorem reserve_refused (h : ¬len + additional ≤ r.cap)
    (hg : std.grow r.moment r.slots (len + additional) = none) :
    r.reserve std len additional = (.error .capacityOverflow, { r with moment := r.moment + 1 }) := by
  rw [reserve, if_neg h, hg] <;> rfl

/-- the three ways a request for room ends -/
theorem reserve_cases (std : Std) (len additional : Nat) (r : Room) :
    (len + additional ≤ r.cap ∧ r.reserve std len additional = (.ok (), r)) ∨
    (¬len + additional ≤ r.cap ∧ ∃ n, std.grow r.moment r.slots (len + additional) = some n ∧
      r.reserve std len additional = (.ok (), r.grown len n)) ∨
    (¬len + additional ≤ r.cap ∧ std.grow r.moment r.slots (len + additional) = none ∧
      r.reserve std len additional = (.error .capacityOverflow, { r with moment := r.moment + 1 })) := by
  by_cases h : len + additional ≤ r.cap
  · exact .inl ⟨h, reserve_fits h⟩
  · cases hg : std.grow r.moment r.slots (len + additional) with
    | none => exact .inr (.inr ⟨h, rfl, reserve_refused h hg⟩)
    | some n => exact .inr (.inl ⟨h, n, rfl, reserve_grown h hg⟩)

end Room

/-! ## some allocators, for examples -/

/-- gives what is asked for -/
def exact : Std where
  grow _ slots need := some (max slots need)
  enough h := by cases h; exact Nat.le_max_right _ _
  keeps h := by cases h; exact Nat.le_max_left _ _
  eager := false
  scar _ := false

/-- gives twice what is asked for, never room for more than `limit` -/
def doubling (limit : Nat) : Std where
  grow _ slots need := if 2 * need ≤ limit then some (max slots (2 * need)) else none
  enough h := by
    split at h
    · cases h; omega
    · simp at h
  keeps h := by
    split at h
    · cases h; exact Nat.le_max_left _ _
    · simp at h
  eager := true
  scar _ := true

theorem doubling_modest (limit : Nat) : (doubling limit).Modest 2 0 := by
  intro t s n m h
  simp only [doubling] at h
  split at h
  · cases h; exact Nat.le_refl _
  · simp at h

/-- adds what is asked for to what is there, and never uses the place of a removed key before it grows -/
def scarring : Std where
  grow _ slots need := some (slots + need)
  enough h := by cases h; omega
  keeps h := by cases h; omega
  eager := true
  scar _ := true

/-- doubles, and tidies up in place if half of the room is enough -/
def steady : Std where
  grow _ slots need := if 2 * need ≤ slots then some slots else some (max (2 * slots) need)
  enough h := by split at h <;> cases h <;> omega
  keeps h := by split at h <;> cases h <;> omega
  eager := false
  scar moment := moment % 2 == 0

theorem steady_doubles : steady.Doubles := by
  intro t s m n h
  simp only [steady] at h
  split at h
  · rename_i h2; cases h; exact .inr ⟨rfl, h2⟩
  · cases h; exact .inl (Nat.le_max_left _ _)

theorem exact_generous : exact.Generous := fun _ _ _ h => by cases h

end Mem
