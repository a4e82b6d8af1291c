import Verif.CB.Model
/-!
# Model of code that edits the elements in place

`slices_mut` and `linearize` hand out mutable slices (circular.rs:614-625, 644-650). What a client does with a slice (sort
it, reverse it, rotate it, fill it, swap two elements …) is an arbitrary function from the old elements to the new ones,
which may also return something or panic. Code without `unsafe` cannot change the length of a slice; the theorems take this
as a hypothesis. The values that the client takes out of the slice are theirs, the buffer does not drop them.
-/

open Rust
namespace CB
variable {α β : Type}

/-- What client code does with one slice: its outcome, and the elements it leaves in the slice -/
abbrev Edit (α β : Type) := List α → Except Fault β × List α

/-- What client code does with two slices -/
abbrev Edit2 (α β : Type) := List α → List α → Except Fault β × List α × List α

/-- Client code that keeps the length of the slice, as all safe code does -/
def Edit.Keeps (f : Edit α β) : Prop := ∀ xs, (f xs).2.length = xs.length

/-- Client code that keeps the length of both slices -/
def Edit2.Keeps (f : Edit2 α β) : Prop :=
  ∀ xs ys, (f xs ys).2.1.length = xs.length ∧ (f xs ys).2.2.length = ys.length

/-- The elements seen through a mutable slice: the region (offset, length) of the backing slice, all initialised -/
def readRegion (r : Nat × Nat) (cb : Buf α) : Except Fault (List α) := do
  asInit (← sliceRange cb.buf r.1 (r.1 + r.2))

/-- The backing slice after new elements have been stored through a mutable slice of as many elements -/
def storeRegion (r : Nat × Nat) (vs : List α) (b : List (Option α)) : List (Option α) :=
  b.take r.1 ++ vs.map some ++ b.drop (r.1 + vs.length)

section
variable [Cfg]

/-- `let (a, b) = cb.slices_mut(); f(a, b)` (circular.rs:614-625) -/
def editSlices (f : Edit2 α β) : M (St α) β := do
  let (a, b) ← self_ (·.slicesMut)
  let xs ← self_ (readRegion a)
  let ys ← self_ (readRegion b)
  setBuf fun cb => { cb with buf := storeRegion b (f xs ys).2.2 (storeRegion a (f xs ys).2.1 cb.buf) }
  M.lift (f xs ys).1

/-- `f(cb.linearize())` (circular.rs:644-650): the returned slice is `self.buffer[..self.end]`. -/
def editLinear (f : Edit α β) : M (St α) β := do
  let xs ← linearize
  setBuf fun cb => { cb with buf := storeRegion (0, cb.end_) (f xs).2 cb.buf }
  M.lift (f xs).1

end
end CB
