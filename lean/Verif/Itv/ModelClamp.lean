import Verif.Itv.Model
/-!
# Model of the provided `Ord::clamp` of bounds

`impl Ord for LowerBound` and `UpperBound` give only `cmp` (bounds.rs); `clamp` is the body std provides. It asserts
`min <= max` and compares with the operators of `PartialOrd`.
-/

open Rust
namespace Itv
variable {T : Type} [LinearOrder T]

/-- provided `Ord::clamp` on lower bounds -/
def LowerBound.clamp (self min max : LowerBound T) : Except Fault (LowerBound T) := do
  if min.le max = false then throw .explicit
  if self.lt min then return min
  else if self.gt max then return max
  else return self

/-- provided `Ord::clamp` on upper bounds -/
def UpperBound.clamp (self min max : UpperBound T) : Except Fault (UpperBound T) := do
  if min.le max = false then throw .explicit
  if self.lt min then return min
  else if self.gt max then return max
  else return self

end Itv
