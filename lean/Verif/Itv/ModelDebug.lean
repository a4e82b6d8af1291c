import Verif.Itv.Model
import Verif.Rust.Fmt
/-!
# `Debug` of bounds and intervals

Derived everywhere; `d` is `Debug` of the value type.
-/

open Rust.Fmt
namespace Itv

variable {T : Type}

/-- bounds.rs:11-15 derived `Debug` of `Bound` -/
def Bound.debug (d : T → List Char) (b : Bound T) : List Char :=
  debugStruct "Bound" [("val", d b.val), ("is_closed", debugBool b.isClosed)]

/-- bounds.rs:149-152 derived `Debug` of `LowerBound` -/
def LowerBound.debug (d : T → List Char) (b : LowerBound T) : List Char :=
  debugStruct "LowerBound" [("bound", b.bound.debug d)]

/-- bounds.rs:488-491 derived `Debug` of `UpperBound` -/
def UpperBound.debug (d : T → List Char) (b : UpperBound T) : List Char :=
  debugStruct "UpperBound" [("bound", b.bound.debug d)]

/-- interval.rs:12-16 derived `Debug` of `NonEmptyInterval` -/
def NonEmptyInterval.debug (d : T → List Char) (i : NonEmptyInterval T) : List Char :=
  debugStruct "NonEmptyInterval" [("lo", i.lo.debug d), ("up", i.up.debug d)]

/-- interval.rs:73-76 derived `Debug` of `Interval` -/
def Interval.debug (d : T → List Char) (i : Interval T) : List Char :=
  debugStruct "Interval" [("imp", debugOption (NonEmptyInterval.debug d) i.imp)]

end Itv
