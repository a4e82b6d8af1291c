import Verif.Itv.Model
import Verif.Rust.FmtPretty
/-!
# `{:#?}` of bounds and intervals

Derived everywhere; `d` is the alternate `Debug` of the value type.
-/

open Rust.Fmt
namespace Itv

variable {T : Type}

/-- bounds.rs:11-15 derived `Debug` of `Bound` -/
def Bound.pretty (d : T → List Char) (b : Bound T) : List Char :=
  prettyStruct "Bound" [("val", d b.val), ("is_closed", debugBool b.isClosed)]

/-- bounds.rs:149-152 derived `Debug` of `LowerBound` -/
def LowerBound.pretty (d : T → List Char) (b : LowerBound T) : List Char :=
  prettyStruct "LowerBound" [("bound", b.bound.pretty d)]

/-- bounds.rs:488-491 derived `Debug` of `UpperBound` -/
def UpperBound.pretty (d : T → List Char) (b : UpperBound T) : List Char :=
  prettyStruct "UpperBound" [("bound", b.bound.pretty d)]

/-- interval.rs:12-16 derived `Debug` of `NonEmptyInterval` -/
def NonEmptyInterval.pretty (d : T → List Char) (i : NonEmptyInterval T) : List Char :=
  prettyStruct "NonEmptyInterval" [("lo", i.lo.pretty d), ("up", i.up.pretty d)]

/-- interval.rs:73-76 derived `Debug` of `Interval` -/
def Interval.pretty (d : T → List Char) (i : Interval T) : List Char :=
  prettyStruct "Interval" [("imp", prettyOption (NonEmptyInterval.pretty d) i.imp)]

end Itv
