import Verif.Itv.ModelDebug
import Verif.Itv.ModelPretty
import Verif.Rust.FmtFlags
/-!
# `Debug` of bounds and intervals with formatting flags

Derived everywhere; `d` is `Debug` of the value type with the same flags.
-/

open Rust.Fmt
namespace Itv

variable {T : Type}

/-- bounds.rs:11-15 derived `Debug` of `Bound` -/
def Bound.fmt (fl : Flags) (d : T → List Char) (b : Bound T) : List Char :=
  fmtStruct fl "Bound" [("val", d b.val), ("is_closed", fmtBool fl b.isClosed)]

/-- bounds.rs:149-152 derived `Debug` of `LowerBound` -/
def LowerBound.fmt (fl : Flags) (d : T → List Char) (b : LowerBound T) : List Char :=
  fmtStruct fl "LowerBound" [("bound", b.bound.fmt fl d)]

/-- bounds.rs:488-491 derived `Debug` of `UpperBound` -/
def UpperBound.fmt (fl : Flags) (d : T → List Char) (b : UpperBound T) : List Char :=
  fmtStruct fl "UpperBound" [("bound", b.bound.fmt fl d)]

/-- interval.rs:12-16 derived `Debug` of `NonEmptyInterval` -/
def NonEmptyInterval.fmt (fl : Flags) (d : T → List Char) (i : NonEmptyInterval T) : List Char :=
  fmtStruct fl "NonEmptyInterval" [("lo", i.lo.fmt fl d), ("up", i.up.fmt fl d)]

/-- interval.rs:73-76 derived `Debug` of `Interval` -/
def Interval.fmt (fl : Flags) (d : T → List Char) (i : Interval T) : List Char :=
  fmtStruct fl "Interval" [("imp", fmtOption fl (NonEmptyInterval.fmt fl d) i.imp)]

end Itv
