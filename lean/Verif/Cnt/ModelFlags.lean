import Verif.Cnt.ModelDebug
import Verif.Cnt.ModelPretty
import Verif.Rust.FmtFlags
/-!
# `Debug` of counters with formatting flags
-/

open Rust.Fmt
namespace Cnt

/-- counter.rs:38-46 derived `Debug`; `order` is the iteration order of the map, `d` is `Debug` of the items with the same
flags -/
def Counter.fmt {T : Type} (fl : Flags) (d : T → List Char) (order : List (T × Nat)) : List Char :=
  fmtStruct fl "Counter" [("counter", fmtMap fl (order.map fun e => (d e.1, fmtNat fl e.2)))]

end Cnt
