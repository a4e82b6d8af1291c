import Verif.Cnt.Model
import Verif.Rust.FmtPretty
/-!
# `{:#?}` of counters
-/

open Rust.Fmt
namespace Cnt

/-- counter.rs:38-46 derived `Debug`; `order` is the iteration order of the map, `d` is the alternate `Debug` of the
items -/
def Counter.pretty {T : Type} (d : T → List Char) (order : List (T × Nat)) : List Char :=
  prettyStruct "Counter" [("counter", prettyMap (order.map fun e => (d e.1, debugNat e.2)))]

end Cnt
