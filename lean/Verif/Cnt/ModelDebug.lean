import Verif.Cnt.Model
import Verif.Rust.Fmt
/-!
# `Debug` of counters
-/

open Rust.Fmt
namespace Cnt

/-- counter.rs:38-46 derived `Debug`; `order` is the iteration order of the map, `d` is `Debug` of the items -/
def Counter.debug {T : Type} (d : T → List Char) (order : List (T × Nat)) : List Char :=
  debugStruct "Counter" [("counter", debugMap (order.map fun e => (d e.1, debugNat e.2)))]

end Cnt
