import Verif.DS.Model
import Verif.Rust.Fmt
/-!
# `Debug` of disjoint sets
-/

open Rust.Fmt
namespace DS

/-- disjoint_set.rs:10-14 derived `Debug` of `Data` -/
def Data.debug (x : Data) : List Char :=
  debugStruct "Data" [("parent", debugNat x.parent), ("rank", debugNat x.rank)]

/-- disjoint_set.rs:104-108 derived `Debug` of `DisjointSet`; `order` is the iteration order of `ids`, `d` is `Debug` of
the elements -/
def DSet.debug {T : Type} (d : T → List Char) (order : List (T × Nat)) (s : DSet T) : List Char :=
  debugStruct "DisjointSet" [("ids", debugMap (order.map fun e => (d e.1, debugNat e.2))),
    ("data_by_id", debugList (s.dataById.map Data.debug))]

end DS
