import Verif.DS.Model
import Verif.Rust.FmtPretty
/-!
# `{:#?}` of disjoint sets
-/

open Rust.Fmt
namespace DS

/-- disjoint_set.rs:10-14 derived `Debug` of `Data` -/
def Data.pretty (x : Data) : List Char :=
  prettyStruct "Data" [("parent", debugNat x.parent), ("rank", debugNat x.rank)]

/-- disjoint_set.rs:104-108 derived `Debug` of `DisjointSet`; `order` is the iteration order of `ids`, `d` is the alternate
`Debug` of the elements -/
def DSet.pretty {T : Type} (d : T → List Char) (order : List (T × Nat)) (s : DSet T) : List Char :=
  prettyStruct "DisjointSet" [("ids", prettyMap (order.map fun e => (d e.1, debugNat e.2))),
    ("data_by_id", prettyList (s.dataById.map Data.pretty))]

end DS
