import Verif.DS.ModelDebug
import Verif.DS.ModelPretty
import Verif.Rust.FmtFlags
/-!
# `Debug` of disjoint sets with formatting flags
-/

open Rust.Fmt
namespace DS

/-- disjoint_set.rs:10-14 derived `Debug` of `Data` -/
def Data.fmt (fl : Flags) (x : Data) : List Char :=
  fmtStruct fl "Data" [("parent", fmtNat fl x.parent), ("rank", fmtNat fl x.rank)]

/-- disjoint_set.rs:104-108 derived `Debug` of `DisjointSet`; `order` is the iteration order of `ids`, `d` is `Debug` of the
elements with the same flags -/
def DSet.fmt {T : Type} (fl : Flags) (d : T → List Char) (order : List (T × Nat)) (s : DSet T) : List Char :=
  fmtStruct fl "DisjointSet" [("ids", fmtMap fl (order.map fun e => (d e.1, fmtNat fl e.2))),
    ("data_by_id", fmtList fl (s.dataById.map (Data.fmt fl)))]

end DS
