import Verif.DS.SpecMem
/-!
# Specification vocabulary for the elements a refused vector spares
-/

namespace DS.Mem

variable {T : Type} [DecidableEq T]

/-- the unions of two elements of `old` among these calls, but for those with a key that panics -/
def unionsAmong (old : List T) : List (Call T) → List (Op T)
  | [] => []
  | .union y z false false :: fs =>
    if y ∈ old ∧ z ∈ old then .union y z false false :: unionsAmong old fs else unionsAmong old fs
  | _ :: fs => unionsAmong old fs

end DS.Mem
