import Verif.Cnt.Spec
/-!
# Specification vocabulary: counters as multisets
-/

open Rust
namespace Cnt

variable {T : Type} [DecidableEq T]

/-- The counter stores exactly these multiplicities: a key is there if its multiplicity is not zero. -/
def Stores [Cfg] (c : Counter T) (f : T → Nat) : Prop :=
  Valid c ∧ ∀ k, c.get k = if f k = 0 then none else some (f k)

end Cnt
