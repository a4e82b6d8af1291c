import Verif.DS.SpecForest
/-!
# Specification vocabulary: a client that asks when two elements become connected
-/

open Rust
namespace DS

variable {T E : Type} [DecidableEq T]

/-- ```
for e in edges {
    let (a, b) = ends(&e);
    ds.union(a, b);
    if ds.in_union(&x, &y) { return Some(e) }
}
None
``` -/
def connects [Cfg] (stack : Nat) (ends : E → T × T) (x y : T) : List E → M (DSet T) (Option E)
  | [] => pure none
  | e :: edges => do
    DSet.union stack (ends e).1 (ends e).2 false false
    if ← DSet.inUnion stack x y false false then pure (some e)
    else connects stack ends x y edges

end DS
