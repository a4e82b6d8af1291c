import Verif.DS.Spec
/-!
# Specification vocabulary: a client that picks a spanning forest

The usual client of a disjoint set (Kruskal's algorithm): edges are taken one after the other, and an edge is picked if
its ends are not connected yet.
-/

open Rust
namespace DS

variable {T E : Type} [DecidableEq T]

/-- ```
for e in edges {
    let (a, b) = ends(&e);
    if !ds.in_union(&a, &b) {
        ds.union(a, b);
        picked.push(e);
    }
}
``` -/
def pick [Cfg] (stack : Nat) (ends : E → T × T) : List E → M (DSet T) (List E)
  | [] => pure []
  | e :: edges => do
    if ← DSet.inUnion stack (ends e).1 (ends e).2 false false then pick stack ends edges
    else
      DSet.union stack (ends e).1 (ends e).2 false false
      let picked ← pick stack ends edges
      pure (e :: picked)

/-- all ends of the edges -/
def allEnds (ends : E → T × T) (edges : List E) : List T := edges.flatMap fun e => [(ends e).1, (ends e).2]

end DS
