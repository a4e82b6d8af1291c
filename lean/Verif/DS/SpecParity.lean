import Verif.DS.Spec
/-!
# Specification vocabulary: a client that solves equations between two-valued unknowns

An equation says that two unknowns are equal, or that they differ. The client keeps two elements for every unknown `v`:
`(v, false)` stands for `v` and `(v, true)` for its opposite. Two-colouring a graph is the case that all equations say
"differ".
-/

open Rust
namespace DS

/-- `left == right`, or `left != right` if `differ` -/
structure Equation (V : Type) where
  left : V
  right : V
  differ : Bool
deriving DecidableEq

variable {V : Type}

/-- the equation holds for these values -/
def Equation.Holds (e : Equation V) (val : V → Bool) : Prop := (val e.left ^^ val e.right) = e.differ

/-- the values solve all equations -/
def Solves (val : V → Bool) (es : List (Equation V)) : Prop := ∀ e ∈ es, e.Holds val

/-- the equations have a solution -/
def Solvable (es : List (Equation V)) : Prop := ∃ val, Solves val es

open Classical in
/-- the equations of the second list that do not contradict the first list and the ones kept before -/
noncomputable def kept : List (Equation V) → List (Equation V) → List (Equation V)
  | _, [] => []
  | before, e :: es => if Solvable (e :: before) then e :: kept (e :: before) es else kept before es

/-- the unknowns -/
def unknowns (es : List (Equation V)) : List V := es.flatMap fun e => [e.left, e.right]

variable [DecidableEq V]

/-- The client's loop; it returns the equations it has accepted.
```
for e in equations {
    let (u, v) = (e.left, e.right);
    ds.extend(vec![(u, false), (u, true), (v, false), (v, true)]);
    if !ds.in_union(&(u, false), &(v, !e.differ)) {
        ds.union((u, false), (v, e.differ));
        ds.union((u, true), (v, !e.differ));
        accepted.push(e);
    }
}
``` -/
def accept [Cfg] (stack : Nat) : List (Equation V) → M (DSet (V × Bool)) (List (Equation V))
  | [] => pure []
  | e :: es => do
    DSet.extend 4 false [(e.left, false), (e.left, true), (e.right, false), (e.right, true)] false
    if ← DSet.inUnion stack (e.left, false) (e.right, !e.differ) false false then accept stack es
    else
      DSet.union stack (e.left, false) (e.right, e.differ) false false
      DSet.union stack (e.left, true) (e.right, !e.differ) false false
      let accepted ← accept stack es
      pure (e :: accepted)

end DS
