import Verif.Cnt.ModelCost
import Verif.Cnt.Spec
/-!
# Specification vocabulary for the costs of counters
-/

open Rust
namespace Cnt.Cost

/-- A call that changes a counter; `order` is the iteration order of the other counter. The flag says whether the user's
code panics after the given items or entries. -/
inductive Call (T : Type)
  | push (x : T)
  | extend (items : List T) (panics : Bool)
  | extendRef (items : List T) (panics : Bool)
  | addAssign (order : List (T × Nat)) (panics : Bool)
  | addAssignRef (order : List (T × Nat)) (panics : Bool)
  | subAssign (order : List (T × Nat)) (panics : Bool)
  | subAssignRef (order : List (T × Nat)) (panics : Bool)

namespace Call
variable {T : Type} [DecidableEq T]

/-- how many items or entries the call is given -/
def size : Call T → Nat
  | push _ => 1
  | extend xs _ | extendRef xs _ => xs.length
  | addAssign xs _ | addAssignRef xs _ | subAssign xs _ | subAssignRef xs _ => xs.length

/-- whether they are given by reference -/
def byRef : Call T → Bool
  | push _ | extend _ _ | addAssign _ _ | subAssign _ _ => false
  | extendRef _ _ | addAssignRef _ _ | subAssignRef _ _ => true

/-- the call, with its costs -/
def run [Cfg] : Call T → M (State T) Unit
  | push x => Cost.push x
  | extend xs p => Cost.extend xs p
  | extendRef xs p => Cost.extendRef xs p
  | addAssign o p => Cost.addAssign o p
  | addAssignRef o p => Cost.addAssignRef o p
  | subAssign o p => Cost.subAssign o p
  | subAssignRef o p => Cost.subAssignRef o p

/-- the call as in `Cnt/Model.lean` -/
def plain [Cfg] : Call T → M (Counter T) Unit
  | push x => Counter.push x
  | extend xs p => Counter.extend xs p
  | extendRef xs p => Counter.extendRef xs p
  | addAssign o p => Counter.addAssign o p
  | addAssignRef o p => Counter.addAssignRef o p
  | subAssign o p => Counter.subAssign o p
  | subAssignRef o p => Counter.subAssignRef o p
end Call

/-- The sort gives a permutation of the places in its input with the keys in order, whatever the keys. -/
def Sorts {k : Nat} (t : SortTree k) : Prop :=
  ∀ keys : Fin k → Nat, (t.run keys).1.Perm (List.finRange k) ∧ (t.run keys).1.Pairwise fun i j => keys i ≤ keys j

/-- the sort as a function on lists -/
def asSort (t : (k : Nat) → SortTree k) {β : Type} (xs : List (Nat × β)) : List (Nat × β) :=
  ((t xs.length).run fun i => xs[i].1).1.map fun i => xs[i]

end Cnt.Cost
