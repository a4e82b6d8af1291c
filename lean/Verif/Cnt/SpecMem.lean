import Verif.Cnt.ModelMem
import Verif.Cnt.Spec
/-!
# Specification vocabulary for the memory of counters
-/

open Rust Mem
namespace Cnt.Mem

/-- A call that changes a counter; `hint` is what the iterator says about its length, `order` the iteration order of
the other counter. The flag says whether the user's code panics after the given items or entries. -/
inductive Call (T : Type)
  | push (x : T)
  | extend (hint : Nat) (items : List T) (panics : Bool)
  | addAssign (order : List (T × Nat)) (panics : Bool)
  | subAssign (order : List (T × Nat)) (panics : Bool)

namespace Call
variable {T : Type} [DecidableEq T]

/-- the number of items the call asks for room for beforehand -/
def hint : Call T → Nat
  | extend h _ _ => h
  | _ => 0

/-- whether the call counts or adds -/
def adds : Call T → Bool
  | subAssign _ _ => false
  | _ => true

/-- the call, with its memory -/
def run [Cfg] (std : Std) : Call T → M (State T) Unit
  | push x => Mem.push std x
  | extend h xs p => Mem.extend std h xs p
  | addAssign o p => Mem.addAssign std o p
  | subAssign o p => Mem.subAssign std o p

/-- the call as in `Cnt/Model.lean` -/
def plain [Cfg] : Call T → M (Counter T) Unit
  | push x => Counter.push x
  | extend _ xs p => Counter.extend xs p
  | addAssign o p => Counter.addAssign o p
  | subAssign o p => Counter.subAssign o p

/-- the call with only the first `n` of its items or entries -/
def first (n : Nat) : Call T → Call T
  | push x => extend 0 ([x].take n) false
  | extend _ xs _ => extend 0 (xs.take n) false
  | addAssign o _ => addAssign (o.take n) false
  | subAssign o _ => subAssign (o.take n) false
end Call

variable {T : Type} [DecidableEq T]

/-- Makes the calls one after another, catching panics; collects what each call returned. -/
def runAll [Cfg] (std : Std) : List (Call T) → State T → List (Except Fault Unit) × State T
  | [], s => ([], s)
  | f :: fs, s =>
    let (r, s') := f.run std s
    let (rs, s'') := runAll std fs s'
    (r :: rs, s'')

/-- the same for the calls of `Cnt/Model.lean` -/
def plainAll [Cfg] : List (Call T) → Counter T → List (Except Fault Unit) × Counter T
  | [], c => ([], c)
  | f :: fs, c =>
    let (r, c') := f.plain c
    let (rs, c'') := plainAll fs c'
    (r :: rs, c'')

/-- At no time during these calls there are more than `n` different items in the counter, or announced and in it. -/
def Within [Cfg] (n : Nat) : List (Call T) → Counter T → Prop
  | [], _ => True
  | f :: fs, c => c.len + f.hint ≤ n ∧ (f.plain c).2.len ≤ n ∧ Within n fs (f.plain c).2

end Cnt.Mem
