import Verif.Cnt.ModelRehash
import Verif.Cnt.Spec
/-!
# Specification vocabulary: the life of one key

What is stored for one key is followed through a history of calls, without a look at any other key.
-/

open Rust
namespace Cnt.Rehash

/-- A call that changes a counter, with the items or entries it gets to and how it ends. -/
inductive Call (T : Type)
  | push (x : T) (rehash : Option (T → Bool))
  | extend (items : List T) (s : Stop T)
  | addAssign (order : List (T × Nat)) (s : Stop T)
  | subAssign (order : List (T × Nat)) (s : Stop T)

variable {T : Type}

/-- the sum of the numbers listed with a key -/
def listed [DecidableEq T] (k : T) (order : List (T × Nat)) : Nat :=
  ((order.filter fun e => decide (e.1 = k)).map (·.2)).sum

namespace Stop
/-- what the end of a loop leaves of a stored count -/
def on (k : T) : Stop T → Option Nat → Option Nat
  | .rehash keep, o => if keep k then o else none
  | _, o => o

/-- what a call with this end returns -/
def result : Stop T → Except Fault Unit
  | .done => .ok ()
  | _ => .error .user

/-- the same end with nothing lost -/
def spare : Stop T → Stop T
  | .rehash _ => .user
  | s => s
end Stop

namespace Call
variable [DecidableEq T]

/-- the call -/
def run [Cfg] : Call T → M (Counter T) Unit
  | push x r => Rehash.push x r
  | extend xs s => Rehash.extend xs s
  | addAssign o s => Rehash.addAssign o s
  | subAssign o s => Rehash.subAssign o s

/-- how the call ends -/
def ending : Call T → Stop T
  | push _ none => .done
  | push _ (some keep) => .rehash keep
  | extend _ s => s
  | addAssign _ s => s
  | subAssign _ s => s

/-- the items counted or entries added or subtracted, with their numbers -/
def amount (k : T) : Call T → Nat
  | push _ (some _) => 0
  | push x none => if x = k then 1 else 0
  | extend xs _ => xs.count k
  | addAssign o _ => listed k o
  | subAssign o _ => listed k o

/-- whether the call gets to the key -/
def meets (k : T) : Call T → Prop
  | push _ (some _) => False
  | push x none => x = k
  | extend xs _ => k ∈ xs
  | addAssign o _ => k ∈ o.map (·.1)
  | subAssign o _ => k ∈ o.map (·.1)

instance (k : T) (call : Call T) : Decidable (call.meets k) := by
  cases call with
  | push x r => cases r <;> (unfold meets; infer_instance)
  | extend xs s => unfold meets; infer_instance
  | addAssign o s => unfold meets; infer_instance
  | subAssign o s => unfold meets; infer_instance

/-- whether the call subtracts -/
def subtracts : Call T → Bool
  | subAssign _ _ => true
  | _ => false

/-- what the call makes of the count stored for `k`; counts are numbers of `usize` -/
def on [Cfg] (k : T) (call : Call T) (o : Option Nat) : Option Nat :=
  call.ending.on k
    (if call.meets k then
      if call.subtracts then
        if o.getD 0 ≤ call.amount k then none else some (o.getD 0 - call.amount k)
      else some ((o.getD 0 + call.amount k) % (usizeMax + 1))
    else o)

/-- the same call with nothing lost -/
def spare : Call T → Call T
  | push x none => .push x none
  | push _ (some _) => .extend [] .user
  | extend xs s => .extend xs s.spare
  | addAssign o s => .addAssign o s.spare
  | subAssign o s => .subAssign o s.spare

/-- the numbers in the call are numbers of `usize` -/
def Real [Cfg] : Call T → Prop
  | addAssign o _ => ∀ e ∈ o, e.2 ≤ usizeMax
  | _ => True
end Call

/-- Makes the calls one after another, catching panics; collects what each call returned. -/
def runAll [DecidableEq T] [Cfg] : List (Call T) → Counter T → List (Except Fault Unit) × Counter T
  | [], c => ([], c)
  | f :: fs, c =>
    let (r, c') := f.run c
    let (rs, c'') := runAll fs c'
    (r :: rs, c'')

end Cnt.Rehash
