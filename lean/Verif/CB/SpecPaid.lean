import Verif.CB.Spec
/-!
# Values that leave a circular buffer
-/

open Rust
namespace CB.Cost

variable {α : Type}

/-- the number of values a call hands out -/
def given : Out α → Nat
  | .elem _ => 1
  | .opt v => v.toList.length
  | .seq vs => vs.length
  | _ => 0

/-- the number of values handed out by the calls that return -/
def allGiven : List (Except Fault (Out α)) → Nat
  | [] => 0
  | .ok o :: rs => given o + allGiven rs
  | .error _ :: rs => allGiven rs

end CB.Cost
