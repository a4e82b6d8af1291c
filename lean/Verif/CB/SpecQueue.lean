import Verif.CB.Spec
/-!
# Specification vocabulary: a buffer used as a queue
-/

open Rust
namespace CB

/-- the calls of producers and consumers -/
inductive QCall (α : Type)
  /-- `push_back(v)` -/
  | put (v : α)
  /-- `extend(vs)` -/
  | putAll (vs : List α)
  /-- `pop_front()` -/
  | take
  /-- `drain().take(k).collect()` -/
  | takeUpTo (k : Nat)
  /-- `resize(n)` -/
  | setCapacity (n : Nat)

variable {α : Type}

/-- the call on the buffer -/
def QCall.op : QCall α → Op α
  | put v => .pushBack v
  | putAll vs => .extend vs false
  | take => .popFront
  | takeUpTo k => .drain k
  | setCapacity n => .resize n

/-- what the producers hand in -/
def QCall.arrive : QCall α → List α
  | put v => [v]
  | putAll vs => vs
  | _ => []

/-- everything handed in, in order -/
def arrivals (calls : List (QCall α)) : List α := calls.flatMap QCall.arrive

/-- everything the consumers got, in order -/
def handed : List (QCall α) → List (Except Fault (Out α)) → List α
  | .take :: cs, .ok (.opt v) :: os => v.toList ++ handed cs os
  | .takeUpTo _ :: cs, .ok (.seq vs) :: os => vs ++ handed cs os
  | _ :: cs, _ :: os => handed cs os
  | _, _ => []

/-- One call on a queue without bounds: what the consumer gets, and what is left. -/
def QCall.ideal : QCall α → List α → List α × List α
  | put v, q => ([], q ++ [v])
  | putAll vs, q => ([], q ++ vs)
  | take, q => (q.take 1, q.drop 1)
  | takeUpTo k, q => (q.take k, q.drop k)
  | setCapacity _, q => ([], q)

/-- calls on a queue without bounds -/
def idealRun : List (QCall α) → List α → List α × List α
  | [], q => ([], q)
  | c :: cs, q => ((c.ideal q).1 ++ (idealRun cs (c.ideal q).2).1, (idealRun cs (c.ideal q).2).2)

end CB
