import Verif.CB.Spec
/-!
# Specification vocabulary: a client that gives its tasks turns

The client keeps its tasks and the number of turns they still need in a `CircularBuffer`. The crate has no such function; it
is what a client writes.
-/

open Rust CB
namespace Client

variable {τ : Type}

/-- ```
let mut turns = Vec::new();
while let Some((task, need)) = queue.pop_front() {
    if need > 1 { queue.push_back((task.clone(), need - 1)); }
    turns.push(task);
}
turns
```
`fuel` bounds the number of rounds of the loop. -/
def robin [Cfg] [Elem (τ × Nat)] : Nat → M (St (τ × Nat)) (List τ)
  | 0 => M.throw .diverge
  | fuel + 1 => do
    match ← popFront with
    | none => return []
    | some (task, need) =>
      if 1 < need then pushBack (task, (← M.lift (usub need 1)))
      return task :: (← robin fuel)

/-- the turns in `k` rounds: in each round every task that still needs a turn gets one, in the order of the tasks -/
def rounds (tasks : List (τ × Nat)) (k : Nat) : List τ :=
  (List.range k).flatMap fun r => (tasks.filter fun t => decide (r < t.2)).map (·.1)

end Client
