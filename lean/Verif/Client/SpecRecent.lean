import Verif.CB.SpecTurn
import Verif.CB.Spec
import Mathlib.Data.List.Dedup
/-!
# Specification vocabulary: clients that keep the keys used most recently

The client decides with a `CircularBuffer` which keys a cache holds. The crate has no such type; the functions are what a
client writes. `retain` is client code too, see `Verif.CB.SpecTurn`.
-/

open Rust CB
namespace Client

variable {α : Type} [Cfg] [Elem α] [DecidableEq α]

/-- ```
let hit = cb.iter().any(|k| *k == key);
retain(&mut cb, |k| *k != key);
cb.push_back(key);
hit
```
The key that was least recently used falls out. -/
def refresh (key : α) : M (St α) Bool := do
  let hit := (← self_ Buf.contents).any fun k => decide (k = key)
  retain fun k => .ok (decide (k ≠ key))
  pushBack key
  return hit

/-- ```
let hit = cb.iter().any(|k| *k == key);
if !hit { cb.push_back(key); }
hit
```
The key that came in first falls out. -/
def fetch (key : α) : M (St α) Bool := do
  let hit := (← self_ Buf.contents).any fun k => decide (k = key)
  if !hit then pushBack key else dropVal key
  return hit

/-- `keys.into_iter().map(|key| step(&mut cb, key)).collect()` -/
def serve (step : α → M (St α) Bool) : List α → M (St α) (List Bool)
  | [] => pure []
  | key :: keys => do
    let hit ← step key
    return hit :: (← serve step keys)

/-- the key was used before, and fewer than `n` different keys were used since -/
def Fresh {β : Type} [DecidableEq β] (n : Nat) (past : List β) (key : β) : Prop := ∃ a b, past = a ++ key :: b ∧ key ∉ b ∧ b.dedup.length < n

end Client
