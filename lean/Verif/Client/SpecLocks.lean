import Verif.CB.Spec
import Verif.Itv.Spec
/-!
# Specification vocabulary: a client that locks ranges

Requests for ranges of values wait in a `CircularBuffer`. A request is granted when it is the first in the line and its
`Interval` intersects none of those held. The crate has no such function; it is what a client writes. Requests are `Copy`;
what `push_back` overwrites is recorded in `line.dropped`.
-/

open Rust CB
namespace Client

variable {α T : Type} [Cfg] [Elem α] [DecidableEq α] [LinearOrder T]

/-- the variables of the client -/
structure Locks (α : Type) where
  line : St α
  held : List α

/-- a call on the line -/
def onWaiting {β : Type} (m : M (St α) β) : M (Locks α) β := fun s =>
  let (r, q) := m s.line
  (r, { s with line := q })

/-- ```
let mut granted = vec![];
for _ in 0..n {
    match line.first() {
        Some(r) if !held.iter().any(|h| h.range.intersects(&r.range)) => {
            let r = line.pop_front().unwrap();
            held.push(r);
            granted.push(r);
        }
        _ => break,
    }
}
granted
``` -/
def grantSome (range : α → Itv.Interval T) : Nat → M (Locks α) (List α)
  | 0 => pure []
  | n + 1 => do
    match ← onWaiting (self_ Buf.first) with
    | none => pure []
    | some r =>
      if (← M.get).held.any fun h => (range h).intersects (range r) then pure []
      else
        match ← onWaiting popFront with
        | none => M.throw .unwrapNone
        | some r =>
          M.modify fun s => { s with held := s.held ++ [r] }
          let more ← grantSome range n
          pure (r :: more)

/-- `grantSome(line.len())` -/
def grantAll (range : α → Itv.Interval T) : M (Locks α) (List α) := do
  let n ← onWaiting (self_ Buf.len)
  grantSome range n

/-- what is asked of the client -/
inductive Ask (α : Type)
  | acquire (r : α)
  | release (r : α)

/-- ```
match ask {
    Acquire(r) => { if line.is_full() { return (vec![], vec![]); } line.push_back(r); (vec![r], grant_all()) }
    Release(r) => { held.retain(|h| h != r); (vec![], grant_all()) }
}
```
It returns who was let into the line and to whom ranges were granted. -/
def answer (range : α → Itv.Interval T) : Ask α → M (Locks α) (List α × List α)
  | .acquire r => do
    if ← onWaiting (self_ Buf.isFull) then pure ([], [])
    else
      onWaiting (pushBack r)
      let g ← grantAll range
      pure ([r], g)
  | .release r => do
    M.modify fun s => { s with held := s.held.filter fun h => decide (h ≠ r) }
    let g ← grantAll range
    pure ([], g)

/-- all calls, one after the other -/
def answerAll (range : α → Itv.Interval T) : List (Ask α) → M (Locks α) (List α × List α)
  | [] => pure ([], [])
  | q :: qs => do
    let (a, g) ← answer range q
    let (a', g') ← answerAll range qs
    pure (a ++ a', g ++ g')

/-- ```
let mut line = CircularBuffer::with_capacity(n);
let mut held = vec![];
/* all calls */
``` -/
def locks (range : α → Itv.Interval T) (n : Nat) (qs : List (Ask α)) : Except Fault ((List α × List α) × Locks α) := do
  let cb ← withCapacity n
  let (r, s) := answerAll range qs ⟨⟨cb, []⟩, []⟩
  return (← r, s)

/-- who asks for a range -/
def asking : List (Ask α) → List α
  | [] => []
  | .acquire r :: qs => r :: asking qs
  | .release _ :: qs => asking qs

/-- no value is in both ranges -/
def Unshared (range : α → Itv.Interval T) (a b : α) : Prop := ∀ v, ¬(Itv.Mem (range a) v ∧ Itv.Mem (range b) v)

end Client
