import Verif.CB.Spec
import Mathlib.Algebra.BigOperators.Group.List.Basic
/-!
# Specification vocabulary: a client that delays a signal and keeps the sum of its latest values

The client keeps a `CircularBuffer` that is always full. The crate has no such function; it is what a client writes. Values are
`Copy` and add like a commutative group (integers with wrapping operations, or without overflow); what `push_back` overwrites is
recorded in `st.dropped`.
-/

open Rust CB
namespace Client

variable {α : Type} [Cfg] [Elem α] [AddCommGroup α]

/-- the variables of the client -/
structure DelayLine (α : Type) where
  st : St α
  sum : α

/-- a call on the buffer -/
def onDelay {β : Type} (m : M (St α) β) : M (DelayLine α) β := fun s =>
  let (r, q) := m s.st
  (r, { s with st := q })

/-- `for _ in 0..n { line.push_back(0); }` -/
def fillUp : Nat → M (DelayLine α) Unit
  | 0 => pure ()
  | n + 1 => do
    onDelay (pushBack 0)
    fillUp n

/-- ```
let old = line.pop_front().unwrap();
line.push_back(x);
sum += x - old;
(old, sum)
``` -/
def clockTick (x : α) : M (DelayLine α) (α × α) := do
  match ← onDelay popFront with
  | none => M.throw .unwrapNone
  | some old =>
    onDelay (pushBack x)
    M.modify fun s => { s with sum := s.sum + (x - old) }
    pure (old, (← M.get).sum)

/-- the values of a signal, one after the other -/
def clockTicks : List α → M (DelayLine α) (List (α × α))
  | [] => pure []
  | x :: xs => do
    let y ← clockTick x
    let ys ← clockTicks xs
    pure (y :: ys)

/-- ```
let mut line = CircularBuffer::with_capacity(n);
let mut sum = 0;
/* fill the line, then all values of the signal */
``` -/
def delayed (n : Nat) (xs : List α) : Except Fault (List (α × α) × DelayLine α) := do
  let cb ← withCapacity n
  let (r, s) := (do fillUp n; clockTicks xs : M (DelayLine α) (List (α × α))) ⟨⟨cb, []⟩, 0⟩
  return (← r, s)

end Client
