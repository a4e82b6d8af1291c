import Verif.CB.Model
/-!
# Client code: editing a buffer in place by turning it round

The crate has no `rotate_left`, `retain`, `insert` or `remove`. A client gets them without further memory by taking
elements out at the front and putting them back in at the end. The functions here are such a client over the modelled
calls `len` (circular.rs:119-125), `pop_front` (circular.rs:341-349) and `push_back` (circular.rs:250-260).
-/

open Rust
namespace CB
variable {α : Type} [Cfg] [Elem α]

/-- `for _ in 0..k { if let Some(x) = cb.pop_front() { cb.push_back(x) } }` -/
def turn : Nat → M (St α) Unit
  | 0 => return ()
  | k + 1 => do
    match ← popFront with
    | none => turn k
    | some x =>
      pushBack x
      turn k

/-- The loop of `retain`: look at `k` elements at the front, put those to keep back in at the end, drop the others.
`keep` is client code that may panic while the client owns the element. -/
def retainLoop (keep : α → Except Fault Bool) : Nat → M (St α) Unit
  | 0 => return ()
  | k + 1 => do
    match ← popFront with
    | none => M.throw .explicit
    | some x =>
      if ← owning x (M.lift (keep x)) then pushBack x else dropVal x
      retainLoop keep k

/-- `for _ in 0..cb.len() { let x = cb.pop_front().unwrap(); if keep(&x) { cb.push_back(x) } }` -/
def retain (keep : α → Except Fault Bool) : M (St α) Unit := do
  retainLoop keep (← self_ Buf.len)

/-- Insert `v` at position `i`: turn the buffer until that position is at the front, push, and turn the rest. -/
def insertAt (i : Nat) (v : α) : M (St α) Unit := do
  let n ← self_ Buf.len
  turn i
  pushBack v
  turn (n - i)

/-- Take the element at position `i` out: turn the buffer until it is at the front, pop, and turn the rest. -/
def removeAt (i : Nat) : M (St α) (Option α) := do
  let n ← self_ Buf.len
  turn i
  let x ← popFront
  turn (n - 1 - i)
  return x

end CB
