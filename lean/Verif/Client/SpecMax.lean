import Verif.CB.Spec
import Mathlib.Order.Defs.LinearOrder
/-!
# Specification vocabulary: a client that keeps the greatest of the latest items of a stream

The client uses both ends of a `CircularBuffer`: it holds those of the latest items that no later item exceeds, with their
positions in the stream. The crate has no such type; the functions are what a client writes.
-/

open Rust CB
namespace Client

variable {α : Type} [LinearOrder α] [Cfg] [Elem (Nat × α)]

/-- ```
while let Some(last) = buf.last() {
    if last.1 <= x { buf.pop_back(); } else { break; }
}
``` -/
def popSmaller (x : α) : Nat → M (St (Nat × α)) Unit
  | 0 => M.throw .diverge
  | fuel + 1 => do
    match ← self_ Buf.last with
    | some e =>
      if e.2 ≤ x then
        dropOpt (← popBack)
        popSmaller x fuel
    | none => pure ()

/-- ```
if let Some(first) = buf.first() {
    if first.0 + buf.capacity() <= n { buf.pop_front(); }
}
``` -/
def popExpired (n : Nat) : M (St (Nat × α)) Unit := do
  match ← self_ Buf.first with
  | some e =>
    if (← M.lift (uadd e.1 (← self_ Buf.capacity))) ≤ n then
      dropOpt (← popFront)
  | none => pure ()

/-- ```
/* popExpired */
/* popSmaller */
buf.push_back((n, x));
buf.first().unwrap().1
``` -/
def feedMax (n : Nat) (x : α) : M (St (Nat × α)) α := do
  popExpired n
  popSmaller x ((← M.get).cb.buf.length + 1)
  pushBack (n, x)
  match ← self_ Buf.first with
  | some e => pure e.2
  | none => M.throw .unwrapNone

/-- `stream.enumerate().map(|(n, x)| /* feedMax */).collect()`, started at `n` -/
def maxima : Nat → List α → M (St (Nat × α)) (List α)
  | _, [] => pure []
  | n, x :: xs => do
    let m ← feedMax n x
    let ms ← maxima (n + 1) xs
    pure (m :: ms)

end Client
