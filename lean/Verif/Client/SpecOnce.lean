import Verif.Client.SpecWindow
/-!
# Specification vocabulary: a client that knows the first item of a stream that has come only once

The client counts the items with a `Counter` and keeps those that may be the answer in a `CircularBuffer`. The crate has no
such function; it is what a client writes. Items are `Copy`; what `push_back` overwrites is recorded in `st.dropped`.
-/

open Rust
namespace Client

variable {α : Type} [Cfg] [CB.Elem α] [DecidableEq α]

/-- ```
for _ in 0..n {
    match line.first() {
        Some(f) if counts.get(f) != Some(&1) => { line.pop_front(); }
        _ => break,
    }
}
``` -/
def discard : Nat → M (Window α) Unit
  | 0 => pure ()
  | n + 1 => do
    match ← onBuf (CB.self_ CB.Buf.first) with
    | none => pure ()
    | some f =>
      if (← M.get).counts.get f = some 1 then pure ()
      else
        let _ ← onBuf CB.popFront
        discard n

/-- `if counts.get(&x) == Some(&1) { line.push_back(x); }` -/
def noteNew (x : α) : M (Window α) Unit := do
  if (← M.get).counts.get x = some 1 then onBuf (CB.pushBack x) else pure ()

/-- ```
counts.push(x);
/* noteNew x */
/* discard with n = line.len() */
line.first()
``` -/
def see (x : α) : M (Window α) (Option α) := do
  onCounts (Cnt.Counter.push x)
  noteNew x
  let n ← onBuf (CB.self_ CB.Buf.len)
  discard n
  onBuf (CB.self_ CB.Buf.first)

/-- the answers after every item of a stream -/
def seeAll : List α → M (Window α) (List (Option α))
  | [] => pure []
  | x :: xs => do
    let a ← see x
    let as ← seeAll xs
    pure (a :: as)

/-- `x` is the first that comes once: it comes neither before nor after its place, and all before it come again -/
def FirstOnce (xs : List α) (x : α) : Prop :=
  ∃ pre post, xs = pre ++ x :: post ∧ x ∉ pre ∧ x ∉ post ∧ ∀ y ∈ pre, 2 ≤ xs.count y

end Client
