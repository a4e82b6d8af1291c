import Verif.CB.Spec
/-!
# Specification vocabulary: a client that sorts with buffers as bins

Radix sort: items are put into bins by one digit after the other. The crate has no such function; it is what a client writes.
What `push_back` overwrites is recorded in the `dropped` of a bin.
-/

open Rust CB
namespace Client

section
variable {α : Type} [Cfg] [Elem α]

/-- `for x in items { let d = digit(&x); bins[d].push_back(x); }` -/
def scatter (digit : α → Nat) : List α → M (List (St α)) Unit
  | [] => pure ()
  | x :: xs => do
    match (← M.get)[digit x]? with
    | none => M.throw .indexOutOfBounds
    | some bin =>
      let (r, bin') := pushBack x bin
      M.modify fun bins => bins.set (digit x) bin'
      M.lift r
      scatter digit xs

/-- `for _ in 0..k { if let Some(x) = bin.pop_front() { out.push(x); } }`, what is pushed -/
def takeOut : Nat → M (St α) (List α)
  | 0 => pure []
  | k + 1 => do
    let x ← popFront
    let xs ← takeOut k
    return x.toList ++ xs

/-- `let k = bin.len(); /* take out k */` -/
def emptyBin : M (St α) (List α) := do
  let k ← self_ Buf.len
  takeOut k

/-- `for bin in bins.iter_mut() { /* emptyBin */ }` -/
def collect : List (St α) → Except Fault (List α) × List (St α)
  | [] => (.ok [], [])
  | b :: bs =>
    match emptyBin b with
    | (.error e, b') => (.error e, b' :: bs)
    | (.ok xs, b') =>
      match collect bs with
      | (.error e, bs') => (.error e, b' :: bs')
      | (.ok ys, bs') => (.ok (xs ++ ys), b' :: bs')

/-- one digit after the other: `for digit in digits { /* scatter items by digit */ items = /* collect */; }` -/
def passes : List (α → Nat) → List α → M (List (St α)) (List α)
  | [], items => pure items
  | d :: ds, items => do
    scatter d items
    let items' ← collect
    passes ds items'

/-- `let mut bins: Vec<CircularBuffer<T>> = (0..k).map(|_| CircularBuffer::with_capacity(n)).collect();` -/
def makeBins (n : Nat) : Nat → Except Fault (List (St α))
  | 0 => .ok []
  | k + 1 => do
    let cb ← withCapacity n
    let rest ← makeBins n k
    return ⟨cb, []⟩ :: rest

/-- the sorted items, and the bins in the end -/
def radixSort (n k : Nat) (digits : List (α → Nat)) (items : List α) : Except Fault (List α × List (St α)) := do
  let bins ← makeBins n k
  let (r, bins') := passes digits items bins
  return (← r, bins')

end

/-- Comparison by several digits, of which the first counts most. -/
def ByDigits {α : Type} : List (α → Nat) → α → α → Prop
  | [], _, _ => True
  | d :: ds, x, y => d x < d y ∨ d x = d y ∧ ByDigits ds x y

/-- the digits of a number in base `b`, the last one first -/
def digitsOf {α : Type} (key : α → Nat) (b m : Nat) : List (α → Nat) := (List.range m).map fun i x => key x / b ^ i % b

end Client
