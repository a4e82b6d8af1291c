import Verif.CB.Model
/-!
# Model of the iterator methods beyond `next` and `next_back`

`Iter` and `IterMut` are aliases of std's `Chain` of two slice iterators (iter.rs:7-11), `Drain` and `IntoIter` implement
only `next` and inherit everything else from `Iterator` (iter.rs:26-32, 47-53). The bodies below are those of std; a slice
iterator is the list of what it still yields. `IntoIter` owns the buffer that `Drain` borrows, its methods are the same.
-/

open Rust
namespace CB

/-- `std::iter::Chain` with the `Option`s that std uses to fuse its halves -/
structure Chain (β : Type) where
  a : Option (List β)
  b : Option (List β)

namespace Chain
variable {β : Type}

/-- `slice::Iter::advance_by`: how many steps are missing, and what is left -/
def sliceAdvance (n : Nat) (l : List β) : Nat × List β := (n - min l.length n, l.drop (min l.length n))

/-- `slice::Iter::advance_back_by` -/
def sliceAdvanceBack (n : Nat) (l : List β) : Nat × List β :=
  (n - min l.length n, l.take (l.length - min l.length n))

/-- `slice::Iter::nth` -/
def sliceNth (n : Nat) (l : List β) : Option β × List β :=
  if n ≥ l.length then (none, []) else (l[n]?, l.drop (n + 1))

/-- `slice::Iter::nth_back` -/
def sliceNthBack (n : Nat) (l : List β) : Option β × List β :=
  if n ≥ l.length then (none, []) else (l[l.length - 1 - n]?, l.take (l.length - 1 - n))

/-- `self.b.as_mut()?.nth(n)` -/
def nthB (n : Nat) (c : Chain β) : Option β × Chain β :=
  match c.b with
  | none => (none, c)
  | some b => ((sliceNth n b).1, { c with b := some (sliceNth n b).2 })

/-- `self.a.as_mut()?.nth_back(n)` -/
def nthBackA (n : Nat) (c : Chain β) : Option β × Chain β :=
  match c.a with
  | none => (none, c)
  | some a => ((sliceNthBack n a).1, { c with a := some (sliceNthBack n a).2 })

/-- `Chain::next`: the first half, which is cleared when it is exhausted, or else the second -/
def next (c : Chain β) : Option β × Chain β :=
  match c.a with
  | some (x :: a) => (some x, { c with a := some a })
  | _ =>
    match c.b with
    | some (y :: b) => (some y, { a := none, b := some b })
    | _ => (none, { c with a := none })

/-- `Chain::next_back`: the second half, which is cleared when it is exhausted, or else the first -/
def nextBack (c : Chain β) : Option β × Chain β :=
  match c.b.bind List.getLast? with
  | some y => (some y, { c with b := c.b.map List.dropLast })
  | none =>
    match c.a.bind List.getLast? with
    | some x => (some x, { a := c.a.map List.dropLast, b := none })
    | none => (none, { c with b := none })

/-- `Chain::nth` -/
def nth (n : Nat) (c : Chain β) : Option β × Chain β :=
  match c.a with
  | none => c.nthB n
  | some a =>
    match sliceAdvance n a with
    | (0, x :: a') => (some x, { c with a := some a' })
    | (missing, _) => nthB missing { c with a := none }

/-- `Chain::nth_back` -/
def nthBack (n : Nat) (c : Chain β) : Option β × Chain β :=
  match c.b with
  | none => c.nthBackA n
  | some b =>
    match sliceAdvanceBack n b with
    | (0, b') =>
      match b'.getLast? with
      | some y => (some y, { c with b := some b'.dropLast })
      | none => nthBackA 0 { c with b := none }
    | (missing, _) => nthBackA missing { c with b := none }

/-- `Chain::size_hint`; that of a slice iterator is its length, twice. The sum of the lower bounds saturates, the sum of
the upper bounds is checked. -/
def sizeHint [Cfg] (c : Chain β) : Nat × Option Nat :=
  match c.a, c.b with
  | some a, some b =>
    (min (a.length + b.length) usizeMax,
      if a.length + b.length ≤ usizeMax then some (a.length + b.length) else none)
  | some a, none => (a.length, some a.length)
  | none, some b => (b.length, some b.length)
  | none, none => (0, some 0)

/-- `Chain::count` -/
def count [Cfg] (c : Chain β) : Except Fault Nat := uadd (c.a.elim 0 List.length) (c.b.elim 0 List.length)

/-- `Chain::last`: that of the second half, or else that of the first -/
def last (c : Chain β) : Option β := (c.b.bind List.getLast?).or (c.a.bind List.getLast?)

/-- `Chain::fold`, observed through the order of the visits -/
def fold (c : Chain β) : List β := c.a.getD [] ++ c.b.getD []

/-- `Chain::rfold`, observed through the order of the visits -/
def rfold (c : Chain β) : List β := (c.b.getD []).reverse ++ (c.a.getD []).reverse

end Chain

variable {α : Type} [Cfg]

/-- circular.rs:388-392 `iter` -/
def Buf.chain (cb : Buf α) : Except Fault (Chain α) := do
  let (a, b) ← cb.slices
  return { a := some a, b := some b }

/-- circular.rs:411-414 `iter_mut`, as positions in the backing slice -/
def Buf.chainMut (cb : Buf α) : Except Fault (Chain Nat) := do
  let (a, b) ← cb.slicesMut
  return { a := some (regionPositions a), b := some (regionPositions b) }

variable [Elem α]

/-- `Iterator::advance_by` (provided) on a `Drain`: every value is dropped at once; `false` if the iterator ended -/
def drainAdvance : Nat → M (St α) Bool
  | 0 => return true
  | n + 1 => do
    match ← drainNext with
    | none => return false
    | some v =>
      dropVal v
      drainAdvance n

/-- `Iterator::nth` (provided) on a `Drain` -/
def drainNth (n : Nat) : M (St α) (Option α) := do
  if ← drainAdvance n then drainNext else return none

/-- `Iterator::fold` with the closure of the provided `Iterator::count`, which drops its argument -/
def drainCountLoop : Nat → Nat → M (St α) Nat
  | 0, _ => M.throw .diverge
  | fuel + 1, count => do
    match ← drainNext with
    | none => return count
    | some v =>
      dropVal v
      drainCountLoop fuel (← M.lift (uadd count 1))

/-- `Iterator::count` (provided) on a `Drain` -/
def drainCount : M (St α) Nat := fun s => drainCountLoop (s.cb.buf.length + 1) 0 s

/-- `Iterator::fold` with the function of the provided `Iterator::last`, which drops the value before -/
def drainLastLoop : Nat → Option α → M (St α) (Option α)
  | 0, _ => M.throw .diverge
  | fuel + 1, last => do
    match ← drainNext with
    | none => return last
    | some v =>
      dropOpt last
      drainLastLoop fuel (some v)

/-- `Iterator::last` (provided) on a `Drain` -/
def drainLast : M (St α) (Option α) := fun s => drainLastLoop (s.cb.buf.length + 1) none s

/-- a call on the buffer, while the caller keeps what it has taken over -/
def onBuffer {β : Type} (m : M (St α) β) : M (St α × List α) β := fun s =>
  let (r, t) := m s.1
  (r, (t, s.2))

/-- A `for` loop over a `Drain`. The body `f` takes over every value; it may depend on what it has seen before, goes on
(`true`), leaves the loop by `break`, `return` or `?` (`false`), or panics. -/
def drainForLoop (f : List α → α → Except Fault Bool) : Nat → M (St α × List α) Unit
  | 0 => M.throw .diverge
  | fuel + 1 => do
    match ← onBuffer drainNext with
    | none => return ()
    | some v =>
      let seen := (← M.get).2
      M.modify fun s => (s.1, s.2 ++ [v])
      if ← M.lift (f seen v) then drainForLoop f fuel else return ()

/-- `for v in cb.drain() { … }` -/
def drainFor (f : List α → α → Except Fault Bool) : M (St α × List α) Unit := fun s =>
  drainForLoop f (s.1.cb.buf.length + 1) s

end CB
