import Verif.Rust.Base
/-!
# Model of `src/circular_buffer/circular.rs` and `src/circular_buffer/iter.rs`

A slot of the backing `Box<[ManuallyDrop<T>]>` is an `Option α`: `some a` holds the live value `a`,
`none` is uninitialised (never written, or moved out). `&self` methods are functions
`CB α → Except Fault β`; `&mut self` methods run in `M (St α)`, whose state is the buffer and the log of
all element drops performed so far.
-/

open Rust
namespace CB

/-- What the element type `T` contributes: its size (for allocation limits), which values have a destructor
that panics, and whether the toolchain lets `mem::uninitialized::<T>()` return. Before Rust 1.48 it always
does; later toolchains panic or abort for types with invalid bit patterns, such as `Box`, `&T` and `String`. -/
class Elem (α : Type) where
  size : Nat
  dropPanics : α → Bool
  uninitOk : Bool

/-- circular.rs:50-54 `struct CircularBuffer<T>` -/
structure Buf (α : Type) where
  buf : List (Option α)
  start : Nat
  end_ : Nat
deriving Repr, DecidableEq

/-- A buffer together with the values dropped so far, in order. -/
structure St (α : Type) where
  cb : Buf α
  dropped : List α
deriving Repr, DecidableEq

variable {α : Type}

/-! ## Runtime primitives used by the methods -/

/-- `Vec` refuses to hold `n` elements when they need more than `isize::MAX` bytes (std). Simplified:
the amortised over-allocation of `Vec::push` and out-of-memory aborts are not modelled. -/
def allocCheck [Cfg] (α : Type) [Elem α] (n : Nat) : Except Fault Unit :=
  if n * Elem.size α ≤ isizeMax ∧ n ≤ usizeMax then .ok () else .error .capacityOverflow

/-- `mem::uninitialized::<T>()` (std): a value that is not there, if the toolchain allows it -/
def uninit (α : Type) [Elem α] : Except Fault (Option α) :=
  if Elem.uninitOk α then .ok none else .error .uninitRefused

/-- `k` calls of `mem::uninitialized`, as in the loops of circular.rs:92-94 and 174-176 -/
def uninits (α : Type) [Elem α] : Nat → Except Fault (List (Option α))
  | 0 => .ok []
  | k + 1 => do
    let x ← uninit α
    let xs ← uninits α k
    return x :: xs

/-- `drop(x)`: log the drop, then panic if this value's destructor panics. -/
def dropVal [Elem α] (x : α) : M (St α) Unit := fun s =>
  (if Elem.dropPanics x then .error .user else .ok (), { s with dropped := s.dropped ++ [x] })

/-- Run `m` while owning the local `x`: if `m` panics, unwinding drops `x`, and a panic of that drop
aborts the process. -/
def owning [Elem α] {β : Type} (x : α) (m : M (St α) β) : M (St α) β := fun s =>
  match m s with
  | (.ok b, s') => (.ok b, s')
  | (.error e, s') =>
    (.error (if Elem.dropPanics x then .abort else e), { s' with dropped := s'.dropped ++ [x] })

/-- `&*self.buffer[i]` used as a value: slice bounds check, then the slot must be initialised. -/
def readCell (b : List (Option α)) (i : Nat) : Except Fault α :=
  match b[i]? with
  | none => .error .indexOutOfBounds
  | some none => .error .ub
  | some (some a) => .ok a

/-- `&buffer[i..j]` (std slice range indexing) -/
def sliceRange (b : List (Option α)) (i j : Nat) : Except Fault (List (Option α)) :=
  if i ≤ j ∧ j ≤ b.length then .ok ((b.drop i).take (j - i)) else .error .indexOutOfBounds

/-- `transmute::<&[ManuallyDrop<T>], &[T]>`: handing out a slice of `T` with an uninitialised element is
undefined behaviour. -/
def asInit : List (Option α) → Except Fault (List α)
  | [] => .ok []
  | none :: _ => .error .ub
  | some a :: r => do return a :: (← asInit r)

/-- `slice::swap(i, j)` (std): bounds check of both, then exchange of the two slots. -/
def sliceSwap (b : List (Option α)) (i j : Nat) : Except Fault (List (Option α)) :=
  match b[i]?, b[j]? with
  | some x, some y => .ok ((b.set i y).set j x)
  | _, _ => .error .indexOutOfBounds

/-- `slice::rotate_left(mid)` (std): asserts `mid <= len`. -/
def rotateLeft (b : List (Option α)) (mid : Nat) : Except Fault (List (Option α)) :=
  if mid ≤ b.length then .ok (b.drop mid ++ b.take mid) else .error .indexOutOfBounds

namespace Buf

/-! ## `&self` methods -/
variable [Cfg]

/-- circular.rs:119-125 `len` -/
def len (cb : Buf α) : Except Fault Nat :=
  if cb.start ≤ cb.end_ then usub cb.end_ cb.start
  else do usub (← uadd cb.buf.length cb.end_) cb.start

/-- circular.rs:144-146 `capacity` -/
def capacity (cb : Buf α) : Except Fault Nat := usub cb.buf.length 1

/-- circular.rs:201-203 `is_empty` -/
def isEmpty (cb : Buf α) : Bool := cb.end_ == cb.start

/-- circular.rs:223-225 `is_full` -/
def isFull (cb : Buf α) : Except Fault Bool := do
  let l ← cb.len
  let c ← cb.capacity
  return l == c

/-- circular.rs:697-707 `internal_index` -/
def internalIndex (cb : Buf α) (index : Nat) : Except Fault Nat := do
  if index ≥ (← cb.len) then
    throw .explicit
  if (← uadd cb.start index) < cb.buf.length then
    uadd cb.start index
  else
    usub (← uadd index cb.start) cb.buf.length

/-- circular.rs:762-768 `Index::index` -/
def index (cb : Buf α) (i : Nat) : Except Fault α := do
  readCell cb.buf (← cb.internalIndex i)

/-- circular.rs:477-483 `first` -/
def first (cb : Buf α) : Except Fault (Option α) :=
  if cb.isEmpty then .ok none
  else do return some (← readCell cb.buf (← cb.internalIndex 0))

/-- circular.rs:526-532 `last` -/
def last (cb : Buf α) : Except Fault (Option α) :=
  if cb.isEmpty then .ok none
  else do return some (← readCell cb.buf (← cb.internalIndex (← usub (← cb.len) 1)))

/-- circular.rs:579-588 `slices` -/
def slices (cb : Buf α) : Except Fault (List α × List α) := do
  if cb.start ≤ cb.end_ then
    let a ← sliceRange cb.buf cb.start cb.end_
    let b ← sliceRange cb.buf 0 0
    return (← asInit a, ← asInit b)
  else
    let a ← sliceRange cb.buf cb.start cb.buf.length
    let b ← sliceRange cb.buf 0 cb.end_
    return (← asInit a, ← asInit b)

/-- circular.rs:614-625 `slices_mut`. The two mutable slices are given as regions (offset, length) of
the backing slice. -/
def slicesMut (cb : Buf α) : Except Fault ((Nat × Nat) × (Nat × Nat)) :=
  if cb.start ≤ cb.end_ then
    -- split_at_mut(end), then x[start..end] and y[0..0]
    if cb.end_ ≤ cb.buf.length then
      .ok ((cb.start, cb.end_ - cb.start), (cb.end_, 0))
    else .error .indexOutOfBounds
  else
    -- split_at_mut(start), then y and x[..end]
    if cb.start ≤ cb.buf.length then
      if cb.end_ ≤ cb.start then
        .ok ((cb.start, cb.buf.length - cb.start), (0, cb.end_))
      else .error .indexOutOfBounds
    else .error .indexOutOfBounds

/-- The backing-slice positions a region covers, in order. -/
def regionPositions (r : Nat × Nat) : List Nat := (List.range r.2).map (r.1 + ·)

/-- circular.rs:411-414 `iter_mut`: the places visited, as positions in the backing slice, in order. -/
def iterMut (cb : Buf α) : Except Fault (List Nat) := do
  let (a, b) ← cb.slicesMut
  return regionPositions a ++ regionPositions b

end Buf

/-- `std::iter::Chain` of two slice iterators (iter.rs:8, iter.rs:11): what is left of each. -/
structure Iter (β : Type) where
  a : List β
  b : List β
deriving Repr, DecidableEq

namespace Iter
variable {β : Type}
/-- `Chain::next` on slice iterators (std) -/
def next (it : Iter β) : Option β × Iter β :=
  match it.a with
  | x :: xs => (some x, { it with a := xs })
  | [] => match it.b with
    | y :: ys => (some y, { it with b := ys })
    | [] => (none, it)
/-- `Chain::next_back` on slice iterators (std) -/
def nextBack (it : Iter β) : Option β × Iter β :=
  match it.b.getLast? with
  | some y => (some y, { it with b := it.b.dropLast })
  | none => match it.a.getLast? with
    | some x => (some x, { it with a := it.a.dropLast })
    | none => (none, it)
/-- Everything a `for` loop over the iterator sees. -/
def collect (it : Iter β) : List β := it.a ++ it.b
end Iter

namespace Buf
variable [Cfg]

/-- circular.rs:388-392 `iter`, also circular.rs:852-859 `IntoIterator for &CircularBuffer` -/
def iter (cb : Buf α) : Except Fault (Iter α) := do
  let (a, b) ← cb.slices
  return { a, b }

/-- The sequence a `for` loop over `iter()` sees. -/
def contents (cb : Buf α) : Except Fault (List α) := do
  return (← cb.iter).collect

end Buf

/-! ## Construction -/
section construct
variable [Cfg] [Elem α]

/-- circular.rs:89-100 `with_capacity` (and circular.rs:71-73 `new`) -/
def withCapacity (capacity : Nat) : Except Fault (Buf α) := do
  let n ← uadd capacity 1
  allocCheck α n
  let m ← uadd capacity 1
  let buf ← uninits α m
  return { buf, start := 0, end_ := 0 }

/-- circular.rs:782-795 `FromIterator::from_iter`. `panics` says that the user's iterator panics after
yielding `items` (the collected `ManuallyDrop`s then leak). -/
def fromIter (items : List α) (panics : Bool) : Except Fault (Buf α) := do
  allocCheck α items.length
  if panics then throw .user
  let hole ← uninit α
  allocCheck α (items.length + 1)
  let buf := items.map some ++ [hole]
  return { buf, start := 0, end_ := ← usub buf.length 1 }

/-- circular.rs:797-809 `FromIterator<&T>::from_iter`: clones every item. -/
def fromIterRef (clone : α → Except Fault α) (items : List α) : Except Fault (Buf α) := do
  let xs ← items.mapM clone
  let hole ← uninit α
  allocCheck α (xs.length + 1)
  let buf := xs.map some ++ [hole]
  return { buf, start := 0, end_ := ← usub buf.length 1 }

/-- dropping a `ManuallyDrop<T>` does not drop the value (std). The state is the log of element drops. -/
def dropManually (_ : α) : M (List α) Unit := return ()

/-- dropping a `Vec` drops its elements in order (std) -/
def dropVec {β σ : Type} (dropElem : β → M σ Unit) : List β → M σ Unit
  | [] => return ()
  | x :: xs => do
    dropElem x
    dropVec dropElem xs

/-- circular.rs:782-795 `FromIterator::from_iter` with the log of element drops: when the iterator or an
allocation panics, unwinding drops the local `buf : Vec<ManuallyDrop<T>>`, which holds the items so far. -/
def fromIterLog (items : List α) (panics : Bool) : M (List α) (Buf α) :=
  match fromIter items panics with
  | .ok cb => return cb
  | .error e => do
    dropVec dropManually items
    M.throw e

/-- the clones made until one panics (circular.rs:799) -/
def clonesMade (clone : α → Except Fault α) : List α → List α
  | [] => []
  | x :: xs =>
    match clone x with
    | .ok y => y :: clonesMade clone xs
    | .error _ => []

/-- circular.rs:797-809 `FromIterator<&T>::from_iter` with the log of element drops -/
def fromIterRefLog (clone : α → Except Fault α) (items : List α) : M (List α) (Buf α) :=
  match fromIterRef clone items with
  | .ok cb => return cb
  | .error e => do
    dropVec dropManually (clonesMade clone items)
    M.throw e

/-- circular.rs:811-822 `From<Vec<T>>::from` -/
def fromVec (v : List α) : Except Fault (Buf α) := do
  let bufLen := v.length
  let hole ← uninit α
  allocCheck α (v.length + 1)
  return { buf := v.map some ++ [hole], start := 0, end_ := bufLen }

/-- dropping an element while unwinding: a panic of its destructor aborts the process -/
def dropUnwinding (x : α) : M (List α) Unit := fun log =>
  (if Elem.dropPanics x then .error .abort else .ok (), log ++ [x])

/-- circular.rs:811-822 `From<Vec<T>>::from` with the log of element drops. `v` is a `Vec<T>`, not of
`ManuallyDrop<T>`: when a panic unwinds, its elements are dropped; and when it is the `push` of circular.rs:814
that panics because the allocation is refused, its argument, which is uninitialised, is dropped before them.
`glue` says whether dropping a `T` runs any code. Simplified: for a zero-sized `T` that spurious drop is not
undefined behaviour, but it still runs a destructor for a value that was never made; the model does not
distinguish the two. -/
def fromVecLog (glue : Bool) (v : List α) : M (List α) (Buf α) :=
  match fromVec v with
  | .ok cb => return cb
  | .error e => do
    if e = .capacityOverflow ∧ glue = true then M.throw .ub
    dropVec dropUnwinding v
    M.throw e

end construct

/-! ## `&mut self` methods -/
section mutating
variable [Cfg] [Elem α]

/-- run a `&self` method inside a `&mut self` one -/
def self_ {β : Type} (f : Buf α → Except Fault β) : M (St α) β := M.ask fun s => f s.cb

/-- assign a field of the buffer -/
def setBuf (f : Buf α → Buf α) : M (St α) Unit := M.modify fun s => { s with cb := f s.cb }

/-- `debug_assert!(c)` -/
def debugAssert (c : Buf α → Except Fault Bool) : M (St α) Unit := fun s =>
  if Cfg.debugAssertions then
    match c s.cb with
    | .ok true => (.ok (), s)
    | .ok false => (.error .assertFailed, s)
    | .error e => (.error e, s)
  else (.ok (), s)

/-- `!self.is_full()` -/
def notFull (cb : Buf α) : Except Fault Bool := do return !(← cb.isFull)
/-- `!self.is_empty()` -/
def notEmpty (cb : Buf α) : Except Fault Bool := .ok (!cb.isEmpty)

/-- circular.rs:709-715 `incr_end` -/
def incrEnd : M (St α) Unit := do
  debugAssert notFull
  let e ← self_ fun cb => uadd cb.end_ 1
  setBuf fun cb => { cb with end_ := e }
  setBuf fun cb => if cb.end_ = cb.buf.length then { cb with end_ := 0 } else cb

/-- circular.rs:717-724 `decr_end` -/
def decrEnd : M (St α) Unit := do
  debugAssert notEmpty
  let e ← self_ fun cb => if cb.end_ = 0 then usub cb.buf.length 1 else usub cb.end_ 1
  setBuf fun cb => { cb with end_ := e }

/-- circular.rs:726-732 `incr_start` -/
def incrStart : M (St α) Unit := do
  debugAssert notEmpty
  let e ← self_ fun cb => uadd cb.start 1
  setBuf fun cb => { cb with start := e }
  setBuf fun cb => if cb.start = cb.buf.length then { cb with start := 0 } else cb

/-- circular.rs:734-741 `decr_start` -/
def decrStart : M (St α) Unit := do
  debugAssert notFull
  let e ← self_ fun cb => if cb.start = 0 then usub cb.buf.length 1 else usub cb.start 1
  setBuf fun cb => { cb with start := e }

/-- circular.rs:743-748 `pop_at`: swaps the slot with an uninitialised one and takes the value. -/
def popAt (index : Nat) : M (St α) α := do
  let hole ← M.lift (uninit α)
  let v ← self_ fun cb => readCell cb.buf index
  setBuf fun cb => { cb with buf := cb.buf.set index hole }
  return v

/-- circular.rs:750-753 `push_at`: overwrites the slot without dropping what was there. -/
def pushAt (val : α) (index : Nat) : M (St α) Unit := do
  let _ ← self_ fun cb => if index < cb.buf.length then .ok () else .error .indexOutOfBounds
  setBuf fun cb => { cb with buf := cb.buf.set index (some val) }

/-- circular.rs:315-322 `pop_back` -/
def popBack : M (St α) (Option α) := do
  if ← self_ fun cb => .ok cb.isEmpty then
    return none
  else
    decrEnd
    let v ← popAt (← self_ fun cb => .ok cb.end_)
    return some v

/-- circular.rs:341-349 `pop_front` -/
def popFront : M (St α) (Option α) := do
  if ← self_ fun cb => .ok cb.isEmpty then
    return none
  else
    let tmp ← popAt (← self_ fun cb => .ok cb.start)
    incrStart
    return some tmp

/-- drop an `Option<T>` temporary -/
def dropOpt : Option α → M (St α) Unit
  | none => pure ()
  | some v => dropVal v

/-- circular.rs:250-260 `push_back`. The parameter `val` is owned until it is moved into `push_at`: the
early `return` drops it, and a panic before that point drops it while unwinding. -/
def pushBack (val : α) : M (St α) Unit := do
  let go ← owning val do
    if ← self_ Buf.isFull then
      if (← self_ Buf.capacity) = 0 then
        return false
      else
        dropOpt (← popFront)
        return true
    else
      return true
  if go then
    pushAt val (← self_ fun cb => .ok cb.end_)
    incrEnd
  else
    dropVal val

/-- circular.rs:286-296 `push_front` -/
def pushFront (val : α) : M (St α) Unit := do
  let go ← owning val do
    if ← self_ Buf.isFull then
      if (← self_ Buf.capacity) = 0 then
        return false
      else
        dropOpt (← popBack)
        decrStart
        return true
    else
      decrStart
      return true
  if go then
    pushAt val (← self_ fun cb => .ok cb.start)
  else
    dropVal val

/-- the loop of circular.rs:367-369 -/
def clearLoop : Nat → M (St α) Unit
  | 0 => M.throw .diverge
  | fuel + 1 => do
    match ← popBack with
    | none => return ()
    | some v =>
      dropVal v
      clearLoop fuel

/-- circular.rs:366-370 `clear`. The fuel is one more than the number of slots; the theorems show it never
runs out. -/
def clear : M (St α) Unit := fun s => clearLoop (s.cb.buf.length + 1) s

/-- circular.rs:756-760 `Drop::drop`. Afterwards the backing slice is freed; its slots are `ManuallyDrop`, so
what is still in them is not dropped. -/
def dropSelf : M (St α) Unit := clear

/-- `Skip::next` on a `Drain` (std, iter.rs:26-32): the skipped values are popped and dropped. -/
def skipLoop : Nat → M (St α) Unit
  | 0 => return ()
  | n + 1 => do
    match ← popFront with
    | none => return ()
    | some v =>
      dropVal v
      skipLoop n

/-- `Vec::extend` from a `Drain` (iter.rs:26-32): pops until empty, collecting the values. A fault loses
(leaks) what was collected. -/
def collectLoop : Nat → M (St α) (List α)
  | 0 => M.throw .diverge
  | fuel + 1 => do
    match ← popFront with
    | none => return []
    | some v => return v :: (← collectLoop fuel)

/-- circular.rs:165-181 `resize` -/
def resize (capacity : Nat) : M (St α) Unit := do
  let n ← M.lift (uadd capacity 1)
  M.lift (allocCheck α n)
  let l ← self_ Buf.len
  let toBeSkipped ← M.lift (if l > capacity then usub l capacity else .ok 0)
  skipLoop toBeSkipped
  let slots ← self_ fun cb => .ok cb.buf.length
  let newBuf ← collectLoop (slots + 1)
  let elemNum := newBuf.length
  let extra ← M.lift (do uadd (← usub capacity newBuf.length) 1)
  let fill ← M.lift (uninits α extra)
  M.lift (allocCheck α (elemNum + extra))
  setBuf fun _ => { buf := newBuf.map some ++ fill, start := 0, end_ := elemNum }

/-- circular.rs:824-831 `Extend<T>::extend`. `panics` says that the user's iterator panics after yielding
`items`. -/
def extend : List α → Bool → M (St α) Unit
  | [], panics => if panics then M.throw .user else pure ()
  | el :: rest, panics => do
    pushBack el
    extend rest panics

/-- circular.rs:833-840 `Extend<&T>::extend`: clones every item, the clone may panic. -/
def extendRef (clone : α → Except Fault α) : List α → Bool → M (St α) Unit
  | [], panics => if panics then M.throw .user else pure ()
  | el :: rest, panics => do
    pushBack (← M.lift (clone el))
    extendRef clone rest panics

/-- circular.rs:644-650 `linearize`; the result is the content of the returned slice. -/
def linearize : M (St α) (List α) := do
  let b ← self_ fun cb => rotateLeft cb.buf cb.start
  setBuf fun cb => { cb with buf := b }
  let l ← self_ Buf.len
  setBuf fun cb => { cb with end_ := l }
  setBuf fun cb => { cb with start := 0 }
  self_ fun cb => do asInit (← sliceRange cb.buf 0 cb.end_)

/-- circular.rs:669-671 `swap` -/
def swap (a b : Nat) : M (St α) Unit := do
  let buf ← self_ fun cb => do
    let i ← cb.internalIndex a
    let j ← cb.internalIndex b
    sliceSwap cb.buf i j
  setBuf fun cb => { cb with buf := buf }

/-- the loop of circular.rs:689-692, over the remaining values of `a` -/
def reverseLoop : List Nat → M (St α) Unit
  | [] => return ()
  | a :: as => do
    let b ← self_ fun cb => do usub (← usub (← cb.len) a) 1
    let buf ← self_ fun cb => do
      let i ← cb.internalIndex a
      let j ← cb.internalIndex b
      sliceSwap cb.buf i j
    setBuf fun cb => { cb with buf := buf }
    reverseLoop as

/-- circular.rs:688-693 `reverse` -/
def reverse : M (St α) Unit := do
  let l ← self_ Buf.len
  reverseLoop (List.range (l / 2))

/-- `mem::replace(place, v)` for a place in the backing slice -/
def replacePos (pos : Nat) (v : α) : M (St α) α := do
  let old ← self_ fun cb => readCell cb.buf pos
  setBuf fun cb => { cb with buf := cb.buf.set pos (some v) }
  return old

/-- circular.rs:770-774 `IndexMut::index_mut`, observed through `mem::replace(&mut cb[i], v)` -/
def replaceAt (i : Nat) (v : α) : M (St α) α := do
  replacePos (← self_ fun cb => cb.internalIndex i) v

/-- circular.rs:502-508 `first_mut`, observed through `mem::replace` (on `None` the caller keeps `v`) -/
def replaceFirst (v : α) : M (St α) (Option α) := do
  if ← self_ fun cb => .ok cb.isEmpty then
    return none
  else
    let old ← replacePos (← self_ fun cb => cb.internalIndex 0) v
    return some old

/-- circular.rs:551-557 `last_mut`, observed through `mem::replace` (on `None` the caller keeps `v`) -/
def replaceLast (v : α) : M (St α) (Option α) := do
  if ← self_ fun cb => .ok cb.isEmpty then
    return none
  else
    let old ← replacePos (← self_ fun cb => do cb.internalIndex (← usub (← cb.len) 1)) v
    return some old

/-- writes through successive places, returning the old values -/
def replaceEach : List Nat → List α → M (St α) (List α)
  | pos :: ps, v :: vs => do
    let old ← replacePos pos v
    return old :: (← replaceEach ps vs)
  | _, _ => return []

/-- circular.rs:411-414 `iter_mut`, observed by replacing the first `vs.length` visited elements by `vs`
(also circular.rs:861-868 `IntoIterator for &mut CircularBuffer`) -/
def replaceIter (vs : List α) : M (St α) (List α) := do
  replaceEach (← self_ Buf.iterMut) vs

/-- iter.rs:26-32 `Drain::next` -/
def drainNext : M (St α) (Option α) := popFront

/-- `drain().take(k).collect()` (circular.rs:457-459 `drain`, std `Take`) -/
def drainTake : Nat → M (St α) (List α)
  | 0 => return []
  | k + 1 => do
    match ← drainNext with
    | none => return []
    | some v => return v :: (← drainTake k)

/-- iter.rs:47-53 `IntoIter::next` -/
def intoIterNext : M (St α) (Option α) := popFront

/-- dropping an `IntoIter` drops its buffer (iter.rs:35-37, circular.rs:756-760) -/
def intoIterDrop : M (St α) Unit := dropSelf

end mutating

/-! ## Two buffers -/
section two
variable [Cfg] [Elem α]

/-- state of a call on `self` that also borrows `other` mutably -/
structure St2 (α : Type) where
  self : Buf α
  other : Buf α
  dropped : List α
deriving Repr, DecidableEq

/-- run a method on `self` -/
def onSelf {β : Type} (m : M (St α) β) : M (St2 α) β := fun s =>
  let (r, t) := m ⟨s.self, s.dropped⟩
  (r, { s with self := t.cb, dropped := t.dropped })
/-- run a method on `other` -/
def onOther {β : Type} (m : M (St α) β) : M (St2 α) β := fun s =>
  let (r, t) := m ⟨s.other, s.dropped⟩
  (r, { s with other := t.cb, dropped := t.dropped })

/-- the `for el in other.drain() { self.push_back(el) }` loop of circular.rs:436-438 and 824-831 -/
def appendLoop : Nat → M (St2 α) Unit
  | 0 => M.throw .diverge
  | fuel + 1 => do
    match ← onOther drainNext with
    | none => return ()
    | some el =>
      onSelf (pushBack el)
      appendLoop fuel

/-- circular.rs:436-438 `append` -/
def append : M (St2 α) Unit := fun s => appendLoop (s.other.buf.length + 1) s

end two

/-! ## Comparison and clone -/
section compare

/-- `Iterator::eq` (std) with the element `==` -/
def iterEq {β : Type} (eq : α → β → Bool) : List α → List β → Bool
  | [], [] => true
  | [], _ :: _ => false
  | _ :: _, [] => false
  | x :: xs, y :: ys => if eq x y then iterEq eq xs ys else false

/-- `Iterator::partial_cmp` (std) with the element `partial_cmp` -/
def iterPartialCmp (pc : α → α → Option Ordering) : List α → List α → Option Ordering
  | [], [] => some .eq
  | [], _ :: _ => some .lt
  | _ :: _, [] => some .gt
  | x :: xs, y :: ys =>
    match pc x y with
    | some .eq => iterPartialCmp pc xs ys
    | r => r

/-- `Iterator::cmp` (std) with the element `cmp` -/
def iterCmp (c : α → α → Ordering) : List α → List α → Ordering
  | [], [] => .eq
  | [], _ :: _ => .lt
  | _ :: _, [] => .gt
  | x :: xs, y :: ys =>
    match c x y with
    | .eq => iterCmp c xs ys
    | r => r

variable [Cfg]

/-- circular.rs:870-877 `PartialEq::eq` -/
def Buf.eq (e : α → α → Bool) (a b : Buf α) : Except Fault Bool := do
  return iterEq e (← a.iter).collect (← b.iter).collect

/-- circular.rs:879-895 `PartialEq<[T]>::eq` and `PartialEq<&[T]>::eq` -/
def Buf.eqSlice (e : α → α → Bool) (a : Buf α) (b : List α) : Except Fault Bool := do
  return iterEq e (← a.iter).collect b

/-- circular.rs:897-904 `PartialOrd::partial_cmp` -/
def Buf.partialCmp (pc : α → α → Option Ordering) (a b : Buf α) : Except Fault (Option Ordering) := do
  return iterPartialCmp pc (← a.iter).collect (← b.iter).collect

/-- circular.rs:911-917 `Ord::cmp` -/
def Buf.cmp (c : α → α → Ordering) (a b : Buf α) : Except Fault Ordering := do
  return iterCmp c (← a.iter).collect (← b.iter).collect

/-- circular.rs:49 `#[derive(Clone)]`: `Box<[ManuallyDrop<T>]>` clones every slot by calling `T::clone`,
whether or not the slot is initialised. -/
def cloneSlots (clone : α → Except Fault α) : List (Option α) → Except Fault (List (Option α))
  | [] => .ok []
  | none :: _ => .error .ub
  | some a :: r => do return some (← clone a) :: (← cloneSlots clone r)

/-- circular.rs:49 `#[derive(Clone)]` -/
def Buf.clone (c : α → Except Fault α) (cb : Buf α) : Except Fault (Buf α) := do
  return { buf := ← cloneSlots c cb.buf, start := cb.start, end_ := cb.end_ }

/-- circular.rs:49 `#[derive(Clone)]` when `T` is `Copy`: the slots are copied bitwise. -/
def Buf.cloneBitwise (cb : Buf α) : Buf α := { buf := cb.buf, start := cb.start, end_ := cb.end_ }

/-- circular.rs:776-780 `Debug::fmt` -/
def Buf.debug (cb : Buf α) : String :=
  s!"CircularBuffer\{ start: {cb.start}, end: {cb.end_}, buf_len: {cb.buf.length} }"

end compare
end CB
