import Verif.CB.Model
/-!
# Model of code that keeps the references which `iter_mut` hands out

`iter_mut` (circular.rs:411-414) returns a `Chain` of two slice iterators over `&mut T` (iter.rs:11). A client may keep as
many of these references as they like, for example in a `Vec<&mut T>`, and use them in any order while the iteration goes
on. A reference is modelled as the position of the element in the backing slice, so that two references to one element, or a
reference to a slot that holds no element, are expressible. Every access goes through memory.

A value that is not stored because the client's own index is out of range stays with the client.
-/

open Rust
namespace CB
variable {α : Type}

/-- What client code may do with the iterator and with the references `refs : Vec<&mut T>` it has kept -/
inductive RefOp (α : Type)
  /-- `refs.extend(it.next())` -/
  | next
  /-- `refs.extend(it.next_back())` -/
  | nextBack
  /-- looks at `*refs[i]` -/
  | read (i : Nat)
  /-- `*refs[i] = v` -/
  | assign (i : Nat) (v : α)
  /-- `mem::replace(refs[i], v)` -/
  | replace (i : Nat) (v : α)
  /-- `let (x, y) = refs.split_at_mut(j); mem::swap(x[i], y[0])` -/
  | swap (i j : Nat)
  /-- `refs.swap(i, j)`: the references change places, not the elements -/
  | reorder (i j : Nat)

/-- What the client learns from one of these steps -/
inductive RefOut (α : Type)
  | got (some : Bool)
  | unit
  | elem (v : α)
deriving DecidableEq

/-- The buffer, the iterator and the references, all as positions in the backing slice -/
structure Hold (α : Type) where
  st : St α
  it : Iter Nat
  refs : List Nat

/-- circular.rs:411-414 `iter_mut` as an iterator over places -/
def Buf.iterMutPlaces [Cfg] (cb : Buf α) : Except Fault (Iter Nat) := do
  let (a, b) ← cb.slicesMut
  return ⟨Buf.regionPositions a, Buf.regionPositions b⟩

/-- an access to the elements, which leaves iterator and references as they are -/
def onSt {β : Type} (m : M (St α) β) : M (Hold α) β := fun h => ((m h.st).1, { h with st := (m h.st).2 })

/-- `refs[i]`, a place (std `Vec::index`) -/
def refAt (i : Nat) : M (Hold α) Nat := M.ask fun h =>
  match h.refs[i]? with
  | some p => .ok p
  | none => .error .indexOutOfBounds

/-- one step of the client -/
def stepRef [Elem α] : RefOp α → M (Hold α) (RefOut α)
  | .next => fun h =>
    (.ok (.got h.it.next.1.isSome), { h with it := h.it.next.2, refs := h.refs ++ h.it.next.1.toList })
  | .nextBack => fun h =>
    (.ok (.got h.it.nextBack.1.isSome), { h with it := h.it.nextBack.2, refs := h.refs ++ h.it.nextBack.1.toList })
  | .read i => do
    let p ← refAt i
    return .elem (← onSt (self_ fun cb => readCell cb.buf p))
  | .assign i v => do
    -- the new value is stored even when the destructor of the old one panics
    let p ← refAt i
    let old ← onSt (replacePos p v)
    onSt (dropVal old)
    return .unit
  | .replace i v => do
    let p ← refAt i
    return .elem (← onSt (replacePos p v))
  | .swap i j => do
    if i < j then
      let p ← refAt i
      let q ← refAt j
      let x ← onSt (self_ fun cb => readCell cb.buf p)
      let y ← onSt (replacePos q x)
      let _ ← onSt (replacePos p y)
      return .unit
    else M.throw .indexOutOfBounds
  | .reorder i j => do
    let p ← refAt i
    let q ← refAt j
    M.modify fun h => { h with refs := (h.refs.set i q).set j p }
    return .unit

/-- a sequence of steps; the client goes on after a panic, so that every moment of every run is covered -/
def runRef [Elem α] : List (RefOp α) → Hold α → List (Except Fault (RefOut α)) × Hold α
  | [], h => ([], h)
  | o :: os, h =>
    ((stepRef o h).1 :: (runRef os (stepRef o h).2).1, (runRef os (stepRef o h).2).2)

end CB
