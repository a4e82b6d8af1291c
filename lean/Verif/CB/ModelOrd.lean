import Verif.CB.Model
/-!
# Model of the provided comparison operators of buffers, and of `max`, `min` and `clamp`

`CircularBuffer` gives `eq`, `partial_cmp` and `cmp` (circular.rs:870-917); everything here is a body that std provides.
`max`, `min` and `clamp` take the buffers by value: what is not returned is dropped (circular.rs:756-760). A destructor
that panics there is left out: which of the other values are then dropped depends on the compiler.
-/

open Rust
namespace CB
section
variable {α : Type} [Cfg]

/-- provided `PartialEq::ne` -/
def Buf.ne (e : α → α → Bool) (a b : Buf α) : Except Fault Bool := do return !(← Buf.eq e a b)

/-- provided `PartialOrd::lt` -/
def Buf.lt (pc : α → α → Option Ordering) (a b : Buf α) : Except Fault Bool := do
  match ← Buf.partialCmp pc a b with
  | some .lt => return true
  | _ => return false

/-- provided `PartialOrd::le` -/
def Buf.le (pc : α → α → Option Ordering) (a b : Buf α) : Except Fault Bool := do
  match ← Buf.partialCmp pc a b with
  | some .lt | some .eq => return true
  | _ => return false

/-- provided `PartialOrd::gt` -/
def Buf.gt (pc : α → α → Option Ordering) (a b : Buf α) : Except Fault Bool := do
  match ← Buf.partialCmp pc a b with
  | some .gt => return true
  | _ => return false

/-- provided `PartialOrd::ge` -/
def Buf.ge (pc : α → α → Option Ordering) (a b : Buf α) : Except Fault Bool := do
  match ← Buf.partialCmp pc a b with
  | some .gt | some .eq => return true
  | _ => return false

variable [Elem α]

/-- the destruction of a buffer that goes out of scope; the state is the log of dropped values -/
def dropBuf (b : Buf α) : M (List α) Unit := fun log =>
  let (r, s) := dropSelf ⟨b, log⟩
  (r, s.dropped)

/-- provided `Ord::max`: the second argument unless the first is greater -/
def Buf.max (c : α → α → Ordering) (a b : Buf α) : M (List α) (Buf α) := do
  match ← M.lift (Buf.cmp c a b) with
  | .gt =>
    dropBuf b
    return a
  | _ =>
    dropBuf a
    return b

/-- provided `Ord::min`: the first argument unless it is greater -/
def Buf.min (c : α → α → Ordering) (a b : Buf α) : M (List α) (Buf α) := do
  match ← M.lift (Buf.cmp c a b) with
  | .gt =>
    dropBuf a
    return b
  | _ =>
    dropBuf b
    return a

/-- provided `Ord::clamp`: an assertion, then two comparisons; arguments are dropped last to first -/
def Buf.clamp (pc : α → α → Option Ordering) (self lo hi : Buf α) : M (List α) (Buf α) := do
  if ← M.lift (Buf.le pc lo hi) then
    if ← M.lift (Buf.lt pc self lo) then
      dropBuf hi
      dropBuf self
      return lo
    else if ← M.lift (Buf.gt pc self hi) then
      dropBuf lo
      dropBuf self
      return hi
    else
      dropBuf hi
      dropBuf lo
      return self
  else
    dropBuf hi
    dropBuf lo
    dropBuf self
    M.throw .explicit

/-- `Iterator::max` and `Iterator::min` of std over buffers by value, after the first one: keep one of the best so far and
the next. -/
def reduceBufs (pick : Buf α → Buf α → M (List α) (Buf α)) : Buf α → List (Buf α) → M (List α) (Buf α)
  | best, [] => return best
  | best, b :: bs => do
    let best ← pick best b
    reduceBufs pick best bs

end
end CB
