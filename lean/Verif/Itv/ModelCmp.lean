import Verif.Itv.Model
/-!
# The in-place methods when the element type's comparison panics

`Itv/Model.lean` takes comparisons for granted. Here a comparison of bounds or intervals may panic, because the
user's `Ord` does. The state is the interval together with the number of comparisons that still succeed; the
next one panics. As a call ends with its first panic, all numbers together cover every way in which comparisons
can panic. Simplified: one comparison of bounds or intervals counts as one, however often it compares values;
nothing is modified in between.
-/

open Rust
namespace Itv

variable {T : Type} [LinearOrder T]

/-- a comparison whose answer is `b`, if it gives one -/
def ask (b : Bool) : M (Interval T × Nat) Bool := fun s =>
  match s.2 with
  | 0 => (.error .user, s)
  | k + 1 => (.ok b, (s.1, k))

/-- the value of `*self` -/
def theSelf : M (Interval T × Nat) (Interval T) := fun s => (.ok s.1, s)

/-- assignment to `*self` -/
def assignSelf (i : Interval T) : M (Interval T × Nat) Unit := fun s => (.ok (), (i, s.2))

namespace Interval

/-- interval.rs:619-642 `merge` -/
def mergeC (other : Interval T) : M (Interval T × Nat) (Except (Interval T) Unit) := do
  match (← theSelf).imp with
  | none =>
    assignSelf other
    return .ok ()
  | some s =>
    match other.imp with
    | none => return .ok ()
    | some o =>
      if ← ask (s.up.isSeparatedFrom o.lo) then return .error other
      if ← ask (o.up.isSeparatedFrom s.lo) then return .error other
      let lo := if ← ask (o.lo.lt s.lo) then o.lo else s.lo
      assignSelf { imp := some { s with lo := lo } }
      let up := if ← ask (o.up.gt s.up) then o.up else s.up
      assignSelf { imp := some { lo := lo, up := up } }
      return .ok ()

/-- interval.rs:709-725 `intersection` -/
def intersectionC (other : Interval T) : M (Interval T × Nat) Unit := do
  let self ← theSelf
  match self.imp, other.imp with
  | some s, some o =>
    if ← ask (self.gt other) then
      assignSelf { imp := none }
    else if ← ask (self.lt other) then
      assignSelf { imp := none }
    else
      let lo := if ← ask (s.lo.lt o.lo) then o.lo else s.lo
      assignSelf { imp := some { s with lo := lo } }
      let up := if ← ask (s.up.gt o.up) then o.up else s.up
      assignSelf { imp := some { lo := lo, up := up } }
  | _, _ => assignSelf { imp := none }

/-- interval.rs:770-789 `span` -/
def spanC (other : Interval T) : M (Interval T × Nat) Unit := do
  match (← theSelf).imp, other.imp with
  | _, none => return ()
  | none, some _ => assignSelf other
  | some s, some o =>
    let lo := if ← ask (o.lo.lt s.lo) then o.lo else s.lo
    assignSelf { imp := some { s with lo := lo } }
    let up := if ← ask (o.up.gt s.up) then o.up else s.up
    assignSelf { imp := some { lo := lo, up := up } }

/-- interval.rs:322-335 `fix_after_modification` -/
def fixC : M (Interval T × Nat) Unit := do
  match (← theSelf).imp with
  | none => return ()
  | some a =>
    let a : NonEmptyInterval T :=
      if ← ask (decide (a.lo.val > a.up.val)) then { lo := { bound := a.up.bound }, up := { bound := a.lo.bound } }
      else a
    assignSelf { imp := some a }
    if (← ask (decide (a.lo.val = a.up.val))) && (!a.lo.isClosed || !a.up.isClosed) then
      assignSelf { imp := none }

/-- interval_math.rs:22-30 `AddAssign` and its three siblings, with an operator that does not panic -/
def opAssignC (op : T → T) : M (Interval T × Nat) Unit := do
  match (← theSelf).imp with
  | none => fixC
  | some a =>
    assignSelf { imp := some {
      lo := LowerBound.new (op a.lo.val) a.lo.isClosed, up := UpperBound.new (op a.up.val) a.up.isClosed } }
    fixC

end Interval
end Itv
