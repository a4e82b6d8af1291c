import Verif.Itv.Model
/-!
# Intervals of values whose `Ord`, `PartialOrd` or `PartialEq` is wrong

The methods of `Itv/Model.lean` that compare values again, for value types whose comparisons keep none of the promises
the standard library asks for: floating point numbers behind a careless wrapper, values changed behind a `Cell`,
operators that disagree with `cmp`. The answers are an argument: the `k`-th comparison of a run is answered by a
function of its own, and it may panic (`none`). Nothing is assumed about the answers. The state carries the number of
comparisons made, next to the interval an in-place method works on.
-/

open Rust
namespace Itv.Wild

/-- the answers of the value type to the `k`-th question: `cmp`, `<`, `<=`, `>`, `>=`, `==`; `none` panics -/
structure Answers (T : Type) where
  cmp : Nat → T → T → Option Ordering
  lt : Nat → T → T → Option Bool
  le : Nat → T → T → Option Bool
  gt : Nat → T → T → Option Bool
  ge : Nat → T → T → Option Bool
  eq : Nat → T → T → Option Bool

variable {T σ : Type}

/-- one question to the value type -/
def ask {β : Type} (f : Nat → T → T → Option β) (x y : T) : M (σ × Nat) β := fun s =>
  match f s.2 x y with
  | some b => (.ok b, (s.1, s.2 + 1))
  | none => (.error .user, (s.1, s.2 + 1))

/-- the value of `*self` -/
def theSelf : M (σ × Nat) σ := fun s => (.ok s.1, s)

/-- assignment to `*self` -/
def assignSelf (i : σ) : M (σ × Nat) Unit := fun s => (.ok (), (i, s.2))

variable (A : Answers T)

/-! ## bounds.rs -/

/-- bounds.rs:266-284 `Ord::cmp for LowerBound`, also 286-304 `partial_cmp`, which wraps the same answer -/
def cmpL (self other : LowerBound T) : M (σ × Nat) Ordering := do
  match ← ask A.cmp self.bound.val other.bound.val with
  | .gt => return .gt
  | .lt => return .lt
  | .eq =>
    if self.bound.isClosed = other.bound.isClosed then return .eq
    else if self.bound.isClosed then return .lt else return .gt

/-- bounds.rs:581-599 `Ord::cmp for UpperBound`, also 607-625 `partial_cmp`, which wraps the same answer -/
def cmpU (self other : UpperBound T) : M (σ × Nat) Ordering := do
  match ← ask A.cmp self.bound.val other.bound.val with
  | .gt => return .gt
  | .lt => return .lt
  | .eq =>
    if self.bound.isClosed = other.bound.isClosed then return .eq
    else if self.bound.isClosed then return .gt else return .lt

/-- provided `Ord::min` on lower bounds -/
def minL (self other : LowerBound T) : M (σ × Nat) (LowerBound T) := do
  match ← cmpL A self other with
  | .lt | .eq => return self
  | .gt => return other

/-- provided `Ord::max` on lower bounds -/
def maxL (self other : LowerBound T) : M (σ × Nat) (LowerBound T) := do
  match ← cmpL A self other with
  | .lt | .eq => return other
  | .gt => return self

/-- provided `Ord::min` on upper bounds -/
def minU (self other : UpperBound T) : M (σ × Nat) (UpperBound T) := do
  match ← cmpU A self other with
  | .lt | .eq => return self
  | .gt => return other

/-- provided `Ord::max` on upper bounds -/
def maxU (self other : UpperBound T) : M (σ × Nat) (UpperBound T) := do
  match ← cmpU A self other with
  | .lt | .eq => return other
  | .gt => return self

/-- provided `PartialOrd::lt` on lower bounds -/
def ltL (self other : LowerBound T) : M (σ × Nat) Bool := do
  return (← cmpL A self other) == .lt
/-- provided `PartialOrd::le` on lower bounds -/
def leL (self other : LowerBound T) : M (σ × Nat) Bool := do
  return (← cmpL A self other) != .gt
/-- provided `PartialOrd::gt` on upper bounds -/
def gtU (self other : UpperBound T) : M (σ × Nat) Bool := do
  return (← cmpU A self other) == .gt
/-- provided `PartialOrd::ge` on upper bounds -/
def geU (self other : UpperBound T) : M (σ × Nat) Bool := do
  return (← cmpU A self other) != .lt

/-- bounds.rs:779-781 `are_separated`; `||` and `&&` stop early -/
def areSeparated (l : LowerBound T) (u : UpperBound T) : M (σ × Nat) Bool := do
  if ← ask A.gt l.bound.val u.bound.val then return true
  else if ← ask A.eq u.bound.val l.bound.val then return !u.bound.isClosed && !l.bound.isClosed
  else return false

/-- bounds.rs:638-644 `UpperBound: PartialOrd<LowerBound>::lt` -/
def ltUL (self : UpperBound T) (other : LowerBound T) : M (σ × Nat) Bool := do
  match ← ask A.cmp self.bound.val other.bound.val with
  | .gt => return false
  | .lt => return true
  | .eq => return !self.bound.isClosed || !other.bound.isClosed

/-- bounds.rs:329-335 `LowerBound: PartialOrd<UpperBound>::gt` -/
def gtLU (self : LowerBound T) (other : UpperBound T) : M (σ × Nat) Bool := do
  match ← ask A.cmp self.bound.val other.bound.val with
  | .gt => return true
  | .lt => return false
  | .eq => return !self.bound.isClosed || !other.bound.isClosed

/-- bounds.rs:374-376 `LowerBound: PartialOrd<T>::gt` -/
def gtLV (self : LowerBound T) (other : T) : M (σ × Nat) Bool := do
  if ← ask A.gt self.bound.val other then return true
  else if ← ask A.eq self.bound.val other then return !self.bound.isClosed
  else return false

/-- bounds.rs:686-688 `UpperBound: PartialOrd<T>::lt` -/
def ltUV (self : UpperBound T) (other : T) : M (σ × Nat) Bool := do
  if ← ask A.lt self.bound.val other then return true
  else if ← ask A.eq self.bound.val other then return !self.bound.isClosed
  else return false

/-! ## interval.rs, interval_cmp.rs -/

/-- interval.rs:125-140 `create_checked` -/
def createChecked (lo : T) (loc : Bool) (up : T) (upc : Bool) : M (σ × Nat) (Interval T) := do
  if ← ask A.gt lo up then M.throw .explicit
  else if (← ask A.eq lo up) && (!loc || !upc) then M.throw .explicit
  else return { imp := some { lo := { bound := { val := lo, isClosed := loc } },
                              up := { bound := { val := up, isClosed := upc } } } }

/-- interval.rs:118-122 `from_bounds` -/
def fromBounds (lo : LowerBound T) (up : UpperBound T) : M (σ × Nat) (Interval T) :=
  createChecked A lo.bound.val lo.bound.isClosed up.bound.val up.bound.isClosed

/-- interval.rs:322-335 `fix_after_modification` -/
def fixAfterModification : M (Interval T × Nat) Unit := do
  match (← theSelf).imp with
  | none => return ()
  | some a =>
    let b : NonEmptyInterval T :=
      if ← ask A.gt a.lo.bound.val a.up.bound.val then { lo := { bound := a.up.bound }, up := { bound := a.lo.bound } }
      else a
    assignSelf { imp := some b }
    if (← ask A.eq b.lo.bound.val b.up.bound.val) && (!b.lo.bound.isClosed || !b.up.bound.isClosed) then
      assignSelf { imp := none }

/-- interval_cmp.rs:73-81 `PartialOrd::lt` -/
def lt (self other : Interval T) : M (σ × Nat) Bool :=
  match self.imp, other.imp with
  | some s, some o => ltUL A s.up o.lo
  | _, _ => return false

/-- interval_cmp.rs:93-101 `PartialOrd::gt` -/
def gt (self other : Interval T) : M (σ × Nat) Bool :=
  match self.imp, other.imp with
  | some s, some o => gtLU A s.lo o.up
  | _, _ => return false

/-- interval.rs:511-513 `contains_val`, with interval_cmp.rs:21-26 and 35-40 -/
def containsVal (self : Interval T) (val : T) : M (σ × Nat) Bool :=
  match self.imp with
  | none => return true
  | some a => do
    if ← gtLV A a.lo val then return false
    else return !(← ltUV A a.up val)

/-- interval.rs:529-541 `contains_interval` -/
def containsInterval (self other : Interval T) : M (σ × Nat) Bool :=
  match self.imp, other.imp with
  | none, _ => return other.isEmpty
  | some _, none => return true
  | some s, some o => do
    if ← leL A s.lo o.lo then geU A s.up o.up else return false

/-- interval.rs:558-569 `can_be_merged` -/
def canBeMerged (self other : Interval T) : M (σ × Nat) Bool :=
  match self.imp, other.imp with
  | some s, some o => do
    if ← areSeparated A o.lo s.up then return false
    else return !(← areSeparated A s.lo o.up)
  | _, _ => return true

/-- interval.rs:660-662 `intersects` -/
def intersects (self other : Interval T) : M (σ × Nat) Bool := do
  if ← gt A self other then return false
  else return !(← lt A self other)

/-- `Option::unwrap` -/
def unwrap {α : Type} : Option α → M (σ × Nat) α
  | some a => return a
  | none => M.throw .unwrapNone

/-- interval.rs:587-602 `into_merged` -/
def intoMerged (self other : Interval T) : M (σ × Nat) (Except (Interval T × Interval T) (Interval T)) := do
  if !(← canBeMerged A self other) then return .error (self, other)
  else if other.isEmpty then return .ok self
  else if self.isEmpty then return .ok other
  else
    let s ← unwrap self.imp
    let o ← unwrap other.imp
    let lo ← minL A s.lo o.lo
    let up ← maxU A s.up o.up
    return .ok (← fromBounds A lo up)

/-- interval.rs:678-692 `into_intersection` -/
def intoIntersection (self other : Interval T) : M (σ × Nat) (Interval T) := do
  if self.isEmpty then return self
  else if other.isEmpty then return other
  else if !(← intersects A self other) then return { imp := none }
  else
    let s ← unwrap self.imp
    let o ← unwrap other.imp
    let lo ← maxL A s.lo o.lo
    let up ← minU A s.up o.up
    fromBounds A lo up

/-- interval.rs:742-753 `into_span` -/
def intoSpan (self other : Interval T) : M (σ × Nat) (Interval T) := do
  if other.isEmpty then return self
  else if self.isEmpty then return other
  else
    let s ← unwrap self.imp
    let o ← unwrap other.imp
    let lo ← minL A s.lo o.lo
    let up ← maxU A s.up o.up
    fromBounds A lo up

/-- interval.rs:619-642 `merge`; the exchanged-out bounds left in the local `other` are dropped -/
def merge (other : Interval T) : M (Interval T × Nat) (Except (Interval T) Unit) := do
  let self ← theSelf
  if !(← canBeMerged A self other) then return .error other
  else
    match self.imp, other.imp with
    | none, _ =>
      assignSelf other
      return .ok ()
    | some _, none => return .ok ()
    | some s, some o =>
      let lo := if ← ltL A o.lo s.lo then o.lo else s.lo
      assignSelf { imp := some { lo := lo, up := s.up } }
      let up := if ← gtU A o.up s.up then o.up else s.up
      assignSelf { imp := some { lo := lo, up := up } }
      return .ok ()

/-- interval.rs:709-725 `intersection` -/
def intersection (other : Interval T) : M (Interval T × Nat) Unit := do
  let self ← theSelf
  if self.isEmpty || other.isEmpty then assignSelf { imp := none }
  else if ← gt A self other then assignSelf { imp := none }
  else if ← lt A self other then assignSelf { imp := none }
  else
    let s ← unwrap self.imp
    let o ← unwrap other.imp
    let lo := if ← ltL A s.lo o.lo then o.lo else s.lo
    assignSelf { imp := some { lo := lo, up := s.up } }
    let up := if ← gtU A s.up o.up then o.up else s.up
    assignSelf { imp := some { lo := lo, up := up } }

/-- interval.rs:770-789 `span` -/
def span (other : Interval T) : M (Interval T × Nat) Unit := do
  let self ← theSelf
  if other.isEmpty then return ()
  else if self.isEmpty then assignSelf other
  else
    let s ← unwrap self.imp
    let o ← unwrap other.imp
    let lo := if ← ltL A o.lo s.lo then o.lo else s.lo
    assignSelf { imp := some { lo := lo, up := s.up } }
    let up := if ← gtU A o.up s.up then o.up else s.up
    assignSelf { imp := some { lo := lo, up := up } }

end Itv.Wild
