import Verif.Itv.Model
/-!
# Set operations on intervals whose values compare equal without being the same

In `Itv/Model.lean` values that compare equal are the same. Rust's `Ord` does not ask for that: a type may compare
by a part of its data. Here a value `x` is compared by `key x`, and two values with the same key can still be told
apart. Only the methods that choose between the bounds of two intervals, and what they call, are modelled again.
Simplified: `cmp`, `partial_cmp`, `==` and the operators of the value type all compare the keys.
-/

open Rust
namespace Itv.Key

variable {T K : Type} [LinearOrder K] (key : T → K)

/-- bounds.rs:266-284 `Ord::cmp for LowerBound`, also 286-304 `partial_cmp`, which wraps the same answer -/
def cmpL (self other : LowerBound T) : Ordering :=
  match compare (key self.bound.val) (key other.bound.val) with
  | .gt => .gt
  | .lt => .lt
  | .eq =>
    if self.bound.isClosed = other.bound.isClosed then .eq
    else if self.bound.isClosed then .lt else .gt

/-- bounds.rs:581-599 `Ord::cmp for UpperBound`, also 607-625 `partial_cmp`, which wraps the same answer -/
def cmpU (self other : UpperBound T) : Ordering :=
  match compare (key self.bound.val) (key other.bound.val) with
  | .gt => .gt
  | .lt => .lt
  | .eq =>
    if self.bound.isClosed = other.bound.isClosed then .eq
    else if self.bound.isClosed then .gt else .lt

/-- provided `Ord::min` on lower bounds: `self` on a tie -/
def minL (self other : LowerBound T) : LowerBound T :=
  match cmpL key self other with
  | .lt | .eq => self
  | .gt => other

/-- provided `Ord::max` on lower bounds: `other` on a tie -/
def maxL (self other : LowerBound T) : LowerBound T :=
  match cmpL key self other with
  | .lt | .eq => other
  | .gt => self

/-- provided `Ord::min` on upper bounds: `self` on a tie -/
def minU (self other : UpperBound T) : UpperBound T :=
  match cmpU key self other with
  | .lt | .eq => self
  | .gt => other

/-- provided `Ord::max` on upper bounds: `other` on a tie -/
def maxU (self other : UpperBound T) : UpperBound T :=
  match cmpU key self other with
  | .lt | .eq => other
  | .gt => self

/-- bounds.rs:779-781 `are_separated` -/
def areSeparated (l : LowerBound T) (u : UpperBound T) : Bool :=
  decide (key l.bound.val > key u.bound.val) ||
    (decide (key u.bound.val = key l.bound.val) && !u.bound.isClosed && !l.bound.isClosed)

/-- interval.rs:118-140 `from_bounds` with `create_checked` -/
def fromBounds (lo : LowerBound T) (up : UpperBound T) : Except Fault (Interval T) :=
  if key lo.bound.val > key up.bound.val then .error .explicit
  else if key lo.bound.val = key up.bound.val ∧ (!lo.bound.isClosed || !up.bound.isClosed) then .error .explicit
  else .ok ⟨some ⟨⟨⟨lo.bound.val, lo.bound.isClosed⟩⟩, ⟨⟨up.bound.val, up.bound.isClosed⟩⟩⟩⟩

/-- bounds.rs:638-644 `UpperBound: PartialOrd<LowerBound>::lt` -/
def ltUL (self : UpperBound T) (other : LowerBound T) : Bool :=
  match compare (key self.bound.val) (key other.bound.val) with
  | .gt => false
  | .lt => true
  | .eq => !self.bound.isClosed || !other.bound.isClosed

/-- bounds.rs:329-335 `LowerBound: PartialOrd<UpperBound>::gt` -/
def gtLU (self : LowerBound T) (other : UpperBound T) : Bool :=
  match compare (key self.bound.val) (key other.bound.val) with
  | .gt => true
  | .lt => false
  | .eq => !self.bound.isClosed || !other.bound.isClosed

/-- interval_cmp.rs:73-81 `PartialOrd::lt` -/
def lt (self other : Interval T) : Bool :=
  match self.imp with
  | none => false
  | some s =>
    match other.imp with
    | none => false
    | some o => ltUL key s.up o.lo

/-- interval_cmp.rs:93-101 `PartialOrd::gt` -/
def gt (self other : Interval T) : Bool :=
  match self.imp with
  | none => false
  | some s =>
    match other.imp with
    | none => false
    | some o => gtLU key s.lo o.up

/-- interval.rs:558-569 `can_be_merged` -/
def canBeMerged (self other : Interval T) : Bool :=
  match self.imp with
  | none => true
  | some s =>
    match other.imp with
    | none => true
    | some o => !(areSeparated key o.lo s.up || areSeparated key s.lo o.up)

/-- interval.rs:742-753 `into_span` -/
def intoSpan (self other : Interval T) : Except Fault (Interval T) :=
  match other.imp with
  | none => .ok self
  | some o =>
    match self.imp with
    | none => .ok other
    | some s => fromBounds key (minL key s.lo o.lo) (maxU key s.up o.up)

/-- interval.rs:587-602 `into_merged`; the inner `Except` is the Rust `Result` -/
def intoMerged (self other : Interval T) : Except Fault (Except (Interval T × Interval T) (Interval T)) :=
  if !canBeMerged key self other then .ok (.error (self, other))
  else
    match other.imp with
    | none => .ok (.ok self)
    | some o =>
      match self.imp with
      | none => .ok (.ok other)
      | some s => do return .ok (← fromBounds key (minL key s.lo o.lo) (maxU key s.up o.up))

/-- interval.rs:678-692 `into_intersection` -/
def intoIntersection (self other : Interval T) : Except Fault (Interval T) :=
  match self.imp with
  | none => .ok self
  | some s =>
    match other.imp with
    | none => .ok other
    | some o =>
      if gt key self other || lt key self other then .ok ⟨none⟩
      else fromBounds key (maxL key s.lo o.lo) (minU key s.up o.up)

/-- interval.rs:770-789 `span` -/
def span (other : Interval T) : M (Interval T) Unit := fun self =>
  match other.imp with
  | none => (.ok (), self)
  | some o =>
    match self.imp with
    | none => (.ok (), other)
    | some s =>
      let s1 : NonEmptyInterval T := if cmpL key o.lo s.lo = .lt then { s with lo := o.lo } else s
      let s2 : NonEmptyInterval T := if cmpU key o.up s1.up = .gt then { s1 with up := o.up } else s1
      (.ok (), ⟨some s2⟩)

/-- interval.rs:619-642 `merge`; the inner `Except` is the Rust `Result` -/
def merge (other : Interval T) : M (Interval T) (Except (Interval T) Unit) := fun self =>
  if !canBeMerged key self other then (.ok (.error other), self)
  else
    match self.imp with
    | none => (.ok (.ok ()), other)
    | some s =>
      match other.imp with
      | none => (.ok (.ok ()), self)
      | some o =>
        let s1 : NonEmptyInterval T := if cmpL key o.lo s.lo = .lt then { s with lo := o.lo } else s
        let s2 : NonEmptyInterval T := if cmpU key o.up s1.up = .gt then { s1 with up := o.up } else s1
        (.ok (.ok ()), ⟨some s2⟩)

/-- interval.rs:709-725 `intersection` -/
def intersection (other : Interval T) : M (Interval T) Unit := fun self =>
  if self.imp.isNone || other.imp.isNone || gt key self other || lt key self other then (.ok (), ⟨none⟩)
  else
    match self.imp, other.imp with
    | some s, some o =>
      let s1 : NonEmptyInterval T := if cmpL key s.lo o.lo = .lt then { s with lo := o.lo } else s
      let s2 : NonEmptyInterval T := if cmpU key s1.up o.up = .gt then { s1 with up := o.up } else s1
      (.ok (), ⟨some s2⟩)
    | _, _ => (.error .unwrapNone, self)

end Itv.Key
