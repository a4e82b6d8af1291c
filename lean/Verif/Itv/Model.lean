import Verif.Rust.Base
import Mathlib.Order.Defs.LinearOrder
/-!
# Model of `src/interval`

Simplifications, all of them common to the whole file:

* `T: Ord` is a `LinearOrder`: the user's `cmp`, `partial_cmp`, `==` and operators agree and are lawful.
* References are values; `Clone` returns an equal value.
* Arithmetic on `T` is an arbitrary function `T → Except Fault T` (the operator with its right-hand side
  already supplied), so it may panic. A panicking `op=` on `T` leaves the `T` unchanged, as the built-in
  integer operators do.
* A `&mut self` method is an `M (Interval T) _`, so the state survives a panic.
* `Debug` (derived) is in `ModelDebug.lean`.
-/

open Rust
namespace Itv

variable {T : Type} [LinearOrder T]

/-! ## bounds.rs -/

/-- bounds.rs:11-15 `Bound`, with derived `==` -/
structure Bound (T : Type) where
  val : T
  isClosed : Bool
deriving DecidableEq, Repr

/-- bounds.rs:34-39 `Bound::new` -/
def Bound.new (val : T) (isClosed : Bool) : Bound T := { val := val, isClosed := isClosed }

/-- bounds.rs:42-44 `Bound::into_tuple` -/
def Bound.intoTuple (b : Bound T) : T × Bool := (b.val, b.isClosed)

/-- bounds.rs:51-93 `Add`, `Sub`, `Mul`, `Div` for `Bound`: `op` is the operator with its right operand -/
def Bound.binOp (op : T → Except Fault T) (b : Bound T) : Except Fault (Bound T) := do
  return { val := ← op b.val, isClosed := b.isClosed }

/-- bounds.rs:95-117 `AddAssign`, `SubAssign`, `MulAssign`, `DivAssign` for `Bound`: `op` is the assigning
operator of the value type with its right operand -/
def Bound.opAssign (op : M T Unit) : M (Bound T) Unit := fun b =>
  let (r, v) := op b.val
  (r, { b with val := v })

/-- bounds.rs:149-152 `LowerBound`, with derived `==` -/
structure LowerBound (T : Type) where
  bound : Bound T
deriving DecidableEq, Repr

/-- bounds.rs:488-491 `UpperBound`, with derived `==` -/
structure UpperBound (T : Type) where
  bound : Bound T
deriving DecidableEq, Repr

namespace LowerBound

/-- bounds.rs:193-197 `LowerBound::new` -/
def new (val : T) (isClosed : Bool) : LowerBound T := { bound := Bound.new val isClosed }

/-- bounds.rs:213-215 `LowerBound::val` -/
def val (l : LowerBound T) : T := l.bound.val

/-- bounds.rs:231-233 `LowerBound::is_closed` -/
def isClosed (l : LowerBound T) : Bool := l.bound.isClosed

/-- bounds.rs:255-257 `LowerBound::into_tuple` -/
def intoTuple (l : LowerBound T) : T × Bool := l.bound.intoTuple

/-- bounds.rs:266-284 `Ord::cmp for LowerBound` -/
def cmp (self other : LowerBound T) : Ordering :=
  match compare self.val other.val with
  | .gt => .gt
  | .lt => .lt
  | .eq =>
    if self.isClosed = other.isClosed then .eq
    else if self.isClosed then .lt else .gt

/-- bounds.rs:286-304 `PartialOrd::partial_cmp for LowerBound` -/
def partialCmp (self other : LowerBound T) : Option Ordering :=
  match compare self.val other.val with
  | .gt => some .gt
  | .lt => some .lt
  | .eq =>
    if self.isClosed = other.isClosed then some .eq
    else if self.isClosed then some .lt else some .gt

/-- provided `PartialOrd::lt` on lower bounds -/
def lt (self other : LowerBound T) : Bool := partialCmp self other == some .lt
/-- provided `PartialOrd::le` on lower bounds -/
def le (self other : LowerBound T) : Bool :=
  partialCmp self other == some .lt || partialCmp self other == some .eq
/-- provided `PartialOrd::gt` on lower bounds -/
def gt (self other : LowerBound T) : Bool := partialCmp self other == some .gt
/-- provided `PartialOrd::ge` on lower bounds -/
def ge (self other : LowerBound T) : Bool :=
  partialCmp self other == some .gt || partialCmp self other == some .eq

/-- provided `Ord::min` -/
def min (self other : LowerBound T) : LowerBound T :=
  match cmp self other with
  | .lt | .eq => self
  | .gt => other

/-- provided `Ord::max` -/
def max (self other : LowerBound T) : LowerBound T :=
  match cmp self other with
  | .lt | .eq => other
  | .gt => self

end LowerBound

namespace UpperBound

/-- bounds.rs:553-557 `UpperBound::new` -/
def new (val : T) (isClosed : Bool) : UpperBound T := { bound := Bound.new val isClosed }

/-- bounds.rs:515-517 `UpperBound::val` -/
def val (u : UpperBound T) : T := u.bound.val

/-- bounds.rs:533-535 `UpperBound::is_closed` -/
def isClosed (u : UpperBound T) : Bool := u.bound.isClosed

/-- bounds.rs:575-577 `UpperBound::into_tuple` -/
def intoTuple (u : UpperBound T) : T × Bool := u.bound.intoTuple

/-- bounds.rs:581-599 `Ord::cmp for UpperBound` -/
def cmp (self other : UpperBound T) : Ordering :=
  match compare self.val other.val with
  | .gt => .gt
  | .lt => .lt
  | .eq =>
    if self.isClosed = other.isClosed then .eq
    else if self.isClosed then .gt else .lt

/-- bounds.rs:607-625 `PartialOrd::partial_cmp for UpperBound` -/
def partialCmp (self other : UpperBound T) : Option Ordering :=
  match compare self.val other.val with
  | .gt => some .gt
  | .lt => some .lt
  | .eq =>
    if self.isClosed = other.isClosed then some .eq
    else if self.isClosed then some .gt else some .lt

/-- provided `PartialOrd::lt` on upper bounds -/
def lt (self other : UpperBound T) : Bool := partialCmp self other == some .lt
/-- provided `PartialOrd::le` on upper bounds -/
def le (self other : UpperBound T) : Bool :=
  partialCmp self other == some .lt || partialCmp self other == some .eq
/-- provided `PartialOrd::gt` on upper bounds -/
def gt (self other : UpperBound T) : Bool := partialCmp self other == some .gt
/-- provided `PartialOrd::ge` on upper bounds -/
def ge (self other : UpperBound T) : Bool :=
  partialCmp self other == some .gt || partialCmp self other == some .eq

/-- provided `Ord::min` -/
def min (self other : UpperBound T) : UpperBound T :=
  match cmp self other with
  | .lt | .eq => self
  | .gt => other

/-- provided `Ord::max` -/
def max (self other : UpperBound T) : UpperBound T :=
  match cmp self other with
  | .lt | .eq => other
  | .gt => self

end UpperBound

/-- bounds.rs:779-781 `are_separated` -/
def areSeparated (l : LowerBound T) (u : UpperBound T) : Bool :=
  decide (l.val > u.val) || (decide (u.val = l.val) && !u.isClosed && !l.isClosed)

/-- bounds.rs:172-174 `LowerBound::is_separated_from` -/
def LowerBound.isSeparatedFrom (self : LowerBound T) (other : UpperBound T) : Bool := areSeparated self other

/-- bounds.rs:511-513 `UpperBound::is_separated_from` -/
def UpperBound.isSeparatedFrom (self : UpperBound T) (other : LowerBound T) : Bool := areSeparated other self

namespace LowerBound

/-- bounds.rs:317-323 `PartialOrd<UpperBound>::lt` -/
def ltU (self : LowerBound T) (other : UpperBound T) : Bool :=
  match compare self.val other.val with
  | .gt => false
  | .lt => true
  | .eq => !self.isClosed || !other.isClosed

/-- bounds.rs:325-327 `PartialOrd<UpperBound>::le` -/
def leU (self : LowerBound T) (other : UpperBound T) : Bool := decide (self.val ≤ other.val)

/-- bounds.rs:329-335 `PartialOrd<UpperBound>::gt` -/
def gtU (self : LowerBound T) (other : UpperBound T) : Bool :=
  match compare self.val other.val with
  | .gt => true
  | .lt => false
  | .eq => !self.isClosed || !other.isClosed

/-- bounds.rs:337-339 `PartialOrd<UpperBound>::ge` -/
def geU (self : LowerBound T) (other : UpperBound T) : Bool := decide (self.val ≥ other.val)

/-- bounds.rs:307-315 `PartialOrd<UpperBound>::partial_cmp` -/
def partialCmpU (self : LowerBound T) (other : UpperBound T) : Option Ordering :=
  if self.ltU other then some .lt
  else if self.gtU other then some .gt
  else none

/-- bounds.rs:343-345 `PartialEq<UpperBound>::eq` -/
def eqU (_self : LowerBound T) (_other : UpperBound T) : Bool := false
/-- bounds.rs:347-349 `PartialEq<UpperBound>::ne` -/
def neU (_self : LowerBound T) (_other : UpperBound T) : Bool := false

/-- bounds.rs:354-364 `PartialOrd<T>::partial_cmp` -/
def partialCmpV (self : LowerBound T) (other : T) : Option Ordering :=
  match compare self.val other with
  | .gt => some .gt
  | .lt => some .lt
  | .eq => if self.isClosed then some .eq else some .gt

/-- bounds.rs:366-368 `PartialOrd<T>::lt` -/
def ltV (self : LowerBound T) (other : T) : Bool := decide (self.val < other)
/-- bounds.rs:370-372 `PartialOrd<T>::le` -/
def leV (self : LowerBound T) (other : T) : Bool :=
  decide (self.val < other) || (decide (self.val = other) && self.isClosed)
/-- bounds.rs:374-376 `PartialOrd<T>::gt` -/
def gtV (self : LowerBound T) (other : T) : Bool :=
  decide (self.val > other) || (decide (self.val = other) && !self.isClosed)
/-- bounds.rs:378-380 `PartialOrd<T>::ge` -/
def geV (self : LowerBound T) (other : T) : Bool := decide (self.val ≥ other)
/-- bounds.rs:384-386 `PartialEq<T>::eq` -/
def eqV (self : LowerBound T) (other : T) : Bool := decide (self.val = other) && self.isClosed

/-- bounds.rs:393-401,409-417,425-433,441-449 `Add`, `Sub`, `Mul`, `Div` for `LowerBound` -/
def binOp (op : T → Except Fault T) (l : LowerBound T) : Except Fault (LowerBound T) := do
  return { bound := ← l.bound.binOp op }

/-- bounds.rs:403-407,419-423,435-439,451-455 the assigning operators for `LowerBound` -/
def opAssign (op : M T Unit) : M (LowerBound T) Unit := fun l =>
  let (r, b) := Bound.opAssign op l.bound
  (r, { bound := b })

end LowerBound

namespace UpperBound

/-- bounds.rs:638-644 `PartialOrd<LowerBound>::lt` -/
def ltL (self : UpperBound T) (other : LowerBound T) : Bool :=
  match compare self.val other.val with
  | .gt => false
  | .lt => true
  | .eq => !self.isClosed || !other.isClosed

/-- bounds.rs:646-648 `PartialOrd<LowerBound>::le` -/
def leL (self : UpperBound T) (other : LowerBound T) : Bool := decide (self.val ≤ other.val)

/-- bounds.rs:650-656 `PartialOrd<LowerBound>::gt` -/
def gtL (self : UpperBound T) (other : LowerBound T) : Bool :=
  match compare self.val other.val with
  | .gt => true
  | .lt => false
  | .eq => !self.isClosed || !other.isClosed

/-- bounds.rs:658-660 `PartialOrd<LowerBound>::ge` -/
def geL (self : UpperBound T) (other : LowerBound T) : Bool := decide (self.val ≥ other.val)

/-- bounds.rs:628-636 `PartialOrd<LowerBound>::partial_cmp` -/
def partialCmpL (self : UpperBound T) (other : LowerBound T) : Option Ordering :=
  if self.ltL other then some .lt
  else if self.gtL other then some .gt
  else none

/-- bounds.rs:664-666 `PartialEq<LowerBound>::eq` -/
def eqL (_self : UpperBound T) (_other : LowerBound T) : Bool := false
/-- bounds.rs:668-670 `PartialEq<LowerBound>::ne` -/
def neL (_self : UpperBound T) (_other : LowerBound T) : Bool := false

/-- bounds.rs:674-684 `PartialOrd<T>::partial_cmp` -/
def partialCmpV (self : UpperBound T) (other : T) : Option Ordering :=
  match compare self.val other with
  | .gt => some .gt
  | .lt => some .lt
  | .eq => if self.isClosed then some .eq else some .lt

/-- bounds.rs:686-688 `PartialOrd<T>::lt` -/
def ltV (self : UpperBound T) (other : T) : Bool :=
  decide (self.val < other) || (decide (self.val = other) && !self.isClosed)
/-- bounds.rs:690-692 `PartialOrd<T>::le` -/
def leV (self : UpperBound T) (other : T) : Bool := decide (self.val ≤ other)
/-- bounds.rs:694-696 `PartialOrd<T>::gt` -/
def gtV (self : UpperBound T) (other : T) : Bool := decide (self.val > other)
/-- bounds.rs:698-700 `PartialOrd<T>::ge` -/
def geV (self : UpperBound T) (other : T) : Bool :=
  decide (self.val > other) || (decide (self.val = other) && self.isClosed)
/-- bounds.rs:704-706 `PartialEq<T>::eq` -/
def eqV (self : UpperBound T) (other : T) : Bool := decide (self.val = other) && self.isClosed

/-- bounds.rs:713-721,729-737,745-753,761-769 `Add`, `Sub`, `Mul`, `Div` for `UpperBound` -/
def binOp (op : T → Except Fault T) (u : UpperBound T) : Except Fault (UpperBound T) := do
  return { bound := ← u.bound.binOp op }

/-- bounds.rs:723-727,739-743,755-759,771-775 the assigning operators for `UpperBound` -/
def opAssign (op : M T Unit) : M (UpperBound T) Unit := fun u =>
  let (r, b) := Bound.opAssign op u.bound
  (r, { bound := b })

end UpperBound

/-! ## interval.rs -/

/-- interval.rs:12-16 `NonEmptyInterval` -/
structure NonEmptyInterval (T : Type) where
  lo : LowerBound T
  up : UpperBound T
deriving DecidableEq, Repr

/-- interval.rs:73-76 `Interval`, with derived `==` -/
structure Interval (T : Type) where
  imp : Option (NonEmptyInterval T)
deriving DecidableEq, Repr

namespace Interval

/-- interval.rs:125-140 `create_checked` -/
def createChecked (lo : T) (loc : Bool) (up : T) (upc : Bool) : Except Fault (Interval T) :=
  if lo > up then .error .explicit
  else if lo = up ∧ (!loc || !upc) then .error .explicit
  else .ok { imp := some { lo := LowerBound.new lo loc, up := UpperBound.new up upc } }

/-- interval.rs:322-335 `fix_after_modification`; bounds.rs:235-237 `LowerBound::swap` is inlined. -/
def fixAfterModification (self : Interval T) : Interval T :=
  match self.imp with
  | none => self
  | some a =>
    let a : NonEmptyInterval T :=
      if a.lo.val > a.up.val then { lo := { bound := a.up.bound }, up := { bound := a.lo.bound } } else a
    if a.lo.val = a.up.val ∧ (!a.lo.isClosed || !a.up.isClosed) then { imp := none }
    else { imp := some a }

/-- interval.rs:144-152 `create_friendly` -/
def createFriendly (lo : T) (loc : Bool) (up : T) (upc : Bool) : Interval T :=
  fixAfterModification { imp := some { lo := LowerBound.new lo loc, up := UpperBound.new up upc } }

/-- interval.rs:96-98 `new` -/
def new (lower : T) (lowerClosed : Bool) (upper : T) (upperClosed : Bool) : Except Fault (Interval T) :=
  createChecked lower lowerClosed upper upperClosed

/-- interval.rs:118-122 `from_bounds` -/
def fromBounds (lo : LowerBound T) (up : UpperBound T) : Except Fault (Interval T) :=
  let (l, lc) := lo.intoTuple
  let (u, uc) := up.intoTuple
  createChecked l lc u uc

/-- interval.rs:166-173 `single` -/
def single (val : T) : Interval T :=
  { imp := some { lo := LowerBound.new val true, up := UpperBound.new val true } }

/-- interval.rs:190-192 `open` -/
def «open» (low up : T) : Except Fault (Interval T) := createChecked low false up false
/-- interval.rs:209-211 `closed` -/
def closed (low up : T) : Except Fault (Interval T) := createChecked low true up true
/-- interval.rs:228-230 `lower_closed` -/
def lowerClosed (low up : T) : Except Fault (Interval T) := createChecked low true up false
/-- interval.rs:247-249 `upper_closed` -/
def upperClosed (low up : T) : Except Fault (Interval T) := createChecked low false up true

/-- interval.rs:264-268 `empty` -/
def empty : Interval T := { imp := none }

/-- interval.rs:286-295 `into_tuple` -/
def intoTuple (self : Interval T) : Option (T × Bool × T × Bool) :=
  match self.imp with
  | none => none
  | some a =>
    let (lo, loc) := a.lo.intoTuple
    let (up, upc) := a.up.intoTuple
    some (lo, loc, up, upc)

/-- interval.rs:315-320 `into_bounds` -/
def intoBounds (self : Interval T) : Option (LowerBound T × UpperBound T) :=
  match self.imp with
  | none => none
  | some a => some (a.lo, a.up)

/-- interval.rs:354-359 `upper` -/
def upper (self : Interval T) : Option (UpperBound T) :=
  match self.imp with
  | none => none
  | some a => some a.up

/-- interval.rs:377-382 `lower` -/
def lower (self : Interval T) : Option (LowerBound T) :=
  match self.imp with
  | none => none
  | some a => some a.lo

/-- interval.rs:402-410 `bounds` -/
def bounds (self : Interval T) : Option (LowerBound T × UpperBound T) :=
  match self.imp with
  | none => none
  | some a => some (a.lo, a.up)

/-- interval.rs:426-428 `is_empty` -/
def isEmpty (self : Interval T) : Bool := self.imp.isNone

/-- interval.rs:443-449 `is_single` -/
def isSingle (self : Interval T) : Bool :=
  match self.imp with
  | some a => decide (a.lo.val = a.up.val)
  | none => false

/-- interval.rs:466-471 `is_lower_closed` -/
def isLowerClosed (self : Interval T) : Option Bool :=
  match self.imp with
  | none => none
  | some a => some a.lo.isClosed

/-- interval.rs:488-493 `is_upper_closed` -/
def isUpperClosed (self : Interval T) : Option Bool :=
  match self.imp with
  | none => none
  | some a => some a.up.isClosed

/-! ### interval_cmp.rs -/

/-- interval_cmp.rs:21-26 `PartialOrd<T>::lt` -/
def ltV (self : Interval T) (val : T) : Bool :=
  match self.upper with
  | none => false
  | some up => up.ltV val

/-- interval_cmp.rs:28-33 `PartialOrd<T>::le` -/
def leV (self : Interval T) (val : T) : Bool :=
  match self.upper with
  | none => false
  | some up => up.leV val

/-- interval_cmp.rs:35-40 `PartialOrd<T>::gt` -/
def gtV (self : Interval T) (val : T) : Bool :=
  match self.lower with
  | none => false
  | some lo => lo.gtV val

/-- interval_cmp.rs:42-47 `PartialOrd<T>::ge` -/
def geV (self : Interval T) (val : T) : Bool :=
  match self.lower with
  | none => false
  | some low => low.geV val

/-- interval_cmp.rs:51-56 `PartialEq<T>::eq` -/
def eqV (self : Interval T) (val : T) : Bool :=
  match self.bounds with
  | none => false
  | some (a, b) => a.eqV val && b.eqV val

/-- interval_cmp.rs:7-19 `PartialOrd<T>::partial_cmp` -/
def partialCmpV (self : Interval T) (val : T) : Option Ordering :=
  if self.ltV val then some .lt
  else if self.gtV val then some .gt
  else if self.eqV val then some .eq
  else none

/-- interval_cmp.rs:73-81 `PartialOrd::lt` -/
def lt (self other : Interval T) : Bool :=
  match self.upper with
  | none => false
  | some s =>
    match other.lower with
    | none => false
    | some o => s.ltL o

/-- interval_cmp.rs:83-91 `PartialOrd::le` -/
def le (self other : Interval T) : Bool :=
  match self.upper with
  | none => false
  | some s =>
    match other.lower with
    | none => false
    | some o => s.leL o

/-- interval_cmp.rs:93-101 `PartialOrd::gt` -/
def gt (self other : Interval T) : Bool :=
  match self.lower with
  | none => false
  | some s =>
    match other.upper with
    | none => false
    | some o => s.gtU o

/-- interval_cmp.rs:103-111 `PartialOrd::ge` -/
def ge (self other : Interval T) : Bool :=
  match self.lower with
  | none => false
  | some s =>
    match other.upper with
    | none => false
    | some o => s.geU o

/-- interval_cmp.rs:60-71 `PartialOrd::partial_cmp` -/
def partialCmp (self other : Interval T) : Option Ordering :=
  if self.gt other then some .gt
  else if self.lt other then some .lt
  else if self = other then some .eq
  else none

/-! ### set operations -/

/-- interval.rs:511-513 `contains_val` -/
def containsVal (self : Interval T) (val : T) : Bool := !(self.gtV val || self.ltV val)

/-- interval.rs:529-541 `contains_interval` -/
def containsInterval (self other : Interval T) : Bool :=
  match self.bounds with
  | none => other.isEmpty
  | some (l, u) =>
    match other.bounds with
    | none => true
    | some (ol, ou) => l.le ol && u.ge ou

/-- interval.rs:558-569 `can_be_merged` -/
def canBeMerged (self other : Interval T) : Bool :=
  match self.bounds with
  | none => true
  | some (lo, up) =>
    match other.bounds with
    | none => true
    | some (olo, oup) => !(up.isSeparatedFrom olo || oup.isSeparatedFrom lo)

/-- `Option::unwrap` -/
def unwrap {α : Type} : Option α → Except Fault α
  | some a => .ok a
  | none => .error .unwrapNone

/-- interval.rs:587-602 `into_merged`; the inner `Except` is the Rust `Result` -/
def intoMerged (self other : Interval T) :
    Except Fault (Except (Interval T × Interval T) (Interval T)) := do
  if !self.canBeMerged other then return .error (self, other)
  if other.isEmpty then return .ok self
  if self.isEmpty then return .ok other
  let (l1, u1) ← unwrap self.intoBounds
  let (l2, u2) ← unwrap other.intoBounds
  return .ok (← fromBounds (l1.min l2) (u1.max u2))

/-- interval.rs:619-642 `merge`; the inner `Except` is the Rust `Result`. The exchanged-out bounds left in
the local `other` are dropped. -/
def merge (other : Interval T) : M (Interval T) (Except (Interval T) Unit) := fun self =>
  if !self.canBeMerged other then (.ok (.error other), self)
  else
    match self.imp with
    | none => (.ok (.ok ()), other)
    | some s =>
      match other.imp with
      | none => (.ok (.ok ()), self)
      | some o =>
        let s1 : NonEmptyInterval T := if o.lo.lt s.lo then { s with lo := o.lo } else s
        let s2 : NonEmptyInterval T := if o.up.gt s1.up then { s1 with up := o.up } else s1
        (.ok (.ok ()), { imp := some s2 })

/-- interval.rs:660-662 `intersects` -/
def intersects (self other : Interval T) : Bool := !(self.gt other || self.lt other)

/-- interval.rs:678-692 `into_intersection` -/
def intoIntersection (self other : Interval T) : Except Fault (Interval T) := do
  if self.isEmpty then return self
  if other.isEmpty then return other
  if !self.intersects other then return empty
  let (l1, u1) ← unwrap self.intoBounds
  let (l2, u2) ← unwrap other.intoBounds
  fromBounds (l1.max l2) (u1.min u2)

/-- interval.rs:709-725 `intersection` -/
def intersection (other : Interval T) : M (Interval T) Unit := fun self =>
  if self.isEmpty || other.isEmpty || self.gt other || self.lt other then (.ok (), { imp := none })
  else
    match unwrap self.imp with
    | .error e => (.error e, self)
    | .ok s =>
      match unwrap other.imp with
      | .error e => (.error e, self)
      | .ok o =>
        let s1 : NonEmptyInterval T := if s.lo.lt o.lo then { s with lo := o.lo } else s
        let s2 : NonEmptyInterval T := if s1.up.gt o.up then { s1 with up := o.up } else s1
        (.ok (), { imp := some s2 })

/-- interval.rs:742-753 `into_span` -/
def intoSpan (self other : Interval T) : Except Fault (Interval T) := do
  if other.isEmpty then return self
  if self.isEmpty then return other
  let (l1, u1) ← unwrap self.intoBounds
  let (l2, u2) ← unwrap other.intoBounds
  fromBounds (l1.min l2) (u1.max u2)

/-- interval.rs:770-789 `span` -/
def span (other : Interval T) : M (Interval T) Unit := fun self =>
  if other.isEmpty then (.ok (), self)
  else if self.isEmpty then (.ok (), other)
  else
    match unwrap self.imp with
    | .error e => (.error e, self)
    | .ok s =>
      match unwrap other.imp with
      | .error e => (.error e, self)
      | .ok o =>
        let s1 : NonEmptyInterval T := if o.lo.lt s.lo then { s with lo := o.lo } else s
        let s2 : NonEmptyInterval T := if o.up.gt s1.up then { s1 with up := o.up } else s1
        (.ok (), { imp := some s2 })

/-- interval.rs:806-817 `Display::fmt`, as a list of characters; `disp` is `Display` of the value type -/
def display (disp : T → List Char) (self : Interval T) : List Char :=
  match self.imp with
  | none => ['Ø']
  | some a =>
    let l := if a.lo.isClosed then '[' else '('
    let r := if a.up.isClosed then ']' else ')'
    [l] ++ disp a.lo.val ++ [','] ++ disp a.up.val ++ [r]

/-- bounds.rs:11 derived `Hash` of `Bound`: what is fed to the hasher; `h` is `Hash` of the value type -/
def _root_.Itv.Bound.hash (h : T → List Nat) (b : Bound T) : List Nat := h b.val ++ [b.isClosed.toNat]

/-- interval.rs:12, 73 derived `Hash` of `NonEmptyInterval` and `Interval` (bounds.rs:149, 488 pass it on): the
discriminant of the `Option`, then the fields in order -/
def hash (h : T → List Nat) (self : Interval T) : List Nat :=
  match self.imp with
  | none => [0]
  | some a => [1] ++ a.lo.bound.hash h ++ a.up.bound.hash h

/-! ### interval_math.rs -/

/-- interval_math.rs:4-19 `Add`, 33-47 `Sub`, 60-74 `Mul`, 90-104 `Div`: the four bodies differ only in the
operator; the upper bound is computed first. `opUp` is the operator with the cloned right operand, `opLo` the
one with the right operand itself. -/
def binOp2 (opUp opLo : T → Except Fault T) (self : Interval T) : Except Fault (Interval T) :=
  match self.imp with
  | none => .ok self
  | some a => do
    let up ← a.up.binOp opUp
    let lo ← a.lo.binOp opLo
    return fixAfterModification { imp := some { lo := lo, up := up } }

/-- the operators when the clone is as good as the original -/
def binOp (op : T → Except Fault T) (self : Interval T) : Except Fault (Interval T) := binOp2 op op self

/-- interval_math.rs:22-30 `AddAssign`, 49-57 `SubAssign`, 77-85 `MulAssign`, 107-115 `DivAssign`: the four
bodies differ only in the operator; the lower bound is updated first, in place, with the clone of the right
operand. -/
def opAssign2 (opLo opUp : M T Unit) : M (Interval T) Unit := fun self =>
  match self.imp with
  | none => (.ok (), fixAfterModification self)
  | some a =>
    match LowerBound.opAssign opLo a.lo with
    | (.error e, lo) => (.error e, { imp := some { a with lo := lo } })
    | (.ok (), lo) =>
      match UpperBound.opAssign opUp a.up with
      | (.error e, up) => (.error e, { imp := some { lo := lo, up := up } })
      | (.ok (), up) => (.ok (), fixAfterModification { imp := some { lo := lo, up := up } })

/-- the assigning operators when the clone is as good as the original -/
def opAssign (op : M T Unit) : M (Interval T) Unit := opAssign2 op op

/-- interval_math.rs:118-127 `Neg`: `-u` is evaluated before `-l`; the two may differ in a type whose operator
is not a function of its operand. -/
def neg2 (opU opL : T → Except Fault T) (self : Interval T) : Except Fault (Interval T) :=
  match self.intoTuple with
  | none => .ok empty
  | some (l, lc, u, uc) => do
    let nu ← opU u
    let nl ← opL l
    return createFriendly nu uc nl lc

/-- `Neg` when it is a function of the value -/
def neg (op : T → Except Fault T) (self : Interval T) : Except Fault (Interval T) := neg2 op op self

end Interval
end Itv
