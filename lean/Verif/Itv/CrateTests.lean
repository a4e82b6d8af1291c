import Verif.Itv.Arith
import Verif.Rust.Assert
/-!
# The tests of `interval/*.rs` replayed on the model

Every unit test of bounds.rs:785-989, interval.rs:819-1011, interval_cmp.rs:115-250 and interval_math.rs:129-178, and
every documentation example of bounds.rs and interval.rs, in the order of the source. See `Verif/Rust/Assert.lean` for
what this is good for. The values are `i32` with the arithmetic of a build that checks for overflow.
-/

open Rust
namespace Itv.CrateTests

variable {σ : Type}

/-- `i32` -/
def i32 : IntTy := ⟨32, true, by decide⟩

/-- `x op= c` for a primitive integer: the operand changes only when the operation succeeds. -/
def asgn (op : Int → Except Fault Int) : M Int Unit := fun x =>
  match op x with
  | .ok y => (.ok (), y)
  | .error e => (.error e, x)

/-- `+ c` -/
def plus (c : Int) : Int → Except Fault Int := i32.add true c
/-- `- c` -/
def minus (c : Int) : Int → Except Fault Int := i32.sub true c
/-- `* c` -/
def times (c : Int) : Int → Except Fault Int := i32.mul true c
/-- `/ c` -/
def over (c : Int) : Int → Except Fault Int := i32.div true c

/-- `Interval::open(a, b)` -/
def op (a b : Int) : M σ (Interval Int) := M.lift (Interval.open a b)
/-- `Interval::closed(a, b)` -/
def cl (a b : Int) : M σ (Interval Int) := M.lift (Interval.closed a b)
/-- `Interval::lower_closed(a, b)` -/
def lc (a b : Int) : M σ (Interval Int) := M.lift (Interval.lowerClosed a b)
/-- `Interval::upper_closed(a, b)` -/
def uc (a b : Int) : M σ (Interval Int) := M.lift (Interval.upperClosed a b)
/-- `Interval::empty()` -/
def none_ : Interval Int := Interval.empty
/-- `LowerBound::new(v, c)` -/
def L (v : Int) (c : Bool) : LowerBound Int := LowerBound.new v c
/-- `UpperBound::new(v, c)` -/
def U (v : Int) (c : Bool) : UpperBound Int := UpperBound.new v c
/-- the values and the closedness of both bounds -/
def shape (i : Interval Int) : Option (Int × Bool × Int × Bool) := do
  let l ← i.lower
  let u ← i.upper
  return (l.val, l.isClosed, u.val, u.isClosed)
/-- run a mutating method on an interval and give what it returned and what is left -/
def call {β : Type} (m : M (Interval Int) β) (i : Interval Int) : M σ (β × Interval Int) := fun s =>
  match m i with
  | (.ok b, i') => (.ok (b, i'), s)
  | (.error e, _) => (.error e, s)
/-- the `Result` of a merge, in a form that can be compared -/
def result {β γ : Type} : Except β γ → Sum β γ
  | .error b => .inl b
  | .ok c => .inr c
/-- run a mutating method on a bound or a number -/
def change {β : Type} (m : M β Unit) (b : β) : M σ β := fun s =>
  match m b with
  | (.ok (), b') => (.ok b', s)
  | (.error e, _) => (.error e, s)

/-- a test without state -/
def ok (test : M Unit Unit) : Bool := passes (.ok ()) test

/-! ## Unit tests of `bounds.rs` -/

/-- bounds.rs:791-804 -/
def testCreateCheckDestroy : M Unit Unit := do
  assertEq (L 5 true).val 5
  assertEq (L 5 true).isClosed true
  assertEq (L 5 true).intoTuple (5, true)
  assertEq (U 5 true).val 5
  assertEq (U 5 true).isClosed true
  assertEq (U 5 true).intoTuple (5, true)
example : ok testCreateCheckDestroy = true := by decide +kernel

/-- bounds.rs:807-812 -/
def testIsSeparatedFrom : M Unit Unit := do
  assert ((U 5 true).isSeparatedFrom (L 6 false))
  assert ((U 5 true).isSeparatedFrom (L 6 true))
  assert (!(U 5 true).isSeparatedFrom (L 5 false))
  assert (!(U 5 true).isSeparatedFrom (L 5 true))
example : ok testIsSeparatedFrom = true := by decide +kernel

/-- bounds.rs:815-822 -/
def testLowerCmp : M Unit Unit := do
  assert ((L 5 true).lt (L 6 true))
  assert ((L 5 true).lt (L 5 false))
  assertEq (L 5 true) (L 5 true)
  assertEq (L 5 false) (L 5 false)
  assert ((L 5 false).gt (L 5 true))
  assert ((L 5 false).gt (L 4 false))
example : ok testLowerCmp = true := by decide +kernel

/-- bounds.rs:825-832 -/
def testUpperCmp : M Unit Unit := do
  assert ((U 5 false).lt (U 6 false))
  assert ((U 5 false).lt (U 5 true))
  assertEq (U 5 true) (U 5 true)
  assertEq (U 5 false) (U 5 false)
  assert ((U 5 true).gt (U 5 false))
  assert ((U 5 true).gt (U 4 true))
example : ok testUpperCmp = true := by decide +kernel

/-- bounds.rs:835-842 -/
def testLowerUpperCmp : M Unit Unit := do
  assert ((L 5 true).ltU (U 6 true))
  assert ((L 5 true).ltU (U 5 false))
  assert (!(L 5 true).eqU (U 5 true))
  assert (!(L 5 false).eqU (U 5 false))
  assert ((L 5 false).gtU (U 5 true))
  assert ((L 5 false).gtU (U 4 false))
example : ok testLowerUpperCmp = true := by decide +kernel

/-- bounds.rs:845-852 -/
def testUpperLowerCmp : M Unit Unit := do
  assert ((U 5 false).ltL (L 6 false))
  assert ((U 5 false).ltL (L 5 true))
  assert (!(U 5 true).eqL (L 5 true))
  assert (!(U 5 false).eqL (L 5 false))
  assert ((U 5 true).gtL (L 5 false))
  assert ((U 5 true).gtL (L 4 true))
example : ok testUpperLowerCmp = true := by decide +kernel

/-- bounds.rs:855-865 -/
def testAddBounds : M Unit Unit := do
  assertEq (← M.lift ((L 6 false).binOp (plus 4))) (L 10 false)
  assertEq (← change (LowerBound.opAssign (asgn (plus 3))) (L 6 false)) (L 9 false)
  assertEq (← M.lift ((U 6 false).binOp (plus 4))) (U 10 false)
  assertEq (← change (UpperBound.opAssign (asgn (plus 3))) (U 6 false)) (U 9 false)
example : ok testAddBounds = true := by decide +kernel

/-- bounds.rs:868-878 -/
def testSubBounds : M Unit Unit := do
  assertEq (← M.lift ((L 6 false).binOp (minus 2))) (L 4 false)
  assertEq (← change (LowerBound.opAssign (asgn (minus 3))) (L 6 false)) (L 3 false)
  assertEq (← M.lift ((U 6 false).binOp (minus 2))) (U 4 false)
  assertEq (← change (UpperBound.opAssign (asgn (minus 3))) (U 6 false)) (U 3 false)
example : ok testSubBounds = true := by decide +kernel

/-- bounds.rs:881-891 -/
def testMulBounds : M Unit Unit := do
  assertEq (← M.lift ((L 6 false).binOp (times 2))) (L 12 false)
  assertEq (← change (LowerBound.opAssign (asgn (times (-3)))) (L 6 false)) (L (-18) false)
  assertEq (← M.lift ((U 6 false).binOp (times 2))) (U 12 false)
  assertEq (← change (UpperBound.opAssign (asgn (times (-3)))) (U 6 false)) (U (-18) false)
example : ok testMulBounds = true := by decide +kernel

/-- bounds.rs:894-904 -/
def testDivBounds : M Unit Unit := do
  assertEq (← M.lift ((L 6 false).binOp (over 2))) (L 3 false)
  assertEq (← change (LowerBound.opAssign (asgn (over (-3)))) (L 6 false)) (L (-2) false)
  assertEq (← M.lift ((U 6 false).binOp (over 2))) (U 3 false)
  assertEq (← change (UpperBound.opAssign (asgn (over (-3)))) (U 6 false)) (U (-2) false)
example : ok testDivBounds = true := by decide +kernel

/-- bounds.rs:907-946 -/
def testLowerValCmp : M Unit Unit := do
  let o := L 5 false
  assert (!o.eqV 5)
  assert (o.gtV 4)
  assert (o.gtV 5)
  assert (!o.gtV 6)
  assert (o.geV 4)
  assert (o.geV 5)
  assert (!o.geV 6)
  assert (!o.ltV 4)
  assert (!o.ltV 5)
  assert (o.ltV 6)
  assert (!o.leV 4)
  assert (!o.leV 5)
  assert (o.leV 6)
  let c := L 5 true
  assert (c.eqV 5)
  assert (c.gtV 4)
  assert (!c.gtV 5)
  assert (!c.gtV 6)
  assert (c.geV 4)
  assert (c.geV 5)
  assert (!c.geV 6)
  assert (!c.ltV 4)
  assert (!c.ltV 5)
  assert (c.ltV 6)
  assert (!c.leV 4)
  assert (c.leV 5)
  assert (c.leV 6)
example : ok testLowerValCmp = true := by decide +kernel

/-- bounds.rs:949-988 -/
def testUpperValCmp : M Unit Unit := do
  let o := U 5 false
  assert (!o.eqV 5)
  assert (o.gtV 4)
  assert (!o.gtV 5)
  assert (!o.gtV 6)
  assert (o.geV 4)
  assert (!o.geV 5)
  assert (!o.geV 6)
  assert (!o.ltV 4)
  assert (o.ltV 5)
  assert (o.ltV 6)
  assert (!o.leV 4)
  assert (o.leV 5)
  assert (o.leV 6)
  let c := L 5 true
  assert (c.eqV 5)
  assert (c.gtV 4)
  assert (!c.gtV 5)
  assert (!c.gtV 6)
  assert (c.geV 4)
  assert (c.geV 5)
  assert (!c.geV 6)
  assert (!c.ltV 4)
  assert (!c.ltV 5)
  assert (c.ltV 6)
  assert (!c.leV 4)
  assert (c.leV 5)
  assert (c.leV 6)
example : ok testUpperValCmp = true := by decide +kernel

/-! ## Unit tests of `interval.rs` -/

/-- interval.rs:825-832 -/
def testCreateEmpty : M Unit Unit := do
  assertEq none_.isLowerClosed none
  assertEq none_.isUpperClosed none
  assertEq none_.lower none
  assertEq none_.upper none
  assert none_.isEmpty
example : ok testCreateEmpty = true := by decide +kernel

/-- interval.rs:835-842, 845-852, 861-868, 877-884: the closedness and the value of both bounds -/
def testCreate : M Unit Unit := do
  let i := Interval.single (T := Int) 5
  assertEq (i.isLowerClosed, i.isUpperClosed, i.isEmpty) (some true, some true, false); assertEq (shape i) (some (5, true, 5, true))
  let i ← cl 3 5
  assertEq (i.isLowerClosed, i.isUpperClosed, i.isEmpty) (some true, some true, false); assertEq (shape i) (some (3, true, 5, true))
  let i ← lc 3 5
  assertEq (i.isLowerClosed, i.isUpperClosed, i.isEmpty) (some true, some false, false); assertEq (shape i) (some (3, true, 5, false))
  let i ← uc 3 5
  assertEq (i.isLowerClosed, i.isUpperClosed, i.isEmpty) (some false, some true, false); assertEq (shape i) (some (3, false, 5, true))
example : ok testCreate = true := by decide +kernel

-- interval.rs:854-858, 870-874, 886-890, `#[should_panic]`
example : shouldPanic (Interval.closed (5 : Int) 4) = true := by decide +kernel
example : shouldPanic (Interval.lowerClosed (5 : Int) 5) = true := by decide +kernel
example : shouldPanic (Interval.upperClosed (5 : Int) 5) = true := by decide +kernel

/-- interval.rs:893-901 -/
def testContainsVal : M Unit Unit := do
  let i ← lc 4 6
  assertEq ([3, 4, 5, 6, 7].map i.containsVal) [false, true, true, false, false]
example : ok testContainsVal = true := by decide +kernel

/-- interval.rs:904-917 -/
def testContainsInterval : M Unit Unit := do
  let i ← lc 4 8
  let e := none_
  assert (i.containsInterval (← op 6 7))
  assert (i.containsInterval (← op 4 8))
  assert (!i.containsInterval (← op 3 7))
  assert (!i.containsInterval (← op 6 9))
  assert (!i.containsInterval (← op 3 9))
  assert (!i.containsInterval (← cl 4 8))
  assert (i.containsInterval i)
  assert (i.containsInterval e)
  assert (e.containsInterval e)
  assert (!e.containsInterval (← op 3 7))
example : ok testContainsInterval = true := by decide +kernel

/-- interval.rs:920-932 -/
def testCanBeMerged : M Unit Unit := do
  assert ((← op 4 7).canBeMerged (← op 5 9))
  assert ((← op 4 7).canBeMerged (← cl 7 9))
  assert ((← cl 4 7).canBeMerged (← op 7 9))
  assert (!(← op 4 7).canBeMerged (← op 7 9))
  assert (!(← op 4 7).canBeMerged (← op 8 9))
  assert ((← op 4 7).canBeMerged (← op 2 6))
  assert ((← op 4 7).canBeMerged (← cl 2 4))
  assert ((← cl 4 7).canBeMerged (← op 2 4))
  assert (!(← op 4 7).canBeMerged (← op 2 4))
  assert (!(← op 4 7).canBeMerged (← op 2 3))
example : ok testCanBeMerged = true := by decide +kernel

/-- interval.rs:935-940 -/
def testIntoMerged : M Unit Unit := do
  assertEq (result (← M.lift ((← cl 3 4).intoMerged (← cl 4 5)))) (.inr (← cl 3 5))
  assertEq (result (← M.lift ((← op 3 4).intoMerged (← cl 4 5)))) (.inr (← uc 3 5))
  assertEq (result (← M.lift ((← cl 3 4).intoMerged (← op 4 5)))) (.inr (← lc 3 5))
  assertEq (result (← M.lift ((← op 3 4).intoMerged (← op 4 5)))) (.inl (← op 3 4, ← op 4 5))
example : ok testIntoMerged = true := by decide +kernel

/-- interval.rs:943-956 -/
def testMerge : M Unit Unit := do
  let (r, i) ← call (Interval.merge (← op 3 5)) none_
  assertEq (result r) (.inr ()); assertEq i (← op 3 5)
  let (r, i) ← call (Interval.merge (← cl 5 8)) i
  assertEq (result r) (.inr ()); assertEq i (← uc 3 8)
  let (r, i) ← call (Interval.merge (← cl 1 2)) i
  assertEq (result r) (.inl (← cl 1 2)); assertEq i (← uc 3 8)
  let (r, i) ← call (Interval.merge none_) i
  assertEq (result r) (.inr ()); assertEq i (← uc 3 8)
example : ok testMerge = true := by decide +kernel

/-- interval.rs:959-973 -/
def testSpan : M Unit Unit := do
  let (_, i) ← call (Interval.span (← op 3 5)) none_
  assertEq i (← op 3 5)
  let (_, i) ← call (Interval.span none_) i
  assertEq i (← op 3 5)
  let (_, i) ← call (Interval.span (← cl 3 5)) i
  assertEq i (← cl 3 5)
  let (_, i) ← call (Interval.span (← cl 7 9)) i
  assertEq i (← cl 3 9)
example : ok testSpan = true := by decide +kernel

/-- interval.rs:976-984 -/
def testIntoSpan : M Unit Unit := do
  assertEq (← M.lift (none_.intoSpan (← op 3 5))) (← op 3 5)
  assertEq (← M.lift ((← op 3 5).intoSpan (← op 3 5))) (← op 3 5)
  assertEq (← M.lift ((← op 3 5).intoSpan (← cl 3 5))) (← cl 3 5)
  assertEq (← M.lift ((← cl 3 5).intoSpan (← cl 7 9))) (← cl 3 9)
example : ok testIntoSpan = true := by decide +kernel

/-- interval.rs:987-1001 -/
def testIntersection : M Unit Unit := do
  let (_, i) ← call (Interval.intersection (← cl 1 8)) (← op 3 9)
  assertEq i (← uc 3 8)
  let (_, i) ← call (Interval.intersection (← lc 4 7)) i
  assertEq i (← lc 4 7)
  let (_, i) ← call (Interval.intersection i) i
  assertEq i (← lc 4 7)
  let (_, i) ← call (Interval.intersection none_) i
  assertEq i none_
example : ok testIntersection = true := by decide +kernel

/-- interval.rs:1004-1009 -/
def testIntoIntersection : M Unit Unit := do
  assertEq (← M.lift ((← op 3 9).intoIntersection (← cl 1 8))) (← uc 3 8)
  assertEq (← M.lift ((← uc 3 8).intoIntersection (← lc 4 7))) (← lc 4 7)
  assertEq (← M.lift ((← lc 4 7).intoIntersection (← lc 4 7))) (← lc 4 7)
  assertEq (← M.lift ((← lc 4 7).intoIntersection none_)) none_
example : ok testIntoIntersection = true := by decide +kernel

/-! ## Unit tests of `interval_cmp.rs` -/

/-- interval_cmp.rs:121-129 -/
def testEq : M Unit Unit := do
  let s := Interval.single (T := Int) 5
  let i ← cl 4 6
  assert (s.eqV 5)
  assert (!s.eqV 4)
  assert (!i.eqV 4)
  assert (!i.eqV 5)
  assert (!i.eqV 6)
example : ok testEq = true := by decide +kernel

/-- interval_cmp.rs:132-148 -/
def testValCmpNe : M Unit Unit := do
  let o ← op 3 5
  let c ← cl 3 5
  assert (o.gtV 2)
  assert (o.gtV 3)
  assert (!o.gtV 4)
  assert (o.ltV 6)
  assert (o.ltV 5)
  assert (!o.ltV 4)
  assert (c.gtV 2)
  assert (!c.gtV 3)
  assert (!c.gtV 4)
  assert (c.ltV 6)
  assert (!c.ltV 5)
  assert (!c.ltV 4)
example : ok testValCmpNe = true := by decide +kernel

/-- interval_cmp.rs:151-169 -/
def testValCmpEq : M Unit Unit := do
  let o ← op 3 5
  let c ← cl 3 5
  assert (o.geV 2)
  assert (o.geV 3)
  assert (!o.geV 4)
  assert (o.leV 6)
  assert (o.leV 5)
  assert (!o.leV 4)
  assert (c.geV 2)
  assert (c.geV 3)
  assert (!c.geV 4)
  assert (c.leV 6)
  assert (c.leV 5)
  assert (!c.leV 4)
example : ok testValCmpEq = true := by decide +kernel

/-- interval_cmp.rs:172-208 -/
def testIntvCmpNe : M Unit Unit := do
  let o ← op 3 5
  let c ← cl 3 5
  assert (o.gt (← op 1 2))
  assert (o.gt (← op 1 3))
  assert (!o.gt (← op 1 4))
  assert (c.gt (← op 1 2))
  assert (c.gt (← op 1 3))
  assert (!c.gt (← op 1 4))
  assert (o.gt (← cl 1 2))
  assert (o.gt (← cl 1 3))
  assert (!o.gt (← cl 1 4))
  assert (c.gt (← cl 1 2))
  assert (!c.gt (← cl 1 3))
  assert (!c.gt (← cl 1 4))
  assert (o.lt (← op 6 7))
  assert (o.lt (← op 5 7))
  assert (!o.lt (← op 4 7))
  assert (c.lt (← op 6 7))
  assert (c.lt (← op 5 7))
  assert (!c.lt (← op 4 7))
  assert (o.lt (← cl 6 7))
  assert (o.lt (← cl 5 7))
  assert (!o.lt (← cl 4 7))
  assert (c.lt (← cl 6 7))
  assert (!c.lt (← cl 5 7))
  assert (!c.lt (← cl 4 7))
example : ok testIntvCmpNe = true := by decide +kernel

/-- interval_cmp.rs:211-247 -/
def testIntvCmpEq : M Unit Unit := do
  let o ← op 3 5
  let c ← cl 3 5
  assert (o.ge (← op 1 2))
  assert (o.ge (← op 1 3))
  assert (!o.ge (← op 1 4))
  assert (c.ge (← op 1 2))
  assert (c.ge (← op 1 3))
  assert (!c.ge (← op 1 4))
  assert (o.ge (← cl 1 2))
  assert (o.ge (← cl 1 3))
  assert (!o.ge (← cl 1 4))
  assert (c.ge (← cl 1 2))
  assert (c.ge (← cl 1 3))
  assert (!c.ge (← cl 1 4))
  assert (o.le (← op 6 7))
  assert (o.le (← op 5 7))
  assert (!o.le (← op 4 7))
  assert (c.le (← op 6 7))
  assert (c.le (← op 5 7))
  assert (!c.le (← op 4 7))
  assert (o.le (← cl 6 7))
  assert (o.le (← cl 5 7))
  assert (!o.le (← cl 4 7))
  assert (c.le (← cl 6 7))
  assert (c.le (← cl 5 7))
  assert (!c.le (← cl 4 7))
example : ok testIntvCmpEq = true := by decide +kernel

/-! ## Unit tests of `interval_math.rs` -/

/-- interval_math.rs:136-142 -/
def testAdd : M Unit Unit := do
  assertEq (← M.lift ((← lc 3 6).binOp (plus 3))) (← lc 6 9)
  assertEq (← call (Interval.opAssign (asgn (plus 3))) (← lc 3 6)).2 (← lc 6 9)
example : ok testAdd = true := by decide +kernel

/-- interval_math.rs:145-150 -/
def testSub : M Unit Unit := do
  assertEq (← M.lift ((← lc 3 6).binOp (minus 3))) (← lc 0 3)
  assertEq (← call (Interval.opAssign (asgn (minus 3))) (← lc 3 6)).2 (← lc 0 3)
example : ok testSub = true := by decide +kernel

/-- interval_math.rs:153-161 -/
def testMul : M Unit Unit := do
  assertEq (← M.lift ((← lc 3 6).binOp (times 3))) (← lc 9 18)
  assertEq (← M.lift ((← lc 3 6).binOp (times (-1)))) (← uc (-6) (-3))
  assertEq (← call (Interval.opAssign (asgn (times (-3)))) (← lc 3 6)).2 (← uc (-18) (-9))
example : ok testMul = true := by decide +kernel

/-- interval_math.rs:164-177 -/
def testDiv : M Unit Unit := do
  assertEq (← M.lift ((← lc 3 6).binOp (over 3))) (← lc 1 2)
  assertEq (← M.lift ((← lc 3 6).binOp (over (-1)))) (← uc (-6) (-3))
  assertEq (← call (Interval.opAssign (asgn (over (-3)))) (← lc 3 6)).2 (← uc (-2) (-1))
  assertEq (← M.lift ((← op 2 3).binOp (over 2))) none_
  assertEq (← call (Interval.opAssign (asgn (over 2))) (← op 2 3)).2 none_
example : ok testDiv = true := by decide +kernel

/-! ## Documentation examples -/

/-- bounds.rs:125-146, 161-169, 182-190, 204-210, 222-228, 244-252 -/
def docLower : M Unit Unit := do
  let l := L 5 true
  assertEq (l.isClosed, l.val, l.intoTuple) (true, 5, (5, true))
  assert (l.lt (L 5 false))
  assertEq (← change (LowerBound.opAssign (asgn (plus 3))) l) (L 8 true)
  assert (l.isSeparatedFrom (U 3 true))
  assert (!l.isSeparatedFrom (U 5 true))
  assert (!l.isSeparatedFrom (U 7 true))
example : ok docLower = true := by decide +kernel

/-- bounds.rs:464-485, 500-508, 524-530, 542-550, 564-572 (which makes a lower bound again) -/
def docUpper : M Unit Unit := do
  let u := U 5 true
  assertEq (u.isClosed, u.val) (true, 5)
  assert (u.gt (U 5 false))
  assertEq (← change (UpperBound.opAssign (asgn (plus 3))) u) (U 8 true)
  assert (u.isSeparatedFrom (L 7 true))
  assert (!u.isSeparatedFrom (L 5 true))
  assert (!u.isSeparatedFrom (L 3 true))
  assertEq (L 5 true).intoTuple (5, true)
example : ok docUpper = true := by decide +kernel

/-- interval.rs:26-71, the example of the type -/
def docType : M Unit Unit := do
  let o ← op 1 3
  let c ← cl 2 7
  assert (o.containsVal 2)
  assert (!o.containsInterval c)
  let (r, o) ← call (Interval.merge c) o
  assertEq (result r) (.inr ()); assertEq o (← uc 1 7)
  let (_, o) ← call (Interval.intersection (← op 0 4)) o
  assertEq o (← op 1 4)
  let (_, o) ← call (Interval.span (← op 7 8)) o
  assertEq o (← op 1 8)
  let b ← cl 3 5
  assert ((← op 1 3).lt b)
  assert ((← cl 1 3).le b)
  assertEq (← op 1 3) (← op 1 3)
  let (_, a) ← call (Interval.opAssign (asgn (plus 1))) (← op 1 3)
  assertEq a (← op 2 4)
  assertEq (← M.lift (a.binOp (times 2))) (← op 4 8)
example : ok docType = true := by decide +kernel

/-- interval.rs:88-94 `new`, 108-116 `from_bounds`, 158-164 `single`, 179-188 `open`, 198-207 `closed`,
217-226 `lower_closed`, 236-245 `upper_closed`, 256-262 `empty` -/
def docConstructors : M Unit Unit := do
  assertEq (← M.lift (Interval.new (T := Int) 3 false 5 true)) (← uc 3 5)
  assertEq (← M.lift (Interval.fromBounds (L 3 false) (U 5 true))) (← uc 3 5)
  assertEq (Interval.single 3) (← cl 3 3)
  assertEq (shape (← op 3 5)) (some (3, false, 5, false))
  assertEq (shape (← cl 3 5)) (some (3, true, 5, true))
  assertEq (shape (← lc 3 5)) (some (3, true, 5, false))
  assertEq (shape (← uc 3 5)) (some (3, false, 5, true))
  assert none_.isEmpty
example : ok docConstructors = true := by decide +kernel

/-- interval.rs:277-283 `into_tuple`, 304-312 `into_bounds`, 345-351 `upper`, 368-374 `lower`, 391-399 `bounds`,
417-422 `is_empty`, 435-440 `is_single`, 458-463 `is_lower_closed`, 480-485 `is_upper_closed` -/
def docAccessors : M Unit Unit := do
  assertEq (← op 3 5).intoTuple (some (3, false, 5, false))
  assertEq (← op 3 5).intoBounds (some (L 3 false, U 5 false))
  assertEq (← op 3 5).upper (some (U 5 false))
  assertEq (← op 3 5).lower (some (L 3 false))
  assertEq (← op 3 5).bounds (some (L 3 false, U 5 false))
  assert none_.isEmpty
  assert (← cl 5 5).isSingle
  assertEq (← cl 3 5).isLowerClosed (some true)
  assertEq (← cl 3 5).isUpperClosed (some true)
example : ok docAccessors = true := by decide +kernel

/-- interval.rs:503-508 `contains_val`, 520-526 `contains_interval`, 549-555 `can_be_merged`, 578-584 `into_merged`,
609-616 `merge`, 650-657 `intersects`, 669-675 `into_intersection`, 699-706 `intersection`, 733-739 `into_span`,
760-767 `span` -/
def docSets : M Unit Unit := do
  assert ((← cl 3 5).containsVal 4)
  assert ((← cl 3 7).containsInterval (← cl 4 6))
  assert ((← cl 2 4).canBeMerged (← cl 4 6))
  assertEq (result (← M.lift ((← cl 2 4).intoMerged (← cl 4 6)))) (.inr (← cl 2 6))
  let (r, a) ← call (Interval.merge (← cl 4 6)) (← cl 2 4)
  assertEq (result r) (.inr ()); assertEq a (← cl 2 6)
  assert ((← cl 2 4).intersects (← cl 4 6))
  assertEq (← M.lift ((← cl 2 5).intoIntersection (← cl 3 6))) (← cl 3 5)
  assertEq (← call (Interval.intersection (← cl 3 6)) (← cl 2 5)).2 (← cl 3 5)
  assertEq (← M.lift ((← cl 2 3).intoSpan (← cl 5 6))) (← cl 2 6)
  assertEq (← call (Interval.span (← cl 5 6)) (← cl 2 3)).2 (← cl 2 6)
example : ok docSets = true := by decide +kernel

/-- interval.rs:797-803 `Display` -/
def docDisplay : M Unit Unit := do
  assertEq ((← lc 2 3).display fun x => (toString x).toList) "[2,3)".toList
example : ok docDisplay = true := by decide +kernel

end Itv.CrateTests
