import Verif.DS.Model
import Verif.Rust.Assert
/-!
# The tests of `disjoint_set.rs` replayed on the model

Every unit test of disjoint_set.rs:378-436 and the documentation example of disjoint_set.rs:68-101, in the order of the
source. See `Verif/Rust/Assert.lean` for what this is good for. The calls have room for 64 stack frames.
-/

open Rust
namespace DS.CrateTests

variable [Cfg]

/-- `ds.contains(&x)` is `b` -/
def contains (x : Nat) (b : Bool) : M (DSet Nat) Unit := do assertEq (← DSet.contains x false) b
/-- `ds.in_union(&x, &y)` is `b` -/
def inUnion (x y : Nat) (b : Bool) : M (DSet Nat) Unit := do assertEq (← DSet.inUnion 64 x y false false) b
/-- `ds.union(x, y)` -/
def union (x y : Nat) : M (DSet Nat) Unit := DSet.union 64 x y false false

-- disjoint_set.rs:383-387 `create`
example : passes (DSet.fromIterRef [1, 2, 3] false) (do assertEq (← M.get).len 3) = true := by decide +kernel

/-- disjoint_set.rs:390-399 -/
def testContains : M (DSet Nat) Unit := do
  contains 1 true; contains 2 true; contains 3 true; contains 4 false; contains 0 false
example : passes (DSet.fromIterRef [1, 2, 3] false) testContains = true := by decide +kernel

/-- disjoint_set.rs:402-412 -/
def testMakeSet : M (DSet Nat) Unit := do
  DSet.makeSet 3 false; DSet.makeSet 4 false
  contains 3 true; contains 4 true; contains 0 false
  DSet.makeSet 4 false
  contains 4 true
example : passes (.ok DSet.new) testMakeSet = true := by decide +kernel

/-- disjoint_set.rs:417-434 -/
def testUnion : M (DSet Nat) Unit := do
  union 3 4; union 5 6
  contains 3 true; contains 4 true; contains 5 true; contains 6 true
  inUnion 3 4 true; inUnion 5 6 true; inUnion 4 5 false
  union 4 5
  inUnion 4 5 true; inUnion 3 6 true
example : inBothBuilds (fun _ => passes (.ok DSet.new) testUnion) = true := by decide +kernel

/-- disjoint_set.rs:68-101, the example of the type; what its loop prints, in the order of the model's lists -/
def docType : M (DSet Nat) Unit := do
  union 1 2
  union 1 8
  inUnion 2 8 true; inUnion 3 4 false
  contains 7 true; contains 10 false
  assertEq (← DSet.iterate 64 List.reverse List.reverse) [[1, 2, 8], [3], [4], [5], [6], [7]]
example : inBothBuilds (fun _ => passes (DSet.fromIterRef [1, 2, 3, 4, 5, 6, 7] false) docType) = true := by
  decide +kernel

end DS.CrateTests
