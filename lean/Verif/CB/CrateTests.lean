import Verif.CB.Model
import Verif.Rust.Assert
/-!
# The tests of `circular.rs` replayed on the model

Every unit test of circular.rs:919-1212 and every documentation example of circular.rs:15-685, in the order of the
source. See `Verif/Rust/Assert.lean` for what this is good for. `test_create` (929-931) is part of every other test;
`test_droppable` (1015-1022) calls nothing of the crate. `cb_eq` (924-926) and `assert_eq!(cb, slice)` are `eqSlice`.
-/

open Rust
namespace CB.CrateTests

/-- the elements of the tests: `i32` -/
local instance elem : Elem Nat := ⟨4, fun _ => false, true⟩

variable [Cfg]

/-- `CircularBuffer::new(n)` -/
def new (n : Nat) : Except Fault (St Nat) := do return ⟨← withCapacity n, []⟩
/-- `CircularBuffer::from(vec)` -/
def from_ (v : List Nat) : Except Fault (St Nat) := do return ⟨← fromVec v, []⟩
/-- pushes of several values -/
def pushes : List Nat → M (St Nat) Unit
  | [] => pure ()
  | x :: xs => do pushBack x; pushes xs
/-- `assert_eq!(f(&cb), v)` -/
def expect {β : Type} [DecidableEq β] (f : Buf Nat → Except Fault β) (v : β) : M (St Nat) Unit := do
  assertEq (← self_ f) v
/-- `assert_eq!(m(&mut cb), v)` -/
def expectM {β : Type} [DecidableEq β] (m : M (St Nat) β) (v : β) : M (St Nat) Unit := do
  assertEq (← m) v
/-- `assert!(cb_eq(&cb, v))`, `assert_eq!(cb, v.as_ref())` -/
def holds (v : List Nat) : M (St Nat) Unit := expect (·.eqSlice (· == ·) v) true
/-- `is_empty` -/
def empty (cb : Buf Nat) : Except Fault Bool := .ok cb.isEmpty
/-- the values in the regions (offset, length) that `slices_mut` gives -/
def slicesMutVals (cb : Buf Nat) : Except Fault (List (Option Nat) × List (Option Nat)) := do
  let ((a, n), (b, m)) ← cb.slicesMut
  return (← sliceRange cb.buf a (a + n), ← sliceRange cb.buf b (b + m))
/-- an iterator used up from the front -/
def everything : Nat → M (St Nat) (List Nat)
  | 0 => M.throw .diverge
  | k + 1 => do
    match ← intoIterNext with
    | none => return []
    | some x => return x :: (← everything k)

/-! ## Unit tests -/

/-- circular.rs:934-949 -/
def testLen : M (St Nat) Unit := do
  expect (·.len) 0
  pushBack 1; pushBack 2
  expect (·.len) 2
  pushBack 3; pushBack 4
  expect (·.len) 3
  let _ ← popBack
  expect (·.len) 2
  let _ ← popBack; let _ ← popBack; let _ ← popBack
  expect (·.len) 0
example : inBothBuilds (fun _ => passes (new 3) testLen) = true := by decide +kernel

/-- circular.rs:952-974 -/
def testFullEmpty : M (St Nat) Unit := do
  expect empty true; expect (·.isFull) false
  pushBack 1; pushBack 2
  expect empty false; expect (·.isFull) false
  pushBack 3
  expect empty false; expect (·.isFull) true
  pushBack 4
  expect empty false; expect (·.isFull) true
  let _ ← popBack
  expect empty false; expect (·.isFull) false
  let _ ← popBack; let _ ← popBack; let _ ← popBack
  expect empty true; expect (·.isFull) false
example : inBothBuilds (fun _ => passes (new 3) testFullEmpty) = true := by decide +kernel

/-- circular.rs:977-987 -/
def testBackPushPop : M (St Nat) Unit := do
  pushBack 1; pushBack 2; pushBack 3; pushBack 4
  expectM popBack (some 4); expectM popBack (some 3); expectM popBack (some 2); expectM popBack none
example : inBothBuilds (fun _ => passes (new 3) testBackPushPop) = true := by decide +kernel

/-- circular.rs:990-1000 -/
def testFrontPushPop : M (St Nat) Unit := do
  pushFront 1; pushFront 2; pushFront 3; pushFront 4
  expectM popFront (some 4); expectM popFront (some 3); expectM popFront (some 2); expectM popFront none
example : inBothBuilds (fun _ => passes (new 3) testFrontPushPop) = true := by decide +kernel

/-- circular.rs:1025-1044: `*counter` is the number of values dropped; what `pop_back` returns is dropped by the
caller. -/
def testDrops : M (St Nat) Unit := do
  pushBack 1; pushBack 2
  dropOpt (← popBack)
  assertEq (← M.get).dropped.length 1
  pushBack 3; pushBack 4; pushBack 5
  assertEq (← M.get).dropped.length 2
  dropSelf
  assertEq (← M.get).dropped.length 5
example : inBothBuilds (fun _ => passes (new 3) testDrops) = true := by decide +kernel

/-- circular.rs:1047-1059 -/
def testCapacity : M (St Nat) Unit := do
  expect (·.capacity) 5
  pushBack 1; pushBack 2; pushBack 3
  holds [1, 2, 3]
  expect (·.capacity) 5
  resize 7
  holds [1, 2, 3]
  resize 2
  holds [2, 3]
example : inBothBuilds (fun _ => passes (new 5) testCapacity) = true := by decide +kernel

/-- circular.rs:1062-1070 -/
def testDrain : M (St Nat) Unit := do
  pushBack 1; pushBack 2; pushBack 3
  expectM (everything 10) [1, 2, 3]
  expect empty true
example : inBothBuilds (fun _ => passes (new 4) testDrain) = true := by decide +kernel

/-- a test of two buffers -/
def both (a b : Except Fault (St Nat)) : Except Fault (St2 Nat) := do
  return { self := (← a).cb, other := (← b).cb, dropped := [] }

/-- circular.rs:1073-1086 -/
def testAppend : M (St2 Nat) Unit := do
  onSelf (pushes [1, 2, 3])
  onOther (pushes [4, 5, 6])
  append
  onSelf (holds [1, 2, 3, 4, 5, 6])
example : inBothBuilds (fun _ => passes (both (new 7) (new 3)) testAppend) = true := by decide +kernel

/-- circular.rs:1089-1096 -/
def testClear : M (St Nat) Unit := do
  pushBack 1; pushBack 2; pushBack 3
  clear
  expect empty true
example : inBothBuilds (fun _ => passes (new 7) testClear) = true := by decide +kernel

/-- circular.rs:1099-1115 -/
def testAccessElems : M (St Nat) Unit := do
  pushBack 1; pushBack 2; pushBack 3; pushBack 4
  expect (·.first) (some 2)
  expect (·.index 1) 3
  expect (·.last) (some 4)
  let _ ← replaceFirst 5
  let _ ← replaceAt 1 6
  let _ ← replaceLast 7
  holds [5, 6, 7]
example : inBothBuilds (fun _ => passes (new 3) testAccessElems) = true := by decide +kernel

/-- circular.rs:1118-1138 -/
def testSlices : M (St Nat) Unit := do
  pushBack 1; pushBack 2; pushBack 3
  expect (·.slices) ([1, 2, 3], [])
  expect slicesMutVals ([some 1, some 2, some 3], [])
  pushBack 4; pushBack 5
  expect (·.slices) ([3, 4], [5])
  expect slicesMutVals ([some 3, some 4], [some 5])
example : inBothBuilds (fun _ => passes (new 3) testSlices) = true := by decide +kernel

/-- circular.rs:1141-1152 -/
def testSwap : M (St Nat) Unit := do
  pushBack 1; pushBack 2; pushBack 3; pushBack 4
  holds [2, 3, 4]
  swap 1 2
  holds [2, 4, 3]
  swap 0 2
  holds [3, 4, 2]
example : inBothBuilds (fun _ => passes (new 3) testSwap) = true := by decide +kernel

/-- circular.rs:1155-1163 -/
def testLinearize : M (St Nat) Unit := do
  pushes [1, 2, 3, 4, 5]
  expectM linearize [3, 4, 5]
example : inBothBuilds (fun _ => passes (new 3) testLinearize) = true := by decide +kernel

/-- circular.rs:1166-1175 -/
def testReverse : M (St Nat) Unit := do
  pushes [1, 2, 3, 4, 5]
  reverse
  holds [5, 4, 3]
example : inBothBuilds (fun _ => passes (new 3) testReverse) = true := by decide +kernel

/-- circular.rs:1178-1186 -/
def testItersVal : M (St Nat) Unit := do
  holds [1, 2, 3]
  expect (·.capacity) 3
  extend [4, 5] false
  holds [3, 4, 5]
  expectM (everything 10) [3, 4, 5]
example : inBothBuilds (fun _ => passes (do return ⟨← fromIter [1, 2, 3] false, []⟩) testItersVal) = true := by
  decide +kernel

/-- circular.rs:1189-1197 -/
def testItersRef : M (St Nat) Unit := do
  holds [1, 2, 3]
  expect (·.capacity) 3
  extendRef .ok [4, 5] false
  holds [3, 4, 5]
  expect (·.contents) [3, 4, 5]
example : inBothBuilds (fun _ => passes (do return ⟨← fromIterRef .ok [1, 2, 3], []⟩) testItersRef) = true := by
  decide +kernel

/-- `partial_cmp` of `i32` -/
def pc (a b : Nat) : Option Ordering := some (compare a b)

/-- circular.rs:1200-1211: `<` and `>` are asked through `partial_cmp` (std). -/
def testCmp : M (St Nat) Unit := do
  let c2 ← M.lift (fromVec [2, 3, 4])
  expect (·.partialCmp pc c2) (some .lt)
  pushBack 4
  expect (·.eq (· == ·) c2) true
  pushBack 5
  expect (·.partialCmp pc c2) (some .gt)
  let c3 ← M.lift (fromVec [2, 3, 4, 5])
  assertEq (← M.lift (c3.partialCmp pc c2)) (some .gt)
example : inBothBuilds (fun _ => passes (from_ [1, 2, 3]) testCmp) = true := by decide +kernel

/-! ## Documentation examples -/

/-- circular.rs:15-47, the example of the type -/
def docType : M (St Nat) Unit := do
  pushBack 1; pushBack 2; pushBack 3
  expectM popFront (some 1)
  pushBack 4; pushBack 5
  expectM popFront (some 3)
  resize 4
  expect (·.capacity) 4
  extendRef .ok [6, 7, 8, 9] false
  expectM (drainTake 2) [6, 7]
  expectM linearize [8, 9]
example : inBothBuilds (fun _ => passes (new 3) docType) = true := by decide +kernel

-- circular.rs:62-68 `new`, 80-86 `with_capacity`
example : inBothBuilds (fun _ => passes (new 5) (expect (·.capacity) 5)) = true := by decide +kernel

/-- circular.rs:107-116 `len` -/
def docLen : M (St Nat) Unit := do
  expect (·.len) 0
  pushBack 1
  expect (·.len) 1
example : inBothBuilds (fun _ => passes (new 5) docLen) = true := by decide +kernel

/-- circular.rs:132-141 `capacity` and 153-162 `resize` -/
def docResize : M (St Nat) Unit := do
  expect (·.capacity) 5
  resize 7
  expect (·.capacity) 7
example : inBothBuilds (fun _ => passes (new 5) docResize) = true := by decide +kernel

/-- circular.rs:189-198 `is_empty` -/
def docIsEmpty : M (St Nat) Unit := do
  expect empty true
  pushBack 1
  expect empty false
example : inBothBuilds (fun _ => passes (new 5) docIsEmpty) = true := by decide +kernel

/-- circular.rs:210-220 `is_full` -/
def docIsFull : M (St Nat) Unit := do
  expect (·.isFull) false
  pushBack 1; pushBack 2
  expect (·.isFull) true
example : inBothBuilds (fun _ => passes (new 2) docIsFull) = true := by decide +kernel

/-- circular.rs:235-247 `push_back` -/
def docPushBack : M (St Nat) Unit := do
  pushBack 1; pushBack 2; pushBack 3
  holds [1, 2, 3]
  pushBack 4
  holds [2, 3, 4]
example : inBothBuilds (fun _ => passes (new 3) docPushBack) = true := by decide +kernel

/-- circular.rs:271-283 `push_front` -/
def docPushFront : M (St Nat) Unit := do
  pushFront 1; pushFront 2; pushFront 3
  holds [3, 2, 1]
  pushFront 4
  holds [4, 3, 2]
example : inBothBuilds (fun _ => passes (new 3) docPushFront) = true := by decide +kernel

/-- circular.rs:303-312 `pop_back` -/
def docPopBack : M (St Nat) Unit := do
  expectM popBack (some 2); expectM popBack (some 1); expectM popBack none
example : inBothBuilds (fun _ => passes (from_ [1, 2]) docPopBack) = true := by decide +kernel

/-- circular.rs:329-338 `pop_front` -/
def docPopFront : M (St Nat) Unit := do
  expectM popFront (some 1); expectM popFront (some 2); expectM popFront none
example : inBothBuilds (fun _ => passes (from_ [1, 2]) docPopFront) = true := by decide +kernel

/-- circular.rs:356-363 `clear` -/
def docClear : M (St Nat) Unit := do
  clear
  expect empty true
example : inBothBuilds (fun _ => passes (from_ [1, 2]) docClear) = true := by decide +kernel

-- circular.rs:377-385 `iter`
example : inBothBuilds (fun _ => passes (from_ [1, 2, 3]) (expect (·.contents) [1, 2, 3])) = true := by decide +kernel

/-- circular.rs:399-408 `iter_mut`: every element replaced by its successor -/
def docIterMut : M (St Nat) Unit := do
  expectM (replaceIter [2, 3, 4]) [1, 2, 3]
  holds [2, 3, 4]
example : inBothBuilds (fun _ => passes (from_ [1, 2, 3]) docIterMut) = true := by decide +kernel

/-- circular.rs:424-433 `append` -/
def docAppend : M (St2 Nat) Unit := do
  append
  onSelf (holds [5, 6, 7])
  onOther (expect empty true)
example : inBothBuilds (fun _ => passes (both (from_ [1, 2, 3]) (from_ [4, 5, 6, 7])) docAppend) = true := by
  decide +kernel

/-- circular.rs:445-454 `drain` -/
def docDrain : M (St Nat) Unit := do
  expectM (everything 10) [1, 2, 3]
  expect empty true
example : inBothBuilds (fun _ => passes (from_ [1, 2, 3]) docDrain) = true := by decide +kernel

-- circular.rs:468-474 `first`
example : inBothBuilds (fun _ => passes (from_ [1, 2, 3]) (expect (·.first) (some 1))) = true := by decide +kernel

/-- circular.rs:492-499 `first_mut` -/
def docFirstMut : M (St Nat) Unit := do
  expectM (replaceFirst 2) (some 1)
  holds [2, 2, 3]
example : inBothBuilds (fun _ => passes (from_ [1, 2, 3]) docFirstMut) = true := by decide +kernel

-- circular.rs:517-523 `last`
example : inBothBuilds (fun _ => passes (from_ [1, 2, 3]) (expect (·.last) (some 3))) = true := by decide +kernel

/-- circular.rs:541-548 `last_mut` -/
def docLastMut : M (St Nat) Unit := do
  expectM (replaceLast 4) (some 3)
  holds [1, 2, 4]
example : inBothBuilds (fun _ => passes (from_ [1, 2, 3]) docLastMut) = true := by decide +kernel

/-- circular.rs:568-576 `slices` -/
def docSlices : M (St Nat) Unit := do
  pushBack 4; pushBack 5
  expect (·.slices) ([3, 4], [5])
example : inBothBuilds (fun _ => passes (from_ [1, 2, 3]) docSlices) = true := by decide +kernel

/-- circular.rs:599-611 `slices_mut`: `a[0]`, `a[1]` and `b[0]` are written. -/
def docSlicesMut : M (St Nat) Unit := do
  pushBack 4; pushBack 5
  let ((a, n), (b, m)) ← self_ (·.slicesMut)
  assertEq (n, m) (2, 1)
  let _ ← replacePos a 4
  let _ ← replacePos (a + 1) 5
  let _ ← replacePos b 6
  holds [4, 5, 6]
example : inBothBuilds (fun _ => passes (from_ [1, 2, 3]) docSlicesMut) = true := by decide +kernel

/-- circular.rs:632-641 `linearize` -/
def docLinearize : M (St Nat) Unit := do
  pushBack 4; pushBack 5
  expectM linearize [3, 4, 5]
example : inBothBuilds (fun _ => passes (from_ [1, 2, 3]) docLinearize) = true := by decide +kernel

/-- circular.rs:659-666 `swap` -/
def docSwap : M (St Nat) Unit := do
  swap 0 1
  holds [2, 1, 3]
example : inBothBuilds (fun _ => passes (from_ [1, 2, 3]) docSwap) = true := by decide +kernel

/-- circular.rs:678-685 `reverse` -/
def docReverse : M (St Nat) Unit := do
  reverse
  holds [3, 2, 1]
example : inBothBuilds (fun _ => passes (from_ [1, 2, 3]) docReverse) = true := by decide +kernel

end CB.CrateTests
