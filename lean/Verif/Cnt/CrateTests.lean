import Verif.Cnt.Model
import Verif.Rust.Assert
/-!
# The tests of `counter.rs` replayed on the model

Every unit test of counter.rs:536-566 and fast_counter.rs:16-24 and every documentation example of counter.rs:16-215,
in the order of the source. See `Verif/Rust/Assert.lean` for what this is good for. The unit test `new` of both files
only makes a counter. The capacity (counter.rs:86) is not modelled. Where the iteration order of the map matters the
order of the model's list is used.
-/

open Rust
namespace Cnt.CrateTests

/-- put a keyed pair in front of the first one whose key is not smaller -/
def put {β : Type} (e : Nat × β) : List (Nat × β) → List (Nat × β)
  | [] => [e]
  | x :: xs => if e.1 ≤ x.1 then e :: x :: xs else x :: put e xs
/-- a stable sort by the first component -/
def sort {β : Type} (l : List (Nat × β)) : List (Nat × β) := l.foldr put []

variable [Cfg]

/-- a counter made of the characters of a text -/
def ofText (s : List Char) : Except Fault (Counter Char) := Counter.fromIter s
/-- `assert_eq!(f(&counter), v)` -/
def expect {T β : Type} [DecidableEq β] (f : Counter T → β) (v : β) : M (Counter T) Unit := do
  assertEq (f (← M.get)) v

-- counter.rs:546-550 `chars`
example : inBothBuilds (fun _ => passes (ofText ['L', 'o', 'r', 'e', 'm', ' ', 'i', 'p', 's', 'u', 'm'])
    (expect (·.get 'm') (some 2))) = true := by decide +kernel

/-- counter.rs:553-561 -/
def ints : M (Counter Nat) Unit := do
  expect (·.len) 3
  expect (·.get 2) (some 3)
  Counter.extendRef [1, 2, 3, 4, 5] false
  expect (·.len) 5
  expect (·.get 1) (some 4)
example : inBothBuilds (fun _ => passes (Counter.fromIterRef [1, 2, 3, 1, 2, 3, 1, 2, 3]) ints) = true := by
  decide +kernel

/-- counter.rs:16-36, the example of the type -/
def docType : M (Counter Char) Unit := do
  expect (·.get 'o') (some 3)
  let mc ← M.ask fun c => Counter.mostCommon sort c.counter.entries
  assertEq mc[0]? (some (' ', 5))
  let other ← M.lift (ofText "Etiam ullamcorper.".toList)
  Counter.addAssign other.counter.entries false
  expect (·.get 'o') (some 4)
example : inBothBuilds (fun _ => passes (ofText "Lorem ipsum dolor sit amet enim.".toList) docType) = true := by
  decide +kernel

-- counter.rs:59-65 `new`, 80-87 `with_capacity`
example : passes (.ok (Counter.new : Counter Nat)) (expect (·.len) 0) = true := by decide +kernel

-- counter.rs:128-139 `from_hashmap`
example : passes (.ok (Counter.fromHashmap (((HMap.empty : HMap Nat Nat).insert 3 4).insert 5 1)))
    (expect (·.len) 2) = true := by decide +kernel

/-- counter.rs:154-162 `into_most_common`, 179-187 `most_common` -/
def docMostCommon : M (Counter Char) Unit := do
  Counter.extend ['a', 'b', 'c', 'd', 'a', 'a'] false
  let mc ← M.ask fun c => Counter.intoMostCommon sort c.counter.entries
  assertEq mc[0]? (some ('a', 3))
  let mc ← M.ask fun c => Counter.mostCommon sort c.counter.entries
  assertEq mc[0]? (some ('a', 3))
example : inBothBuilds (fun _ => passes (.ok Counter.new) docMostCommon) = true := by decide +kernel

/-- counter.rs:207-215 `push` -/
def docPush : M (Counter Char) Unit := do
  Counter.push 'a'
  Counter.push 'a'
  expect (·.get 'a') (some 2)
example : inBothBuilds (fun _ => passes (.ok Counter.new) docPush) = true := by decide +kernel

end Cnt.CrateTests
