import Verif.Cnt.Model
/-!
# A counter whose table is rehashed by a panicking `Hash`

`entry(key)` may reorganise the table to make room, and then hashes keys that are in it already. If the user's `Hash`
panics there, the standard library keeps the table sound but may drop entries from it: those it has not placed yet. Which
ones is not documented, so here it may be any (`keep` says which stay). `Cnt/Model.lean` has all other panics.

`entry(key)` makes room before anything is counted, so the item at hand is not counted. A table that moves to new memory
instead loses nothing if `Hash` panics: `keep` is then true of every key.
-/

open Rust
namespace Cnt.Rehash

variable {T : Type} [DecidableEq T]

/-- How a loop ends after the items or entries it got to. -/
inductive Stop (T : Type)
  /-- there are no more -/
  | done
  /-- the user's iterator, `Hash`, `Eq` or `Clone` panics -/
  | user
  /-- the user's `Hash` panics while the table is rehashed for the next one -/
  | rehash (keep : T → Bool)

/-- the end of a loop -/
def stop : Stop T → M (Counter T) Unit
  | .done => pure ()
  | .user => M.throw .user
  | .rehash keep => fun self =>
    (.error .user, { self with counter := { entries := self.counter.entries.filter fun e => keep e.1 } })

/-- counter.rs:218-220 `push` -/
def push [Cfg] (val : T) (rehash : Option (T → Bool)) : M (Counter T) Unit :=
  match rehash with
  | none => Counter.push val
  | some keep => stop (.rehash keep)

/-- counter.rs:313-319 `Extend<T>`, 328-334 `Extend<&T>` -/
def extend [Cfg] : List T → Stop T → M (Counter T) Unit
  | [], s => stop s
  | key :: rest, s => do
    push key none
    extend rest s

/-- counter.rs:365-369 `AddAssign<Counter>`, 378-382 `AddAssign<&Counter>` -/
def addAssign [Cfg] : List (T × Nat) → Stop T → M (Counter T) Unit
  | [], s => stop s
  | (key, val) :: rest, s => do
    (fun self => let (r, m) := Counter.entryAdd self.counter key val; (r, { self with counter := m }))
    addAssign rest s

/-- counter.rs:419-435 `SubAssign<Counter>`, 444-460 `SubAssign<&Counter>` -/
def subAssign [Cfg] : List (T × Nat) → Stop T → M (Counter T) Unit
  | [], s => stop s
  | (key, val) :: rest, s => do
    Counter.subAssignStep key val
    subAssign rest s

end Cnt.Rehash
