import Verif.Cnt.Model
import Verif.Map.Memory
/-!
# The memory of a counter

The methods of `Cnt/Model.lean` again, with the capacity of the map carried along, and with the lower size bounds of the
iterators (`hint`), which the code asks for room for before it reads the first item. A request for memory may be refused.
-/

open Rust Mem
namespace Cnt.Mem

variable {T : Type} [DecidableEq T]

/-- a counter and the memory of its map -/
abbrev State (T : Type) := Counter T × Room

/-- `self.counter.reserve(additional)` -/
def reserve (std : Std) (additional : Nat) : M (State T) Unit := fun s =>
  let (r, room) := s.2.reserve std s.1.len additional
  (r, s.1, room)

/-- counter.rs:90-94 `with_capacity`, 114-118 `with_capacity_and_hasher`; `new` (68-70) and `with_hasher` (102-106) make
the same as capacity 0 -/
def withCapacity (std : Std) (capacity : Nat) : Except Fault (State T) :=
  match Room.reserve std 0 capacity {} with
  | (.ok _, room) => .ok (Counter.new, room)
  | (.error e, _) => .error e

/-- `map.entry(key)` of an entry that will be inserted if it is missing: then there has to be room -/
def entry (std : Std) (key : T) : M (State T) Unit := fun s =>
  if (s.1.counter.get key).isSome then (.ok (), s) else reserve std 1 s

/-- `*map.entry(key).or_insert(0) += val` -/
def entryAdd [Cfg] (std : Std) (key : T) (val : Nat) : M (State T) Unit := do
  entry std key
  fun s =>
    let (r, m) := Counter.entryAdd s.1.counter key val
    (r, { s.1 with counter := m }, s.2)

/-- counter.rs:218-220 `push` -/
def push [Cfg] (std : Std) (val : T) : M (State T) Unit := entryAdd std val 1

/-- the loops of counter.rs:245-247, 261-263, 316-318 and 331-333 -/
def pushAll [Cfg] (std : Std) : List T → Bool → M (State T) Unit
  | [], panics => if panics then M.throw .user else pure ()
  | key :: rest, panics => do
    push std key
    pushAll std rest panics

/-- a function that owns the counter it works on: a panic drops it -/
def owned (m : M (State T) Unit) (s : State T) : Except Fault (State T) :=
  match m s with
  | (.ok _, s) => .ok s
  | (.error e, _) => .error e

/-- counter.rs:242-249 `FromIterator<T>`, 258-265 `FromIterator<&T>` -/
def fromIter [Cfg] (std : Std) (hint : Nat) (items : List T) (panics : Bool) : Except Fault (State T) := do
  let cnt ← withCapacity std hint
  owned (pushAll std items panics) cnt

/-- counter.rs:313-319 `Extend<T>`, 328-334 `Extend<&T>` -/
def extend [Cfg] (std : Std) (hint : Nat) (items : List T) (panics : Bool) : M (State T) Unit := do
  reserve std hint
  pushAll std items panics

/-- counter.rs:365-369 `AddAssign<Counter>`, 378-382 `AddAssign<&Counter>` -/
def addAssign [Cfg] (std : Std) : List (T × Nat) → Bool → M (State T) Unit
  | [], panics => if panics then M.throw .user else pure ()
  | (key, val) :: rest, panics => do
    entryAdd std key val
    addAssign std rest panics

/-- one round of the loop of counter.rs:420-434, also 445-459 and 484-498 -/
def subStep [Cfg] (std : Std) (key : T) (val : Nat) : M (State T) Unit := fun s =>
  match s.1.counter.get key with
  | some cur =>
    if cur ≤ val then (.ok (), { s.1 with counter := s.1.counter.remove key }, s.2.removed std)
    else
      match usub cur val with
      | .ok newVal => (.ok (), { s.1 with counter := s.1.counter.insert key newVal }, s.2)
      | .error e => (.error e, s)
  | none => if std.eager then reserve std 1 s else (.ok (), s)

/-- counter.rs:419-435 `SubAssign<Counter>`, 444-460 `SubAssign<&Counter>` -/
def subAssign [Cfg] (std : Std) : List (T × Nat) → Bool → M (State T) Unit
  | [], panics => if panics then M.throw .user else pure ()
  | (key, val) :: rest, panics => do
    subStep std key val
    subAssign std rest panics

/-- counter.rs:392-395 `Add<Counter>`, 405-410 `Add<&Counter>`: the left operand is updated and returned -/
def add [Cfg] (std : Std) (order : List (T × Nat)) (s : State T) : Except Fault (State T) :=
  owned (addAssign std order false) s

/-- counter.rs:470-473 `Sub<Counter>`, 483-500 `Sub<&Counter>` -/
def sub [Cfg] (std : Std) (order : List (T × Nat)) (s : State T) : Except Fault (State T) :=
  owned (subAssign std order false) s

end Cnt.Mem
