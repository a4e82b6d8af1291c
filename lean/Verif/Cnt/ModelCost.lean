import Verif.Cnt.Model
/-!
# What the methods of `Counter` cost

The methods of `Cnt/Model.lean` again, with two counts carried along: how often the hash table is searched, and how
often an item is cloned. `HashMap::entry` searches once; reading, removing or replacing through the entry it returns does
not search again. What the table does inside (growing, collisions) is not modelled.

`sort_unstable_by_key` is generic in what it sorts: all it learns about the keys are the answers to comparisons. So it is
a tree of questions.
-/

open Rust
namespace Cnt.Cost

variable {T : Type} [DecidableEq T]

/-- what was spent -/
structure Spent where
  searches : Nat := 0
  clones : Nat := 0
deriving DecidableEq, Repr

/-- a counter and what was spent on it -/
abbrev State (T : Type) := Counter T × Spent

/-- one search of the table -/
def search (s : Spent) : Spent := { s with searches := s.searches + 1 }

/-- `(*key).clone()` -/
def cloneKey : M (State T) Unit := fun s => (.ok (), s.1, { s.2 with clones := s.2.clones + 1 })

/-- `*map.entry(key).or_insert(0) += val` -/
def entryAdd [Cfg] (key : T) (val : Nat) : M (State T) Unit := fun s =>
  let (r, m) := Counter.entryAdd s.1.counter key val
  (r, { s.1 with counter := m }, search s.2)

/-- counter.rs:218-220 `push` -/
def push [Cfg] (val : T) : M (State T) Unit := entryAdd val 1

/-- counter.rs:313-319 `Extend<T>`, also the loop of 245-247 `FromIterator<T>` -/
def extend [Cfg] : List T → Bool → M (State T) Unit
  | [], panics => if panics then M.throw .user else pure ()
  | key :: rest, panics => do
    push key
    extend rest panics

/-- the loop of counter.rs:261-263 `FromIterator<&T>`; `Extend<&T>` (328-334) copies instead -/
def extendRef [Cfg] : List T → Bool → M (State T) Unit
  | [], panics => if panics then M.throw .user else pure ()
  | key :: rest, panics => do
    cloneKey
    push key
    extendRef rest panics

/-- counter.rs:365-369 `AddAssign<Counter>`, also 392-395 `Add<Counter>` -/
def addAssign [Cfg] : List (T × Nat) → Bool → M (State T) Unit
  | [], panics => if panics then M.throw .user else pure ()
  | (key, val) :: rest, panics => do
    entryAdd key val
    addAssign rest panics

/-- counter.rs:378-382 `AddAssign<&Counter>`, also 405-410 `Add<&Counter>` -/
def addAssignRef [Cfg] : List (T × Nat) → Bool → M (State T) Unit
  | [], panics => if panics then M.throw .user else pure ()
  | (key, val) :: rest, panics => do
    cloneKey
    entryAdd key val
    addAssignRef rest panics

/-- one round of the loop of counter.rs:420-434, also 445-459 and 484-498 -/
def subStep [Cfg] (key : T) (val : Nat) : M (State T) Unit := fun s =>
  match s.1.counter.get key with
  | some cur =>
    if cur ≤ val then (.ok (), { s.1 with counter := s.1.counter.remove key }, search s.2)
    else
      match usub cur val with
      | .ok newVal => (.ok (), { s.1 with counter := s.1.counter.insert key newVal }, search s.2)
      | .error e => (.error e, s.1, search s.2)
  | none => (.ok (), s.1, search s.2)

/-- counter.rs:419-435 `SubAssign<Counter>`, also 470-473 `Sub<Counter>` -/
def subAssign [Cfg] : List (T × Nat) → Bool → M (State T) Unit
  | [], panics => if panics then M.throw .user else pure ()
  | (key, val) :: rest, panics => do
    subStep key val
    subAssign rest panics

/-- counter.rs:444-460 `SubAssign<&Counter>`, also 483-500 `Sub<&Counter>` -/
def subAssignRef [Cfg] : List (T × Nat) → Bool → M (State T) Unit
  | [], panics => if panics then M.throw .user else pure ()
  | (key, val) :: rest, panics => do
    cloneKey
    subStep key val
    subAssignRef rest panics

/-! ## sorting -/

/-- A sort of `k` entries that compares: which two entries (by their places in the input) to compare next, or the
result. `ask i j` asks whether the key of entry `i` is smaller than that of entry `j`. -/
inductive SortTree (k : Nat) where
  | done (out : List (Fin k))
  | ask (i j : Fin k) (yes no : SortTree k)

/-- the result for some keys, and the number of comparisons -/
def SortTree.run {k : Nat} (keys : Fin k → Nat) : SortTree k → List (Fin k) × Nat
  | .done out => (out, 0)
  | .ask i j yes no =>
    let (out, n) := if keys i < keys j then yes.run keys else no.run keys
    (out, n + 1)

/-- counter.rs:165-169 `into_most_common`, with the number of comparisons -/
def intoMostCommon [Cfg] (sort : (k : Nat) → SortTree k) (order : List (T × Nat)) : Except Fault (List (T × Nat) × Nat) := do
  let keyed ← order.mapM fun e => do return (← usub usizeMax e.2, e)
  let (out, n) := (sort keyed.length).run fun i => keyed[i].1
  return (out.map fun i => keyed[i].2, n)

/-- counter.rs:190-200 `most_common`, with the number of comparisons and of clones -/
def mostCommon [Cfg] (sort : (k : Nat) → SortTree k) (order : List (T × Nat)) :
    Except Fault (List (T × Nat) × Nat × Nat) := do
  let res := order.map fun e => (e.1, e.2)
  let (out, n) ← intoMostCommon sort res
  return (out, n, res.length)

end Cnt.Cost
