import Verif.Cnt.Model
/-!
# Counters of items whose `Hash` or `Eq` is wrong

The methods of `Cnt/Model.lean` that look items up again, for item types whose `Hash` and `Eq` keep none of the promises
the standard library asks for. Looking an item up then finds an arbitrary stored entry or none. Which one is a choice
`c` that comes with every item: `some i` for the entry at place `i` of the table, anything else for none. Nothing is
assumed about the choices. A lookup neither changes nor forgets entries, and iteration still shows every entry once.
The forms that take references look up, and store, clones: for them the items are the clones.
-/

open Rust
namespace Cnt.Wild

variable {T : Type} [Cfg]

/-- what the table finds: the place and the entry -/
def search (c : Option Nat) (m : HMap T Nat) : Option (Nat × (T × Nat)) :=
  c.bind fun i => (m.entries[i]?).map fun e => (i, e)

/-- `*map.entry(key).or_insert(0) += val` -/
def entryAdd (map : HMap T Nat) (key : T) (c : Option Nat) (val : Nat) : Except Fault Unit × HMap T Nat :=
  match search c map with
  | some (i, e) =>
    match uadd e.2 val with
    | .ok v => (.ok (), ⟨map.entries.set i (e.1, v)⟩)
    | .error f => (.error f, map)
  | none =>
    match uadd 0 val with
    | .ok v => (.ok (), ⟨(key, v) :: map.entries⟩)
    | .error f => (.error f, ⟨(key, 0) :: map.entries⟩)

/-- counter.rs:218-220 `push` -/
def push (val : T) (c : Option Nat) : M (Counter T) Unit := fun self =>
  let (r, m) := entryAdd self.counter val c 1
  (r, { self with counter := m })

/-- counter.rs:313-319 `Extend<T>`, 328-334 `Extend<&T>`, and the loops 245-247 and 261-263 of `FromIterator` -/
def extend : List (T × Option Nat) → Bool → M (Counter T) Unit
  | [], panics => if panics then M.throw .user else pure ()
  | (key, c) :: rest, panics => do
    push key c
    extend rest panics

/-- counter.rs:242-249 `FromIterator<T>`, 258-265 `FromIterator<&T>` -/
def fromIter (items : List (T × Option Nat)) (panics : Bool := false) : Except Fault (Counter T) :=
  Counter.owned (extend items panics) ⟨⟨[]⟩⟩

/-- counter.rs:365-369 `AddAssign<Counter>`, 378-382 `AddAssign<&Counter>`, and the loop 406-408 of `Add<&Counter>`;
`order` is the iteration order of the right-hand side -/
def addAssign : List ((T × Nat) × Option Nat) → Bool → M (Counter T) Unit
  | [], panics => if panics then M.throw .user else pure ()
  | ((key, val), c) :: rest, panics => do
    (fun self => let (r, m) := entryAdd self.counter key c val; (r, { self with counter := m }))
    addAssign rest panics

/-- counter.rs:392-395 `Add<Counter>`, 405-410 `Add<&Counter>` -/
def add (order : List ((T × Nat) × Option Nat)) (self : Counter T) : Except Fault (Counter T) :=
  Counter.owned (addAssign order false) self

/-- one round of the loop of counter.rs:420-434, also 445-459 and 484-498 -/
def subStep (c : Option Nat) (val : Nat) : M (Counter T) Unit := fun self =>
  match search c self.counter with
  | some (i, e) =>
    if e.2 ≤ val then (.ok (), { self with counter := ⟨self.counter.entries.eraseIdx i⟩ })
    else
      match usub e.2 val with
      | .ok newVal => (.ok (), { self with counter := ⟨self.counter.entries.set i (e.1, newVal)⟩ })
      | .error f => (.error f, self)
  | none => (.ok (), self)

/-- counter.rs:419-435 `SubAssign<Counter>`, 444-460 `SubAssign<&Counter>`, and the loop 484-498 of `Sub<&Counter>` -/
def subAssign : List ((T × Nat) × Option Nat) → Bool → M (Counter T) Unit
  | [], panics => if panics then M.throw .user else pure ()
  | ((_, val), c) :: rest, panics => do
    subStep c val
    subAssign rest panics

/-- counter.rs:470-473 `Sub<Counter>`, 483-500 `Sub<&Counter>` -/
def sub (order : List ((T × Nat) × Option Nat)) (self : Counter T) : Except Fault (Counter T) :=
  Counter.owned (subAssign order false) self

omit [Cfg] in
/-- `HashMap::insert`: an entry that is found gets the new value -/
def insert (m : HMap T Nat) (key : T) (c : Option Nat) (val : Nat) : HMap T Nat :=
  match search c m with
  | some (i, e) => ⟨m.entries.set i (e.1, val)⟩
  | none => ⟨(key, val) :: m.entries⟩

omit [Cfg] in
/-- counter.rs:503-521 `From<HashMap>`, 523-534 `From<&HashMap>`; `order` is the iteration order of the map -/
def fromMap (order : List ((T × Nat) × Option Nat)) : Counter T :=
  ⟨order.foldl (fun m e => insert m e.1.1 e.2 e.1.2) ⟨[]⟩⟩

end Cnt.Wild
