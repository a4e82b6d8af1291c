import Verif.DS.Spec
/-!
# A disjoint set whose table is rehashed by a panicking `Hash`

`entry(key)` and `reserve` may reorganise the table of the map to make room, and then hash keys that are in it already.
`DS/Model.lean` assumes that this does not panic. Here the table has a capacity and may have scars, places that removed keys
left unusable, and whenever it makes room an oracle says whether the user's `Hash` panics. As in the standard library
(hashbrown's `reserve_rehash`), a table at most half full is rehashed in place, where a panic may lose any entries (`keep`
says which stay), and any other moves to a new allocation, where a panic leaves it as it was.

Refused requests for memory are in `DS/ModelMem.lean`.
-/

open Rust
namespace DS.Rehash

/-- what happens when a table makes room -/
inductive Room (T : Type)
  /-- no panic; if the table moves then to at least this capacity -/
  | made (cap : Nat)
  /-- `Hash` panics; if the table is rehashed in place then only these entries stay -/
  | panics (keep : T → Bool)

/-- disjoint_set.rs:105-108 `DisjointSet`, with the table of `ids` -/
structure Tab (T : Type) where
  set : DSet T
  scars : Nat
  cap : Nat
  moment : Nat

variable {T : Type} [DecidableEq T]

/-- `HashMap::reserve(additional)`; `o` is the oracle. Nothing here models the crate. -/
def makeRoom (o : Nat → Room T) (additional : Nat) : M (Tab T) Unit := fun s =>
  if s.set.ids.len + s.scars + additional ≤ s.cap then (.ok (), s)
  else if s.set.ids.len + additional ≤ s.cap / 2 then
    match o s.moment with
    | .made _ => (.ok (), { s with scars := 0, moment := s.moment + 1 })
    | .panics keep => (.error .user, { s with
        set := { s.set with ids := ⟨s.set.ids.entries.filter fun e => keep e.1⟩ }
        scars := 0
        moment := s.moment + 1 })
  else
    match o s.moment with
    | .made cap => (.ok (), { s with
        scars := 0
        cap := max cap (s.set.ids.len + additional)
        moment := s.moment + 1 })
    | .panics _ => (.error .user, { s with moment := s.moment + 1 })

/-- a step that needs no room in the table -/
def onSet {α : Type} (m : M (DSet T) α) : M (Tab T) α := fun s =>
  let (r, set) := m s.set
  (r, { s with set })

/-- disjoint_set.rs:242-254 `make_or_get_set`; `entry` makes room if the key is new -/
def makeOrGetSet (o : Nat → Room T) (val : T) (kp : Bool) : M (Tab T) Nat := fun s =>
  if !kp && !s.set.ids.containsKey val then
    (do
      makeRoom o 1
      onSet (DSet.makeOrGetSet val kp)) s
  else onSet (DSet.makeOrGetSet val kp) s

/-- disjoint_set.rs:162-164 `make_set` -/
def makeSet (o : Nat → Room T) (val : T) (kp : Bool) : M (Tab T) Unit := do
  let _ ← makeOrGetSet o val kp
  return ()

/-- disjoint_set.rs:174-194 `union` -/
def union [Cfg] (o : Nat → Room T) (stack : Nat) (a b : T) (ap bp : Bool) : M (Tab T) Unit := do
  let a ← makeOrGetSet o a ap
  let b ← makeOrGetSet o b bp
  onSet (DSet.onData (unionIds stack a b))

/-- disjoint_set.rs:232-235 `clear`; the standard library leaves an empty table as it is -/
def clear : M (Tab T) Unit := fun s =>
  onSet (DSet.clear false) (if s.set.ids.isEmpty then s else { s with scars := 0 })

/-- disjoint_set.rs:237-240 `reserve` -/
def reserve (o : Nat → Room T) (additional : Nat) (cp : Bool) : M (Tab T) Unit := do
  if cp then M.throw .capacityOverflow
  makeRoom o additional

/-- the loops of disjoint_set.rs:299-301, 320-322, 342-344 and 362-364 -/
def addAll (o : Nat → Room T) : List T → Bool → M (Tab T) Unit
  | [], p => if p then M.throw .user else pure ()
  | val :: rest, p => do
    makeSet o val false
    addAll o rest p

/-- disjoint_set.rs:339-345 `Extend<T>`, 359-365 `Extend<&T>` -/
def extend (o : Nat → Room T) (hint : Nat) (cp : Bool) (items : List T) (p : Bool) : M (Tab T) Unit := do
  reserve o hint cp
  addAll o items p

/-- a new disjoint set with room for `cap` elements; 113-153 -/
def new (cap : Nat) : Tab T := { set := DSet.new, scars := 0, cap, moment := 0 }

/-- the constructors, 113-153, 296-303 and 317-324; one that panics leaves nothing -/
def make (o : Nat → Room T) (cap : Nat) : Start T → Except Fault (Tab T)
  | .new => .ok (new cap)
  | .fromIter items | .fromIterRef items =>
    match addAll o items false (new cap) with
    | (.ok _, s) => .ok s
    | (.error e, _) => .error e

/-- runs a method that returns nothing -/
def noOut (m : M (Tab T) Unit) : M (Tab T) (Out T) := do
  m
  return .unit

/-- One call. -/
def step [Cfg] (o : Nat → Room T) (stack : Nat) : Op T → M (Tab T) (Out T)
  | .makeSet x kp => noOut (makeSet o x kp)
  | .union a b ap bp => noOut (union o stack a b ap bp)
  | .clear => noOut clear
  | .reserve n cp => noOut (reserve o n cp)
  | .extend hint cp items p => noOut (extend o hint cp items p)
  | .extendRef hint cp items p => noOut (extend o hint cp items p)
  | .inUnion a b ap bp => onSet (DS.step stack (.inUnion a b ap bp))
  | .contains x kp => onSet (DS.step stack (.contains x kp))
  | .len => onSet (DS.step stack .len)
  | .isEmpty => onSet (DS.step stack .isEmpty)
  | .iterate p q => onSet (DS.step stack (.iterate p q))

/-- A history of calls, panics being caught: what each call returned and the final state. -/
def run [Cfg] (o : Nat → Room T) (stack : Nat) : List (Op T) → Tab T → List (Except Fault (Out T)) × Tab T
  | [], s => ([], s)
  | op :: ops, s =>
    let (r, s') := step o stack op s
    let (rs, s'') := run o stack ops s'
    (r :: rs, s'')

end DS.Rehash
