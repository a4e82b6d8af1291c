import Verif.DS.ModelMem
import Verif.DS.Spec
/-!
# Specification vocabulary for the memory of disjoint sets
-/

open Rust Mem
namespace DS.Mem

/-- The public calls. A `Bool` says that hashing or comparing the key (or the user's iterator) panics. -/
inductive Call (T : Type)
  | makeSet (x : T) (kp : Bool)
  | union (a b : T) (ap bp : Bool)
  | inUnion (a b : T) (ap bp : Bool)
  | contains (x : T) (kp : Bool)
  | len
  | isEmpty
  | clear
  | reserve (n : Nat)
  | extend (hint : Nat) (items : List T) (p : Bool)
  | iterate (order : Shuffle (T × Nat)) (order' : Shuffle (Nat × List T))

namespace Call
variable {T : Type} [DecidableEq T]

/-- how many elements the call asks for room for beforehand -/
def hint : Call T → Nat
  | reserve n => n
  | extend h _ _ => h
  | _ => 0

/-- the call of `DS/Spec.lean`, no request for memory being refused -/
def plain : Call T → Op T
  | makeSet x kp => .makeSet x kp
  | union a b ap bp => .union a b ap bp
  | inUnion a b ap bp => .inUnion a b ap bp
  | contains x kp => .contains x kp
  | len => .len
  | isEmpty => .isEmpty
  | clear => .clear
  | reserve n => .reserve n false
  | extend h items p => .extend h false items p
  | iterate o o' => .iterate o o'

/-- runs a method and wraps what it returns -/
def wrap {σ α : Type} (f : α → Out T) (m : M σ α) : M σ (Out T) := fun s =>
  match m s with
  | (.ok a, s') => (.ok (f a), s')
  | (.error e, s') => (.error e, s')

/-- the call, with its memory -/
def run [Cfg] (std : Stds) (stack : Nat) : Call T → M (State T) (Out T)
  | makeSet x kp => wrap (fun _ => .unit) (Mem.makeSet std x kp)
  | union a b ap bp => wrap (fun _ => .unit) (Mem.union std stack a b ap bp)
  | reserve n => wrap (fun _ => .unit) (Mem.reserve std n)
  | extend h items p => wrap (fun _ => .unit) (Mem.extend std h items p)
  | call => onSet (step stack call.plain)

/-- What a call that was refused memory amounts to: a panic of the key for which there was no room (then nothing
happened after the keys before it), a panic before the first item, or a request that is too large. -/
inductive Refused : Call T → Op T → Prop
  | makeSet (x : T) (kp : Bool) : Refused (.makeSet x kp) (.makeSet x true)
  | first (a b : T) (ap bp : Bool) : Refused (.union a b ap bp) (.union a b true bp)
  | second (a b : T) (ap bp : Bool) : Refused (.union a b ap bp) (.union a b ap true)
  | reserve (n : Nat) : Refused (.reserve n) (.reserve n true)
  | announced (h : Nat) (items : List T) (p : Bool) : Refused (.extend h items p) (.extend h true items p)
  | extend (h : Nat) (items : List T) (p : Bool) (n : Nat) :
      Refused (.extend h items p) (.extend h false (items.take n) true)
end Call

variable {T : Type} [DecidableEq T]

/-- Makes the calls one after another, catching panics; collects what each call returned. -/
def runAll [Cfg] (std : Stds) (stack : Nat) : List (Call T) → State T → List (Except Fault (Out T)) × State T
  | [], s => ([], s)
  | f :: fs, s =>
    let (r, s') := f.run std stack s
    let (rs, s'') := runAll std stack fs s'
    (r :: rs, s'')

/-- How a disjoint set is made. -/
inductive Start (T : Type)
  | withCapacity (n : Nat)
  | fromIter (hint : Nat) (items : List T)

namespace Start
/-- the constructor -/
def make (std : Stds) : Start T → Except Fault (State T)
  | withCapacity n => Mem.withCapacity std n
  | fromIter hint items => Mem.fromIter std hint items false
/-- the constructor of `DS/Spec.lean` -/
def plain : Start T → DS.Start T
  | withCapacity _ => .new
  | fromIter _ items => .fromIter items
end Start

/-- Some request for memory is refused. -/
def Stds.Refuses (std : Stds) : Prop :=
  (∃ moment slots need, std.map.grow moment slots need = none) ∨ (∃ moment slots need, std.vec.grow moment slots need = none)

/-- A vector that is full can always grow by one (larger requests may be refused). -/
def Calm (std : Stds) : Prop := ∀ moment slots, std.vec.grow moment slots (slots + 1) ≠ none

/-- At no time during these calls there are more than `n` elements in the set, or announced and in it. -/
def Within [Cfg] (stack n : Nat) : List (Call T) → DSet T → Prop
  | [], _ => True
  | f :: fs, s => s.len + f.hint ≤ n ∧ (step stack f.plain s).2.len ≤ n ∧ Within stack n fs (step stack f.plain s).2

/-- A history with memory (`calls` returning `rs`) is like the history without (`ops` returning `rs'`): each call is the
same call with the same result, or it was refused memory and panicked with "capacity overflow" like a call that panics
for another reason. -/
def AsIf (std : Stds) : List (Call T) → List (Op T) → List (Except Fault (Out T)) → List (Except Fault (Out T)) → Prop
  | [], [], [], [] => True
  | call :: calls, op :: ops, r :: rs, r' :: rs' =>
    ((op = call.plain ∧ r = r') ∨ (std.Refuses ∧ call.Refused op ∧ r = .error .capacityOverflow ∧ ∃ e, r' = .error e)) ∧
      AsIf std calls ops rs rs'
  | _, _, _, _ => False

/-- the memory a disjoint set can have -/
structure Fits (s : State T) : Prop where
  ids : s.ids.Fit s.set.ids.len
  data : s.data.Fit s.set.dataById.length
  full : s.data.cap = s.data.slots
  few : s.set.dataById.length ≤ s.set.ids.len

end DS.Mem
