import Verif.DS.Model
import Mathlib.Data.List.Dedup
/-!
# Specification of the disjoint set

A disjoint set is judged by the answers to calls. `Abs` is the abstract state a history leads to: the elements
added and the pairs united since the last `clear`, and how many unions joined two different groups.
-/

open Rust
namespace DS

/-- A permutation of lists chosen by a hasher. -/
structure Shuffle (α : Type) where
  f : List α → List α
  perm : ∀ l, (f l).Perm l

/-- The public calls. A `Bool` says that hashing or comparing the key (or the user's iterator)
panics; `cp` says that the requested capacity is too large. -/
inductive Op (T : Type)
  | makeSet (x : T) (kp : Bool)
  | union (a b : T) (ap bp : Bool)
  | inUnion (a b : T) (ap bp : Bool)
  | contains (x : T) (kp : Bool)
  | len
  | isEmpty
  | clear
  | reserve (n : Nat) (cp : Bool)
  | extend (hint : Nat) (cp : Bool) (items : List T) (p : Bool)
  | extendRef (hint : Nat) (cp : Bool) (items : List T) (p : Bool)
  | iterate (order : Shuffle (T × Nat)) (order' : Shuffle (Nat × List T))

/-- What a call returns. -/
inductive Out (T : Type)
  | unit
  | bool (b : Bool)
  | nat (n : Nat)
  | groups (gs : List (List T))
deriving DecidableEq

variable {T : Type} [DecidableEq T]

/-- runs a method and wraps what it returns -/
def wrap {α : Type} (f : α → Out T) (m : M (DSet T) α) : M (DSet T) (Out T) := fun s =>
  match m s with
  | (.ok a, s') => (.ok (f a), s')
  | (.error e, s') => (.error e, s')

/-- One call on the model. -/
def step [Cfg] (stack : Nat) : Op T → M (DSet T) (Out T)
  | .makeSet x kp => wrap (fun _ => .unit) (DSet.makeSet x kp)
  | .union a b ap bp => wrap (fun _ => .unit) (DSet.union stack a b ap bp)
  | .inUnion a b ap bp => wrap .bool (DSet.inUnion stack a b ap bp)
  | .contains x kp => wrap .bool (DSet.contains x kp)
  | .len => fun s => (.ok (.nat s.len), s)
  | .isEmpty => fun s => (.ok (.bool s.isEmpty), s)
  | .clear => wrap (fun _ => .unit) (DSet.clear false)
  | .reserve n cp => wrap (fun _ => .unit) (DSet.reserve n cp)
  | .extend hint cp items p => wrap (fun _ => .unit) (DSet.extend hint cp items p)
  | .extendRef hint cp items p => wrap (fun _ => .unit) (DSet.extendRef hint cp items p)
  | .iterate o o' => wrap .groups (DSet.iterate stack o.f o'.f)

/-- A history of calls, panics being caught: what each call returned and the final state. -/
def run [Cfg] (stack : Nat) : List (Op T) → DSet T → List (Except Fault (Out T)) × DSet T
  | [], s => ([], s)
  | op :: ops, s =>
    let (r, s') := step stack op s
    let (rs, s'') := run stack ops s'
    (r :: rs, s'')

/-- The equivalence generated by a list of pairs. -/
inductive Conn (ps : List (T × T)) : T → T → Prop
  | refl (a : T) : Conn ps a a
  | step {a b : T} : (a, b) ∈ ps → Conn ps a b
  | symm {a b : T} : Conn ps a b → Conn ps b a
  | trans {a b c : T} : Conn ps a b → Conn ps b c → Conn ps a c

/-- Abstract state: elements added and pairs united since the last `clear`; number of unions that joined two
different groups. -/
structure Abs (T : Type) where
  elems : List T
  pairs : List (T × T)
  joins : Nat

namespace Abs

/-- nothing added -/
def new : Abs T := { elems := [], pairs := [], joins := 0 }

open Classical in
/-- What a call does. A union whose second key panics has already added the first. -/
noncomputable def step (s : Abs T) : Op T → Abs T
  | .makeSet x kp => if kp then s else { s with elems := x :: s.elems }
  | .union a b ap bp =>
    if ap then s
    else if bp then { s with elems := a :: s.elems }
    else { elems := b :: a :: s.elems
           pairs := (a, b) :: s.pairs
           joins := if Conn s.pairs a b then s.joins else s.joins + 1 }
  | .clear => new
  | .extend _ cp items _ => if cp then s else { s with elems := items.reverse ++ s.elems }
  | .extendRef _ cp items _ => if cp then s else { s with elems := items.reverse ++ s.elems }
  | .inUnion .. | .contains .. | .len | .isEmpty | .reserve .. | .iterate .. => s

/-- What a history does. -/
noncomputable def run (s : Abs T) (ops : List (Op T)) : Abs T := ops.foldl step s

/-- number of distinct elements -/
def card (s : Abs T) : Nat := s.elems.dedup.length

/-- two elements are in the same group -/
def Same (s : Abs T) (a b : T) : Prop := a ∈ s.elems ∧ b ∈ s.elems ∧ Conn s.pairs a b

/-- a list of groups is the partition: non-empty groups listing every element exactly once, two elements
sharing a group iff they are connected -/
def IsPartition (s : Abs T) (gs : List (List T)) : Prop :=
  (∀ g ∈ gs, g ≠ []) ∧ gs.flatten.Nodup ∧ (∀ x, x ∈ gs.flatten ↔ x ∈ s.elems) ∧
  ∀ x y, (∃ g ∈ gs, x ∈ g ∧ y ∈ g) ↔ s.Same x y

/-- the answer expected from a call -/
def Answer (s : Abs T) : Op T → Except Fault (Out T) → Prop
  | .makeSet _ kp, r => r = if kp then .error .user else .ok .unit
  | .union _ _ ap bp, r => r = if ap || bp then .error .user else .ok .unit
  | .inUnion x y ap bp, r =>
    if ap then r = .error .user
    else if bp then (x ∈ s.elems → r = .error .user) ∧ (x ∉ s.elems → r = .ok (.bool false))
    else ∃ b, r = .ok (.bool b) ∧ (b = true ↔ s.Same x y)
  | .contains x kp, r =>
    if kp then r = .error .user else ∃ b, r = .ok (.bool b) ∧ (b = true ↔ x ∈ s.elems)
  | .len, r => r = .ok (.nat s.card)
  | .isEmpty, r => ∃ b, r = .ok (.bool b) ∧ (b = true ↔ s.elems = [])
  | .clear, r => r = .ok .unit
  | .reserve _ cp, r => r = if cp then .error .capacityOverflow else .ok .unit
  | .extend _ cp _ p, r =>
    r = if cp then .error .capacityOverflow else if p then .error .user else .ok .unit
  | .extendRef _ cp _ p, r =>
    r = if cp then .error .capacityOverflow else if p then .error .user else .ok .unit
  | .iterate _ _, r => ∃ gs, r = .ok (.groups gs) ∧ s.IsPartition gs ∧ gs.length + s.joins = s.card

end Abs

/-- How a disjoint set is made. -/
inductive Start (T : Type)
  | new
  | fromIter (items : List T)
  | fromIterRef (items : List T)

namespace Start
/-- the constructor -/
def make : Start T → Except Fault (DSet T)
  | new => .ok DSet.new
  | fromIter items => DSet.fromIter items false
  | fromIterRef items => DSet.fromIterRef items false
/-- what it means -/
def abs : Start T → Abs T
  | new => Abs.new
  | fromIter items => { Abs.new with elems := items }
  | fromIterRef items => { Abs.new with elems := items }
end Start

/-- `s` is what a history of calls makes of a new disjoint set, and `a` its meaning. At no time are there more
than `usize::MAX` elements, and there are at least 64 stack frames. -/
structure Reached [Cfg] (stack : Nat) (start : Start T) (ops : List (Op T)) (s : DSet T) (a : Abs T) : Prop where
  stack_ge : 64 ≤ stack
  small : ∀ pre, pre <+: ops → (start.abs.run pre).card ≤ usizeMax
  made : ∃ s0, start.make = .ok s0 ∧ s = (run stack ops s0).2
  abs : a = start.abs.run ops

end DS
