import Verif.CB.Ledger
/-!
# Programs that use many buffers

A world is the buffers that are alive, what has been dropped so far, and what can no longer be dropped by anyone. Things
happen one after the other: a buffer is made, gets a call, takes over the elements of another one, or is dropped. Panics are
caught by the program, which goes on with the buffers as they are. (After an abort nothing follows; the relation allows more
than can happen.)
-/

open Rust
namespace CB
variable {α : Type}

/-- The elements of a buffer, as its iterator shows them -/
def shown [Cfg] (b : Buf α) : List α :=
  match b.contents with
  | .ok xs => xs
  | .error _ => []

structure World (α : Type) where
  bufs : List (Buf α)
  dropped : List α
  leaked : List α

/-- All that is stored in some buffer -/
def World.stored [Cfg] (w : World α) : List α := w.bufs.flatMap shown

inductive Event (α : Type) where
  /-- `CircularBuffer::with_capacity(n)` -/
  | make (n : Nat)
  /-- `items.into_iter().collect::<CircularBuffer<_>>()` -/
  | collect (items : List α)
  /-- a call of buffer `i` -/
  | call (i : Nat) (op : Op α)
  /-- `a.append(&mut b)` for the buffers `i` and `j` (circular.rs:436-438) -/
  | append (i j : Nat)
  /-- `a.extend(b)` for the buffers `i` and `j`, which consumes `j` (circular.rs:824-831, iter.rs:47-53) -/
  | absorb (i j : Nat)
  /-- buffer `i` goes out of scope (circular.rs:756-760) -/
  | drop (i : Nat)

section
variable [Cfg] [Elem α]

/-- The outcome of code followed by the destructor of a local; if both panic, the process is aborted. -/
def andDrop (r d : Except Fault Unit) : Except Fault (Out α) :=
  match r, d with
  | .ok _, .ok _ => .ok .unit
  | .ok _, .error e => .error e
  | .error e, .ok _ => .error e
  | .error _, .error _ => .error .abort

/-- What an event does to the world, with its outcome -/
inductive Happens : World α → Event α → Except Fault (Out α) → World α → Prop where
  | make {w : World α} {n : Nat} {b : Buf α} : CapOk α n → withCapacity n = .ok b →
      Happens w (.make n) (.ok .unit) { w with bufs := w.bufs ++ [b] }
  | collect {w : World α} {items : List α} {b : Buf α} : CapOk α items.length → fromIter items false = .ok b →
      Happens w (.collect items) (.ok .unit) { w with bufs := w.bufs ++ [b] }
  | call {w : World α} {i : Nat} {op : Op α} {b : Buf α} {s : St α} {r : Except Fault (Out α)} :
      w.bufs[i]? = some b → OpOk op → step op ⟨b, w.dropped⟩ = (r, s) →
      Happens w (.call i op) r { w with bufs := w.bufs.set i s.cb, dropped := s.dropped }
  | append {w : World α} {i j : Nat} {a b : Buf α} {s : St2 α} {r : Except Fault Unit} : i ≠ j →
      w.bufs[i]? = some a → w.bufs[j]? = some b → append ⟨a, b, w.dropped⟩ = (r, s) →
      Happens w (.append i j) (r.map fun _ => .unit)
        { w with bufs := (w.bufs.set i s.self).set j s.other, dropped := s.dropped }
  | absorb {w : World α} {i j : Nat} {a b : Buf α} {s : St2 α} {t : St α} {r d : Except Fault Unit} : i ≠ j →
      w.bufs[i]? = some a → w.bufs[j]? = some b →
      append ⟨a, b, w.dropped⟩ = (r, s) → intoIterDrop ⟨s.other, s.dropped⟩ = (d, t) →
      Happens w (.absorb i j) (andDrop r d)
        { bufs := (w.bufs.set i s.self).eraseIdx j, dropped := t.dropped, leaked := w.leaked ++ shown t.cb }
  | drop {w : World α} {i : Nat} {b : Buf α} {s : St α} {r : Except Fault Unit} : w.bufs[i]? = some b →
      dropSelf ⟨b, w.dropped⟩ = (r, s) →
      Happens w (.drop i) (r.map fun _ => .unit)
        { bufs := w.bufs.eraseIdx i, dropped := s.dropped, leaked := w.leaked ++ shown s.cb }

/-- The events of a program with their outcomes, one after the other -/
inductive Exec : World α → List (Event α × Except Fault (Out α)) → World α → Prop where
  | nil {w : World α} : Exec w [] w
  | cons {w w1 w2 : World α} {e : Event α} {r : Except Fault (Out α)} {log : List (Event α × Except Fault (Out α))} :
      Happens w e r w1 → Exec w1 log w2 → Exec w ((e, r) :: log) w2

/-- The values that the program gives away in an event -/
def Event.Gives : Event α → Except Fault (Out α) → List α → Prop
  | .collect items, _, h => h = items
  | .call _ op, r, h => Handed op r h
  | _, _, h => h = []

/-- The values that the program gets back in an event -/
def Event.gets : Event α → Except Fault (Out α) → List α
  | .call _ op, r => returned op r
  | _, _ => []

/-- The values that the program gives away -/
inductive Given : List (Event α × Except Fault (Out α)) → List α → Prop where
  | nil : Given [] []
  | cons {e : Event α} {r : Except Fault (Out α)} {h hs : List α} {log : List (Event α × Except Fault (Out α))} :
      e.Gives r h → Given log hs → Given ((e, r) :: log) (h ++ hs)

/-- The values that the program gets back -/
def gotten (log : List (Event α × Except Fault (Out α))) : List α := log.flatMap fun e => e.1.gets e.2

end
end CB
