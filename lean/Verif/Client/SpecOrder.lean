import Verif.CB.Spec
import Verif.Cnt.Spec
import Mathlib.Logic.Relation
/-!
# Specification vocabulary: a client that arranges tasks so that each comes after those it waits for

The client counts with a `Counter` how many tasks each task waits for, and keeps those that can be done in a `CircularBuffer`.
The crate has no such function; it is what a client writes. Tasks are `Copy`; what `push_back` overwrites is recorded in
`line.dropped`.
-/

open Rust CB
namespace Client

variable {α : Type} [Cfg] [Elem α] [DecidableEq α]

/-- the variables of the client -/
structure Tasks (α : Type) where
  line : St α
  waits : Cnt.Counter α
  out : List α

/-- a call on the buffer -/
def onLine {β : Type} (m : M (St α) β) : M (Tasks α) β := fun s =>
  let (r, q) := m s.line
  (r, { s with line := q })

/-- a call on the counter -/
def onWaits {β : Type} (m : M (Cnt.Counter α) β) : M (Tasks α) β := fun s =>
  let (r, c) := m s.waits
  (r, { s with waits := c })

/-- `if !waits.contains_key(&w) { line.push_back(w); }` -/
def enlist (w : α) : M (Tasks α) Unit := do
  if ((← M.get).waits.get w).isNone then onLine (pushBack w) else pure ()

/-- `for v in vs { /* enlist v */ }` -/
def enlistAll : List α → M (Tasks α) Unit
  | [] => pure ()
  | v :: vs => do
    enlist v
    enlistAll vs

/-- ```
for w in after {
    waits -= iter::once(w).collect::<Counter<_>>();
    /* enlist w */
}
``` -/
def release : List α → M (Tasks α) Unit
  | [] => pure ()
  | w :: ws => do
    let one ← M.lift (Cnt.Counter.fromIter [w])
    onWaits (Cnt.Counter.subAssign one.counter.entries false)
    enlist w
    release ws

/-- `while let Some(v) = line.pop_front() { /* release after(v) */ out.push(v); }` -/
def work (after : α → List α) : Nat → M (Tasks α) Unit
  | 0 => M.throw .diverge
  | fuel + 1 => do
    match ← onLine popFront with
    | none => pure ()
    | some v =>
      release (after v)
      M.modify fun s => { s with out := s.out ++ [v] }
      work after fuel

/-- ```
let mut waits: Counter<_> = vs.iter().flat_map(|v| after(v)).collect();
let mut line = CircularBuffer::with_capacity(n);
let mut out = vec![];
/* enlist all of vs, then work */
``` -/
def arrange (after : α → List α) (fuel n : Nat) (vs : List α) : Except Fault (Tasks α) := do
  let waits ← Cnt.Counter.fromIter (vs.flatMap after)
  let cb ← withCapacity n
  let (r, s) := (do enlistAll vs; work after fuel : M (Tasks α) Unit) ⟨⟨cb, []⟩, waits, []⟩
  r
  return s

/-- `v` has to wait for `u`, directly or not -/
def Awaits (after : α → List α) (u v : α) : Prop := Relation.TransGen (fun x y => y ∈ after x) u v

end Client
