import Verif.CB.Spec
import Verif.Map.HashMap
/-!
# Specification vocabulary: a client that searches a graph breadth first

The client uses a `CircularBuffer` as the queue of a breadth first search and a `HashMap` for the distances. The crate has no
such function; it is what a client writes. Vertices are `Copy`; what `push_back` overwrites is recorded in `queue.dropped`.
-/

open Rust CB
namespace Client

variable {α : Type} [Cfg] [Elem α] [DecidableEq α]

/-- the variables of the client -/
structure Search (α : Type) where
  queue : St α
  dist : HMap α Nat

/-- a call on the queue -/
def onQueue {β : Type} (m : M (St α) β) : M (Search α) β := fun s =>
  let (r, q) := m s.queue
  (r, { s with queue := q })

/-- ```
for w in neighbours {
    if !dist.contains_key(&w) { dist.insert(w, d + 1); queue.push_back(w); }
}
``` -/
def visit (d : Nat) : List α → M (Search α) Unit
  | [] => pure ()
  | w :: ws => do
    if (← M.get).dist.containsKey w then visit d ws
    else
      let d' ← M.lift (uadd d 1)
      M.modify fun s => { s with dist := s.dist.insert w d' }
      onQueue (pushBack w)
      visit d ws

/-- `while let Some(v) = queue.pop_front() { let d = dist[&v]; /* visit d adj(v) */ }` -/
def search (adj : α → List α) : Nat → M (Search α) Unit
  | 0 => M.throw .diverge
  | fuel + 1 => do
    match ← onQueue popFront with
    | none => pure ()
    | some v =>
      match (← M.get).dist.get v with
      | none => M.throw .unwrapNone
      | some d =>
        visit d (adj v)
        search adj fuel

/-- ```
let mut queue = CircularBuffer::with_capacity(n);
let mut dist = HashMap::new();
dist.insert(start, 0);
queue.push_back(start);
/* search */
``` -/
def distances (adj : α → List α) (fuel n : Nat) (start : α) : Except Fault (Search α) := do
  let cb ← withCapacity n
  let (r, s) := (do onQueue (pushBack start); search adj fuel : M (Search α) Unit)
    ⟨⟨cb, []⟩, HMap.empty.insert start 0⟩
  r
  return s

/-- `v` can be reached from `start` in `n` steps -/
inductive Walk (adj : α → List α) (start : α) : Nat → α → Prop
  | refl : Walk adj start 0 start
  | step {n : Nat} {v w : α} : Walk adj start n v → w ∈ adj v → Walk adj start (n + 1) w

end Client
