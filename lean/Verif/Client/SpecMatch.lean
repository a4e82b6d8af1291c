import Verif.CB.Spec
import Mathlib.Logic.Function.Basic
/-!
# Specification vocabulary: a client that finds a stable matching

The algorithm of Gale and Shapley. Applicants wait in a `CircularBuffer`; the first one applies to the next place on its list.
A place holds the best applicant so far; whoever is refused or replaced goes back to the end of the line. The crate has no
such function; it is what a client writes. Applicants are `Copy`; what `push_back` overwrites is recorded in `dropped`.
-/

open Rust CB
namespace Client

variable {P W : Type} [Cfg] [Elem P] [DecidableEq P] [DecidableEq W]

/-- `for m in ms { line.push_back(m); }` -/
def queueUp : List P → M (St P) Unit
  | [] => pure ()
  | m :: ms => do
    pushBack m
    queueUp ms

/-- ```
while let Some(m) = line.pop_front() {
    let Some(w) = rest[m].next() else { continue };
    match held.get(&w) {
        None => { held.insert(w, m); }
        Some(&k) if rank(w, m) < rank(w, k) => { held.insert(w, m); line.push_back(k); }
        Some(_) => line.push_back(m),
    }
}
held
``` -/
def apply (rank : W → P → Nat) : Nat → (W → Option P) → (P → List W) → M (St P) (W → Option P)
  | 0, _, _ => M.throw .diverge
  | fuel + 1, held, rest => do
    match ← popFront with
    | none => pure held
    | some m =>
      match rest m with
      | [] => apply rank fuel held rest
      | w :: ws =>
        match held w with
        | none => apply rank fuel (Function.update held w (some m)) (Function.update rest m ws)
        | some k =>
          if rank w m < rank w k then
            pushBack k
            apply rank fuel (Function.update held w (some m)) (Function.update rest m ws)
          else
            pushBack m
            apply rank fuel held (Function.update rest m ws)

/-- ```
let mut line = CircularBuffer::with_capacity(n);
/* queue up all applicants, then let them apply */
``` -/
def assign (prefs : P → List W) (rank : W → P → Nat) (fuel n : Nat) (ps : List P) :
    Except Fault ((W → Option P) × List P) := do
  let cb ← withCapacity n
  let (r, s) := (do queueUp ps; apply rank fuel (fun _ => none) prefs : M (St P) (W → Option P)) ⟨cb, []⟩
  let held ← r
  return (held, s.dropped)

/-- `m` and `w` would rather have each other: `w` is on the list of `m`, before the place that has `m` (if any), and `m` is
better than whom `w` has (if anyone) -/
structure Blocks (prefs : P → List W) (rank : W → P → Nat) (μ : W → Option P) (m : P) (w : W) : Prop where
  listed : w ∈ prefs m
  wants : ∀ w', μ w' = some m → (prefs m).idxOf w < (prefs m).idxOf w'
  takes : ∀ m', μ w = some m' → rank w m < rank w m'

/-- Every place has an applicant that lists it or none, every applicant has one place or none, and there are no two that would
rather have each other. -/
structure Stable (prefs : P → List W) (rank : W → P → Nat) (ps : List P) (μ : W → Option P) : Prop where
  listed : ∀ w m, μ w = some m → m ∈ ps ∧ w ∈ prefs m
  once : ∀ w w' m, μ w = some m → μ w' = some m → w = w'
  free : ∀ m ∈ ps, ∀ w, ¬Blocks prefs rank μ m w

end Client
