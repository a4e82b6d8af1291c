import Verif.CB.Spec
/-!
# Specification vocabulary: a client with readers that may fall behind

The client keeps the latest messages in a `CircularBuffer`; every reader knows how many messages there were when it looked
last. The crate has no such type; the functions are what a client writes.
-/

open Rust CB
namespace Client

/-- ```
struct Broadcast<T> { buf: CircularBuffer<T>, total: usize, cursors: Vec<usize> }
```
Readers may be named by any type; of the buffer also the values it dropped. -/
structure Broadcast (ρ α : Type) where
  st : St α
  total : Nat
  cursor : ρ → Nat

/-- what happens -/
inductive Occur (ρ α : Type) where
  | write (v : α)
  | poll (r : ρ)

section
variable {ρ α : Type}

/-- a call on the buffer -/
def onRing {β : Type} (m : M (St α) β) : M (Broadcast ρ α) β := fun b =>
  let (r, t) := m b.st
  (r, { b with st := t })

variable [Cfg] [Elem α] [DecidableEq ρ]

/-- ```
fn write(&mut self, v: T) { self.buf.push_back(v); self.total += 1; }
``` -/
def write (v : α) : M (Broadcast ρ α) Unit := do
  onRing (pushBack v)
  let n ← M.lift (uadd (← M.get).total 1)
  M.modify fun b => { b with total := n }

/-- ```
fn poll(&mut self, r: usize) -> (usize, Vec<&T>) {
    let first = self.total - self.buf.len();
    let cursor = mem::replace(&mut self.cursors[r], self.total);
    (first.saturating_sub(cursor), self.buf.iter().skip(cursor.saturating_sub(first)).collect())
}
``` -/
def poll (r : ρ) : M (Broadcast ρ α) (Nat × List α) := do
  let first ← M.lift (usub (← M.get).total (← onRing (self_ Buf.len)))
  let cursor := (← M.get).cursor r
  M.modify fun b => { b with cursor := fun r' => if r' = r then b.total else b.cursor r' }
  return (first - cursor, (← onRing (self_ Buf.contents)).drop (cursor - first))

/-- one after the other; what the polls return -/
def occurAll : List (Occur ρ α) → M (Broadcast ρ α) (List (Option (Nat × List α)))
  | [] => pure []
  | .write v :: os => do
    write v
    return none :: (← occurAll os)
  | .poll r :: os => do
    let got ← poll r
    return some got :: (← occurAll os)

end

/-! ## what is expected -/

section
variable {ρ α : Type}

/-- all messages -/
def written : List (Occur ρ α) → List α
  | [] => []
  | .write v :: os => v :: written os
  | .poll _ :: os => written os

/-- the messages since the reader last looked, if `before` are those up to now -/
def unseen [DecidableEq ρ] (r : ρ) : List α → List (Occur ρ α) → List α
  | before, [] => before
  | before, .write v :: os => unseen r (before ++ [v]) os
  | before, .poll r' :: os => unseen r (if r' = r then [] else before) os

/-- the polls of one reader among all outputs -/
def pollsOf [DecidableEq ρ] (r : ρ) : List (Occur ρ α) → List (Option (Nat × List α)) → List (Nat × List α)
  | .poll r' :: os, some got :: outs => if r' = r then got :: pollsOf r os outs else pollsOf r os outs
  | _ :: os, _ :: outs => pollsOf r os outs
  | _, _ => []

end
end Client
