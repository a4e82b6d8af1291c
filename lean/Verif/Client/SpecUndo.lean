import Verif.CB.Spec
/-!
# Specification vocabulary: a client that undoes and redoes edits

The client keeps earlier and undone versions of a value in two `CircularBuffer`s of the same capacity. The crate has no such
type; the functions are what a client writes.
-/

open Rust CB
namespace Client

/-- ```
struct Editor<T> { past: CircularBuffer<T>, now: T, future: CircularBuffer<T> }
```
and the values dropped so far -/
structure Editor (α : Type) where
  past : Buf α
  now : α
  future : Buf α
  dropped : List α

/-- what the user of the editor does -/
inductive Cmd (α : Type) where
  | edit (v : α)
  | undo
  | redo

section
variable {α : Type}

/-- a call on `past` -/
def onPast {β : Type} (m : M (St α) β) : M (Editor α) β := fun e =>
  let (r, t) := m ⟨e.past, e.dropped⟩
  (r, { e with past := t.cb, dropped := t.dropped })

/-- a call on `future` -/
def onFuture {β : Type} (m : M (St α) β) : M (Editor α) β := fun e =>
  let (r, t) := m ⟨e.future, e.dropped⟩
  (r, { e with future := t.cb, dropped := t.dropped })

/-- `mem::replace(&mut self.now, v)` -/
def replaceNow (v : α) : M (Editor α) α := fun e => (.ok e.now, { e with now := v })

variable [Cfg] [Elem α]

/-- ```
fn edit(&mut self, v: T) -> bool {
    self.past.push_back(mem::replace(&mut self.now, v));
    self.future.clear();
    true
}
fn undo(&mut self) -> bool {
    match self.past.pop_back() {
        None => false,
        Some(v) => { self.future.push_back(mem::replace(&mut self.now, v)); true }
    }
}
fn redo(&mut self) -> bool {
    match self.future.pop_back() {
        None => false,
        Some(v) => { self.past.push_back(mem::replace(&mut self.now, v)); true }
    }
}
``` -/
def act : Cmd α → M (Editor α) Bool
  | .edit v => do
    let old ← replaceNow v
    onPast (pushBack old)
    onFuture clear
    return true
  | .undo => do
    match ← onPast popBack with
    | none => return false
    | some v =>
      let old ← replaceNow v
      onFuture (pushBack old)
      return true
  | .redo => do
    match ← onFuture popBack with
    | none => return false
    | some v =>
      let old ← replaceNow v
      onPast (pushBack old)
      return true

/-- one command after the other; the answers -/
def actAll : List (Cmd α) → M (Editor α) (List Bool)
  | [] => pure []
  | c :: cs => do
    let b ← act c
    let bs ← actAll cs
    pure (b :: bs)

end

/-! ## what is expected: a line of versions and a place on it -/

/-- the versions that can be reached, oldest first, and the place of the present one -/
structure Timeline (α : Type) where
  versions : List α
  place : Nat

variable {α : Type}

/-- An edit forgets what was undone and adds a version, of which the newest `depth + 1` are kept. Undo and redo go one
version back or forth, if there is one. -/
def Timeline.act (depth : Nat) (t : Timeline α) : Cmd α → Bool × Timeline α
  | .edit v =>
    let all := t.versions.take (t.place + 1) ++ [v]
    (true, ⟨lastN (depth + 1) all, min (depth + 1) all.length - 1⟩)
  | .undo => if 0 < t.place then (true, { t with place := t.place - 1 }) else (false, t)
  | .redo => if t.place + 1 < t.versions.length then (true, { t with place := t.place + 1 }) else (false, t)

/-- one command after the other -/
def Timeline.actAll (depth : Nat) : Timeline α → List (Cmd α) → List Bool × Timeline α
  | t, [] => ([], t)
  | t, c :: cs =>
    let (b, t) := t.act depth c
    let (bs, t) := t.actAll depth cs
    (b :: bs, t)

/-- the values the commands bring -/
def brought : List (Cmd α) → List α
  | [] => []
  | .edit v :: cs => v :: brought cs
  | _ :: cs => brought cs

end Client
