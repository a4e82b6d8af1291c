import Verif.DS.SpecEquality
/-!
# Specification vocabulary: equations between terms

Congruence closure: every term has a name, and a table tells which name stands for "`fn` applied to `arg`". Given equations
between names, a disjoint set finds out which further equations follow, because a function applied to equal values gives
equal results.
-/

open Rust
namespace DS

variable {V : Type} [DecidableEq V]

/-- one row of the table: `res` is the name of `fn` applied to `arg` -/
structure Appl (V : Type) where
  fn : V
  arg : V
  res : V
deriving DecidableEq

/-- ```
let mut changed = false;
for (r, t) in pairs_of_rows {
    if ds.in_union(&r.func, &t.func) && ds.in_union(&r.arg, &t.arg) && !ds.in_union(&r.res, &t.res) {
        ds.union(r.res, t.res);
        changed = true;
    }
}
changed
``` -/
def pass [Cfg] (stack : Nat) : List (Appl V × Appl V) → M (DSet V) Bool
  | [] => pure false
  | (r, t) :: rest => do
    if ← DSet.inUnion stack r.fn t.fn false false then
      if ← DSet.inUnion stack r.arg t.arg false false then
        if ← DSet.inUnion stack r.res t.res false false then pass stack rest
        else
          DSet.union stack r.res t.res false false
          let _ ← pass stack rest
          pure true
      else pass stack rest
    else pass stack rest

/-- all pairs of rows -/
def rowPairs (rows : List (Appl V)) : List (Appl V × Appl V) := rows.flatMap fun r => rows.map fun t => (r, t)

/-- `for _ in 0..n { if !pass() { break; } }` -/
def passes [Cfg] (stack : Nat) (ps : List (Appl V × Appl V)) : Nat → M (DSet V) Unit
  | 0 => pure ()
  | n + 1 => do
    if ← pass stack ps then passes stack ps n else pure ()

/-- ```
ds.extend(names);
for (a, b) in equal { ds.union(a, b); }
for _ in 0..=ds.len() { if !pass() { break; } }
``` -/
def closeUp [Cfg] (stack : Nat) (names : List V) (rows : List (Appl V)) (equal : List (V × V)) : M (DSet V) Unit := do
  DSet.extend 0 false names false
  equateAll stack equal
  let s ← M.get
  passes stack (rowPairs rows) (s.len + 1)

/-- The equation follows: whatever the values are and whatever applying means, if the table and the equations are right then
so is this one. -/
def Follows (rows : List (Appl V)) (equal : List (V × V)) (x y : V) : Prop :=
  ∀ (D : Type) (app : D → D → D) (val : V → D), (∀ r ∈ rows, app (val r.fn) (val r.arg) = val r.res) →
    (∀ e ∈ equal, val e.1 = val e.2) → val x = val y

end DS
