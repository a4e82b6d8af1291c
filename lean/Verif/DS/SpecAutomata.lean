import Verif.DS.Spec
/-!
# Specification vocabulary: a client that decides whether two states of an automaton accept the same words

This is the algorithm of Hopcroft and Karp. The crate has no such function; it is what a client writes.
-/

open Rust
namespace DS

variable {Q A : Type}

/-- a deterministic automaton -/
structure Automaton (Q A : Type) where
  letters : List A
  next : Q → A → Q
  accepts : Q → Bool

/-- a word of the automaton's letters -/
def Automaton.Word (m : Automaton Q A) (w : List A) : Prop := ∀ a ∈ w, a ∈ m.letters

/-- The two states accept the same words. -/
def Automaton.Alike (m : Automaton Q A) (x y : Q) : Prop :=
  ∀ w, m.Word w → m.accepts (w.foldl m.next x) = m.accepts (w.foldl m.next y)

variable [DecidableEq Q]

/-- ```
let mut ds = DisjointSet::new();
let mut todo = vec![(p, q)];
while let Some((x, y)) = todo.pop() {
    if x == y || ds.in_union(&x, &y) { continue; }
    if accepts(&x) != accepts(&y) { return false; }
    for a in letters { todo.push((next(&x, a), next(&y, a))); }
    ds.union(x, y);
}
true
```
The last element of `todo` comes first in the list; `fuel` bounds the number of rounds. -/
def alike [Cfg] (stack : Nat) (m : Automaton Q A) : Nat → List (Q × Q) → M (DSet Q) Bool
  | 0, _ => M.throw .diverge
  | _ + 1, [] => pure true
  | fuel + 1, (x, y) :: todo => do
    if x = y then alike stack m fuel todo
    else if ← DSet.inUnion stack x y false false then alike stack m fuel todo
    else if m.accepts x != m.accepts y then pure false
    else
      DSet.union stack x y false false
      alike stack m fuel ((m.letters.map fun a => (m.next x a, m.next y a)).reverse ++ todo)

end DS
