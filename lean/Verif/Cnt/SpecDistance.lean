import Verif.Cnt.Spec
/-!
# Specification vocabulary: how far apart two sequences are when their order does not matter
-/

open Rust
namespace Cnt
open Counter

/-- `n` steps, each of which removes or inserts an item somewhere, turn one sequence into a rearrangement of another. -/
inductive Turns {T : Type} : Nat → List T → List T → Prop
  | done {xs ys} : xs.Perm ys → Turns 0 xs ys
  | remove {n xs ys zs x} : xs.Perm (x :: zs) → Turns n zs ys → Turns (n + 1) xs ys
  | insert {n xs ys x} : Turns n (x :: xs) ys → Turns (n + 1) xs ys

/-- The sequences have `n` items in common: such items are part of both. -/
def Shares {T : Type} (n : Nat) (xs ys : List T) : Prop := ∃ zs : List T, zs.length = n ∧ zs.Subperm xs ∧ zs.Subperm ys

variable {T : Type} [DecidableEq T] [Cfg]

/-- the sum of the counts an iteration passes -/
def sumOf (entries : List (T × Nat)) : Nat := (entries.map (·.2)).sum

/-- ```
fn distance(xs: Vec<T>, ys: Vec<T>) -> u128 {
    let a: Counter<T> = xs.into_iter().collect();
    let b: Counter<T> = ys.into_iter().collect();
    let more = a.clone() - &b;
    let less = b - &a;
    let sum = |c: &Counter<T>| c.values().map(|n| *n as u128).sum::<u128>();
    sum(&more) + sum(&less)
}
```
`order` tells in which order the maps are iterated, every time; sums do not exceed the number of items and do not overflow -/
def distance (order : Nat → Counter T → List (T × Nat)) (xs ys : List T) : Except Fault Nat := do
  let a ← fromIter xs
  let b ← fromIter ys
  let more ← subRef (order 0 b) a
  let less ← subRef (order 1 a) b
  return sumOf (order 2 more) + sumOf (order 3 less)

/-- ```
fn common(xs: Vec<T>, ys: Vec<T>) -> u128 {
    let a: Counter<T> = xs.into_iter().collect();
    let b: Counter<T> = ys.into_iter().collect();
    let more = a.clone() - &b;
    let both = a - &more;
    both.values().map(|n| *n as u128).sum()
}
``` -/
def common (order : Nat → Counter T → List (T × Nat)) (xs ys : List T) : Except Fault Nat := do
  let a ← fromIter xs
  let b ← fromIter ys
  let more ← subRef (order 0 b) a
  let both ← subRef (order 1 more) a
  return sumOf (order 2 both)

end Cnt
