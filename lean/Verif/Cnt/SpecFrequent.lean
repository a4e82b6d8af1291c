import Verif.Cnt.Spec
/-!
# Specification vocabulary: a client that finds frequent items with few keys

The summaries of Misra and Gries, and merging them. The crate has no such type; the functions are what a client writes.
-/

open Rust
namespace Cnt
open Counter

section
variable {T : Type} [DecidableEq T]

/-- ```
fn note(c: &mut Counter<T>, k: usize, x: T) {
    c.push(x);
    if c.len() > k {
        let ones: Counter<T> = c.keys().cloned().collect();
        *c -= ones;
    }
}
```
`iter` tells in which order a map is iterated -/
def note [Cfg] (iter : Counter T → List (T × Nat)) (k : Nat) (x : T) : M (Counter T) Unit := do
  push x
  let c ← M.get
  if k < c.len then
    let ones ← M.lift (fromIter ((iter c).map (·.1)))
    subAssign (iter ones) false

/-- ```
fn merge(a: Counter<T>, b: Counter<T>, k: usize) -> Counter<T> {
    let sum = a + b;
    match sum.most_common().get(k) {
        None => sum,
        Some((_, n)) => {
            let map: HashMap<T, usize> = sum.keys().map(|x| (x.clone(), *n)).collect();
            sum - Counter::from_hashmap(map)
        }
    }
}
``` -/
def merge [Cfg] (iter : Counter T → List (T × Nat)) (sort : List (Nat × (T × Nat)) → List (Nat × (T × Nat))) (k : Nat)
    (a b : Counter T) : Except Fault (Counter T) := do
  let sum ← add (iter b) a
  let common ← mostCommon sort (iter sum)
  match common[k]? with
  | none => return sum
  | some e =>
    let cut := fromHashmap (HMap.fromIter ((iter sum).map fun f => (f.1, e.2)))
    sub (iter cut) sum

/-- how a summary comes about -/
inductive Sketch (T : Type) where
  | empty
  | note (p : Sketch T) (x : T)
  | merge (p q : Sketch T)

/-- everything that was noted -/
def Sketch.items : Sketch T → List T
  | .empty => []
  | .note p x => p.items ++ [x]
  | .merge p q => p.items ++ q.items

/-- the summary -/
def Sketch.run [Cfg] (iter : Counter T → List (T × Nat)) (sort : List (Nat × (T × Nat)) → List (Nat × (T × Nat))) (k : Nat) :
    Sketch T → Except Fault (Counter T)
  | .empty => .ok new
  | .note p x => do owned (Cnt.note iter k x) (← p.run iter sort k)
  | .merge p q => do
    let a ← p.run iter sort k
    let b ← q.run iter sort k
    Cnt.merge iter sort k a b

end
end Cnt
