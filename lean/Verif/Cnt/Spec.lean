import Verif.Cnt.Model
/-!
# Specification vocabulary for counters

A counter is judged by `get` and `len`. `mult c k` is the multiplicity of `k`, zero if `k` is not there.
-/

open Rust
namespace Cnt

variable {T : Type} [DecidableEq T]

/-- The multiplicity of a key. -/
def mult (c : Counter T) (k : T) : Nat := (c.get k).getD 0

/-- What any counter a user can hold satisfies: a real map (unique keys) of `usize` values. -/
def Valid [Cfg] (c : Counter T) : Prop := c.counter.Valid ∧ ∀ k n, c.get k = some n → n ≤ usizeMax

/-- No key is stored with count zero. -/
def NoZero (c : Counter T) : Prop := ∀ k, c.get k ≠ some 0

/-- A possible iteration order of the counter's map. -/
def IterOf (order : List (T × Nat)) (c : Counter T) : Prop := order.Perm c.counter.entries

/-- The entries an iteration of the counter's map gets to: all of them, unless it is cut short (`p`) by a panic
of the user's code. -/
def IterUpTo (p : Bool) (order : List (T × Nat)) (c : Counter T) : Prop :=
  ∃ rest, IterOf (order ++ rest) c ∧ (p = false → rest = [])

/-- The contract of `sort_unstable_by_key`: some permutation, sorted by key. -/
def SortByKey (sort : List (Nat × (T × Nat)) → List (Nat × (T × Nat))) : Prop :=
  ∀ xs, (sort xs).Perm xs ∧ (sort xs).Pairwise fun a b => a.1 ≤ b.1

/-- Counters made from empty ones by counting, adding and subtracting, without access to the map. A call that
panicked leaves a counter behind, which is included. -/
inductive Built [Cfg] : Counter T → Prop
  | new : Built Counter.new
  | fromIter {items p c} : Counter.fromIter items p = .ok c → Built c
  | fromIterRef {items p c} : Counter.fromIterRef items p = .ok c → Built c
  | push {a r c} (x : T) : Built a → Counter.push x a = (r, c) → Built c
  | extend {a r c} (items : List T) (p : Bool) : Built a → Counter.extend items p a = (r, c) → Built c
  | extendRef {a r c} (items : List T) (p : Bool) : Built a → Counter.extendRef items p a = (r, c) → Built c
  | addAssign {a b order p r c} : Built a → Built b → IterUpTo p order b →
      Counter.addAssign order p a = (r, c) → Built c
  | subAssign {a b order p r c} : Built a → Built b → IterUpTo p order b →
      Counter.subAssign order p a = (r, c) → Built c
  | add {a b order c} : Built a → Built b → IterOf order b → Counter.add order a = .ok c → Built c
  | addRef {a b order c} : Built a → Built b → IterOf order b → Counter.addRef order a = .ok c → Built c
  | addAssignRef {a b order p r c} : Built a → Built b → IterUpTo p order b →
      Counter.addAssignRef order p a = (r, c) → Built c
  | sub {a b order c} : Built a → Built b → IterOf order b → Counter.sub order a = .ok c → Built c
  | subRef {a b order c} : Built a → Built b → IterOf order b → Counter.subRef order a = .ok c → Built c
  | subAssignRef {a b order p r c} : Built a → Built b → IterUpTo p order b →
      Counter.subAssignRef order p a = (r, c) → Built c

/-- A call that counts items; the flag says whether the user's iterator panics after its items. -/
inductive Feed (T : Type)
  | push (x : T)
  | extend (items : List T) (panics : Bool)
  | extendRef (items : List T) (panics : Bool)

namespace Feed
/-- the items a call counts -/
def items : Feed T → List T
  | push x => [x]
  | extend xs _ => xs
  | extendRef xs _ => xs
/-- what the call is expected to return: only the user's own panic can come out -/
def expected : Feed T → Except Fault Unit
  | push _ => .ok ()
  | extend _ p => if p then .error .user else .ok ()
  | extendRef _ p => if p then .error .user else .ok ()
/-- the call -/
def run [Cfg] : Feed T → M (Counter T) Unit
  | push x => Counter.push x
  | extend xs p => Counter.extend xs p
  | extendRef xs p => Counter.extendRef xs p
end Feed

/-- Makes the calls one after another, catching panics; collects what each call returned. -/
def runFeeds [Cfg] : List (Feed T) → Counter T → List (Except Fault Unit) × Counter T
  | [], c => ([], c)
  | f :: fs, c =>
    let (r, c') := f.run c
    let (rs, c'') := runFeeds fs c'
    (r :: rs, c'')

/-- The sum of the counts of a counter. -/
def total (c : Counter T) : Nat := (c.counter.entries.map (·.2)).sum

end Cnt
