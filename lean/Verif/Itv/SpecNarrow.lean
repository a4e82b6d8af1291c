import Verif.Itv.Spec
/-!
# Specification vocabulary: a client that narrows what unknowns may be

Of each unknown it is known in which interval it lies, and of some pairs how far apart they are. The client narrows the
intervals until nothing changes. The crate has no such function; it is what a client writes.
-/

open Rust
namespace Itv

/-- `unknown b is unknown a plus c` -/
structure Distance (V T : Type) where
  a : V
  b : V
  c : T

variable {V T : Type} [DecidableEq V] [LinearOrder T]

/-- `dom[v] = i;` -/
def setDom (dom : V → Interval T) (v : V) (i : Interval T) : V → Interval T := fun w => if w = v then i else dom w

/-- ```
dom[b] = dom[b].clone().into_intersection(dom[a].clone() + c);
dom[a] = dom[a].clone().into_intersection(dom[b].clone() - c);
``` -/
def narrow [Add T] [Sub T] (l : Distance V T) (dom : V → Interval T) : Except Fault (V → Interval T) := do
  let i ← Interval.intoIntersection (dom l.b) (← Interval.binOp (fun x => .ok (x + l.c)) (dom l.a))
  let dom := setDom dom l.b i
  let j ← Interval.intoIntersection (dom l.a) (← Interval.binOp (fun x => .ok (x - l.c)) (dom l.b))
  return setDom dom l.a j

/-- `for l in links { narrow(&mut dom, l); }` -/
def narrowAll [Add T] [Sub T] : List (Distance V T) → (V → Interval T) → Except Fault (V → Interval T)
  | [], dom => .ok dom
  | l :: ls, dom => do narrowAll ls (← narrow l dom)

/-- the values fit the intervals and the distances -/
def Solves [Add T] (links : List (Distance V T)) (dom : V → Interval T) (x : V → T) : Prop :=
  (∀ v, Mem (dom v) (x v)) ∧ ∀ l ∈ links, x l.b = x l.a + l.c

/-- distances lead from one unknown to the other, one way or the other -/
inductive Linked (links : List (Distance V T)) : V → V → Prop
  | refl (v : V) : Linked links v v
  | forth {v : V} {l : Distance V T} : Linked links v l.a → l ∈ links → Linked links v l.b
  | back {v : V} {l : Distance V T} : Linked links v l.b → l ∈ links → Linked links v l.a

end Itv
