import Verif.DS.SpecEquality
/-!
# Specification vocabulary: a client for connections that are cut

Connections are cut one after the other and in between it is asked what is still connected. A disjoint set can only unite;
the client therefore goes through the events from the last to the first.
-/

open Rust
namespace DS

/-- what happens: a connection is cut, or somebody asks whether two are still connected -/
inductive Event (V : Type) where
  | cut (a b : V)
  | ask (a b : V)
deriving DecidableEq

section
variable {V : Type} [DecidableEq V]

/-- only connections that are there are cut -/
def Proper : List (V × V) → List (Event V) → Prop
  | _, [] => True
  | g, .cut a b :: rest => (a, b) ∈ g ∧ Proper (g.filter fun e => decide (e ≠ (a, b))) rest
  | g, .ask _ _ :: rest => Proper g rest

/-- the questions, each with the connections there are when it is asked -/
def asked : List (V × V) → List (Event V) → List (List (V × V) × V × V)
  | _, [] => []
  | g, .cut a b :: rest => asked (g.filter fun e => decide (e ≠ (a, b))) rest
  | g, .ask a b :: rest => (g, a, b) :: asked g rest

/-- ```
for event in events {
    match event {
        Cut(a, b) => ds.union(a, b),
        Ask(a, b) => answers.push(ds.in_union(&a, &b)),
    }
}
``` -/
def replay [Cfg] (stack : Nat) : List (Event V) → M (DSet V) (List Bool)
  | [] => pure []
  | .cut a b :: rest => do
    DSet.union stack a b false false
    replay stack rest
  | .ask a b :: rest => do
    let answer ← DSet.inUnion stack a b false false
    return answer :: (← replay stack rest)

/-- ```
let mut ds: DisjointSet<V> = places.into_iter().collect();
for (a, b) in edges { if !events.contains(&Cut(a, b)) { ds.union(a, b); } }
let mut answers = Vec::new();
for event in events.into_iter().rev() { … }
answers.reverse();
answers
``` -/
def cuts [Cfg] (stack : Nat) (places : List V) (edges : List (V × V)) (events : List (Event V)) : M (DSet V) (List Bool) := do
  DSet.extend 0 false places false
  equateAll stack (edges.filter fun e => decide (Event.cut e.1 e.2 ∉ events))
  let answers ← replay stack events.reverse
  return answers.reverse

end
end DS
