import Verif.Itv.Collect
/-!
# Specification vocabulary for C118: a set of values kept as intervals

A client keeps a set of values (times, addresses, ...) as a `Vec<Interval<T>>` and adds and removes whole intervals. The
crate has no such type; it is what a client writes with `into_merged`, `into_bounds`, `from_bounds` and the comparison of
bounds.
-/

open Rust
namespace Itv

section
variable {T : Type} [LinearOrder T]

/-- ```
for x in set { match cur.into_merged(x) { Ok(m) => cur = m, Err((c, x)) => { cur = c; rest.push(x) } } }
rest.push(cur)
``` -/
def addFrom (cur : Interval T) : List (Interval T) → Except Fault (List (Interval T))
  | [] => return [cur]
  | x :: rest => do
    match ← Interval.intoMerged cur x with
    | .ok m => addFrom m rest
    | .error (c, x) => return x :: (← addFrom c rest)

/-- adding all values of an interval; the empty interval is left out -/
def addTo (i : Interval T) (l : List (Interval T)) : Except Fault (List (Interval T)) :=
  if i.isEmpty then return l else addFrom i l

/-- ```
if lo.val() < up.val() || lo.val() == up.val() && lo.is_closed() && up.is_closed() { vec![Interval::from_bounds(lo, up)] }
else { vec![] }
``` -/
def piece (lo : LowerBound T) (up : UpperBound T) : Except Fault (List (Interval T)) :=
  if lo.val < up.val ∨ lo.val = up.val ∧ lo.isClosed = true ∧ up.isClosed = true then do
    return [← Interval.fromBounds lo up]
  else return []

/-- What is left of `a` without `b`: a piece that ends where `b` begins and a piece that begins where `b` ends. A bound that
is closed in `b` is open in the piece.
```
let below = UpperBound::new(lb.val().clone(), !lb.is_closed());
let above = LowerBound::new(ub.val().clone(), !ub.is_closed());
piece(la, min(ua, below)) ++ piece(max(la, above), ua)
``` -/
def without (b a : Interval T) : Except Fault (List (Interval T)) :=
  match a.intoBounds, b.bounds with
  | some (la, ua), some (lb, ub) => do
    let left ← piece la (ua.min (UpperBound.new lb.val (!lb.isClosed)))
    let right ← piece (la.max (LowerBound.new ub.val (!ub.isClosed))) ua
    return left ++ right
  | _, _ => return [a]

/-- removing all values of an interval: `set.into_iter().flat_map(|a| without(&b, a)).collect()` -/
def removeFrom (b : Interval T) : List (Interval T) → Except Fault (List (Interval T))
  | [] => return []
  | a :: rest => do return (← without b a) ++ (← removeFrom b rest)

/-- the calls of the client -/
inductive SetOp (T : Type)
  | add (i : Interval T)
  | remove (i : Interval T)

/-- the interval given -/
def SetOp.arg : SetOp T → Interval T
  | .add i => i
  | .remove i => i

/-- one call -/
def SetOp.run : SetOp T → List (Interval T) → Except Fault (List (Interval T))
  | .add i => addTo i
  | .remove i => removeFrom i

/-- calls one after the other -/
def runSet : List (SetOp T) → List (Interval T) → Except Fault (List (Interval T))
  | [], l => return l
  | o :: ops, l => do runSet ops (← o.run l)

/-- how the client looks up a value: `set.iter().any(|i| i.contains_val(&v))` -/
def lookup (v : T) (l : List (Interval T)) : Bool := l.any fun i => i.containsVal v

/-- The calls, in order, leave the value `v` in the set: a call decides for the values of its interval and no others. -/
def Kept (v : T) : List (SetOp T) → Prop → Prop
  | [], p => p
  | .add i :: ops, p => Kept v ops (p ∨ Mem i v)
  | .remove i :: ops, p => Kept v ops (p ∧ ¬ Mem i v)

/-- What the client keeps: intervals from the interface, none of them empty, no two of which can be merged. -/
structure IsSet (l : List (Interval T)) : Prop where
  obt : ∀ i ∈ l, Obtainable i
  nonempty : ∀ i ∈ l, i.isEmpty = false
  apart : l.Pairwise fun a b => a.canBeMerged b = false

end

end Itv
