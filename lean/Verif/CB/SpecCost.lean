import Verif.CB.Spec
/-!
# What the calls on a circular buffer may cost

The documentation of the module (circular_buffer/mod.rs:5-20) promises O(1) for pushing, popping and accessing an
element, and that no memory is allocated while the buffer is used.
-/

open Rust
namespace CB.Cost
open Spec (Deque)

variable {α : Type}

/-- The calls that take a constant time: pushing, popping, accessing one element, and asking for sizes. -/
def Quick : Op α → Prop
  | .pushBack _ | .pushFront _ | .popBack | .popFront | .swap _ _ | .replaceAt _ _ | .replaceFirst _ | .replaceLast _
  | .len | .capacity | .isEmpty | .isFull | .first | .last | .index _ => True
  | _ => False

/-- The number of elements (or places) another call has to look at. -/
def load (d : Deque α) : Op α → Nat
  | .clear | .reverse | .iter => d.items.length
  | .resize n => d.items.length + n
  | .extend items _ | .extendRef _ items _ => items.length
  | .drain k => min k d.items.length
  | .linearize => d.cap
  | .replaceIter vs => min d.items.length vs.length
  | _ => 0

/-- The blocks of memory a call asks for, in places for elements: only `resize` asks for one, with one place more than the
new capacity (unless that is more than any allocation may have). -/
def asked [Cfg] [Elem α] : Op α → List Nat
  | .resize n => if (n + 1) * Elem.size α ≤ isizeMax then [n + 1] else []
  | _ => []

end CB.Cost
