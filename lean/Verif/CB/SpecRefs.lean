import Verif.CB.ModelRefs
/-!
# Specification vocabulary: references as boxes

Here a reference *is* the element it leads to: a box with the element's index in the buffer and its value. There is no
shared memory. What a client does to one box cannot be seen in any other, by construction.
-/

open Rust
namespace CB
variable {α : Type}

/-- the boxes the iterator has not handed out yet, those the client holds, and the values dropped so far -/
structure Boxes (α : Type) where
  rest : List (Nat × α)
  held : List (Nat × α)
  dropped : List α

/-- the elements of a buffer as boxes, before the first call of `next` -/
def Boxes.of (xs : List α) (dropped : List α) : Boxes α :=
  ⟨xs.zipIdx.map Prod.swap, [], dropped⟩

/-- one step of the client, on boxes -/
def Boxes.step [Elem α] : RefOp α → Boxes α → Except Fault (RefOut α) × Boxes α
  | .next, b =>
    match b.rest with
    | [] => (.ok (.got false), b)
    | p :: r => (.ok (.got true), { b with rest := r, held := b.held ++ [p] })
  | .nextBack, b =>
    match b.rest.getLast? with
    | none => (.ok (.got false), b)
    | some p => (.ok (.got true), { b with rest := b.rest.dropLast, held := b.held ++ [p] })
  | .read i, b =>
    match b.held[i]? with
    | none => (.error .indexOutOfBounds, b)
    | some p => (.ok (.elem p.2), b)
  | .assign i v, b =>
    match b.held[i]? with
    | none => (.error .indexOutOfBounds, b)
    | some p => (if Elem.dropPanics p.2 then .error .user else .ok .unit,
        { b with held := b.held.set i (p.1, v), dropped := b.dropped ++ [p.2] })
  | .replace i v, b =>
    match b.held[i]? with
    | none => (.error .indexOutOfBounds, b)
    | some p => (.ok (.elem p.2), { b with held := b.held.set i (p.1, v) })
  | .swap i j, b =>
    if i < j then
      match b.held[i]?, b.held[j]? with
      | some p, some q => (.ok .unit, { b with held := (b.held.set j (q.1, p.2)).set i (p.1, q.2) })
      | _, _ => (.error .indexOutOfBounds, b)
    else (.error .indexOutOfBounds, b)
  | .reorder i j, b =>
    match b.held[i]?, b.held[j]? with
    | some p, some q => (.ok .unit, { b with held := (b.held.set i q).set j p })
    | _, _ => (.error .indexOutOfBounds, b)

/-- a sequence of steps, on boxes -/
def Boxes.run [Elem α] : List (RefOp α) → Boxes α → List (Except Fault (RefOut α)) × Boxes α
  | [], b => ([], b)
  | o :: os, b =>
    ((b.step o).1 :: (Boxes.run os (b.step o).2).1, (Boxes.run os (b.step o).2).2)

/-- The boxes show the elements `ys`: every index has exactly one box, and it holds the element at that index. -/
def Boxes.Show (b : Boxes α) (ys : List α) : Prop :=
  ((b.held ++ b.rest).map Prod.fst).Perm (List.range ys.length) ∧ ∀ p ∈ b.held ++ b.rest, ys[p.1]? = some p.2

end CB
