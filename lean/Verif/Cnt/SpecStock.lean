import Verif.Cnt.Spec
/-!
# Specification vocabulary: a client that keeps a stock with a counter

Orders are filled completely or not at all. The crate has no such type; the functions are what a client writes.
-/

open Rust
namespace Cnt
open Counter

/-- what happens to the stock -/
inductive Trade (T : Type) where
  | deliver (items : List T)
  | order (items : List T)

section
variable {T : Type} [DecidableEq T]

/-- ```
match trade {
    Deliver(items) => { stock.extend(items); true }
    Order(items) => {
        let wanted: Counter<T> = items.into_iter().collect();
        let missing = wanted.clone() - &stock;
        let filled = missing.is_empty();
        if filled { stock -= wanted; }
        filled
    }
}
```
`iter` tells in which order a map is iterated -/
def trade [Cfg] (iter : Counter T → List (T × Nat)) : Trade T → M (Counter T) Bool
  | .deliver items => do
    extend items false
    return true
  | .order items => do
    let wanted ← M.lift (fromIter items)
    let missing ← M.lift (subRef (iter (← M.get)) wanted)
    if missing.len = 0 then
      subAssign (iter wanted) false
      return true
    else return false

/-- one after the other -/
def tradeAll [Cfg] (iter : Counter T → List (T × Nat)) : List (Trade T) → M (Counter T) (List Bool)
  | [] => pure []
  | t :: ts => do
    let filled ← trade iter t
    return filled :: (← tradeAll iter ts)

/-- everything that was delivered -/
def delivered : List (Trade T) → List T
  | [] => []
  | .deliver items :: ts => items ++ delivered ts
  | .order _ :: ts => delivered ts

/-- everything in the orders that were filled, according to the answers -/
def sold : List (Trade T) → List Bool → List T
  | .order items :: ts, true :: bs => items ++ sold ts bs
  | _ :: ts, _ :: bs => sold ts bs
  | _, _ => []

/-- the number of items of a kind in the order -/
def Trade.ordered (k : T) : Trade T → Nat
  | .deliver _ => 0
  | .order items => items.count k

end
end Cnt
