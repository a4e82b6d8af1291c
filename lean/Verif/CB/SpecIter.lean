import Verif.CB.ModelIter
/-!
# Specification vocabulary: iterator methods on a list
-/

open Rust
namespace CB

/-- the calls that leave an iterator behind -/
inductive ICall
  | next | nextBack | nth (n : Nat) | nthBack (n : Nat) | sizeHint

/-- what they return -/
inductive IOut (β : Type)
  | item (v : Option β)
  | hint (lower : Nat) (upper : Option Nat)

variable {β : Type}

/-- the calls on std's `Chain` -/
def ICall.chain [Cfg] : ICall → Chain β → IOut β × Chain β
  | next, c => (.item c.next.1, c.next.2)
  | nextBack, c => (.item c.nextBack.1, c.nextBack.2)
  | nth n, c => (.item (c.nth n).1, (c.nth n).2)
  | nthBack n, c => (.item (c.nthBack n).1, (c.nthBack n).2)
  | sizeHint, c => (.hint c.sizeHint.1 c.sizeHint.2, c)

/-- the calls on an iterator over `l`: what is returned, and what the iterator still has to yield -/
def ICall.ideal : ICall → List β → IOut β × List β
  | next, l => (.item l[0]?, l.drop 1)
  | nextBack, l => (.item l.reverse[0]?, (l.reverse.drop 1).reverse)
  | nth n, l => (.item l[n]?, l.drop (n + 1))
  | nthBack n, l => (.item l.reverse[n]?, (l.reverse.drop (n + 1)).reverse)
  | sizeHint, l => (.hint l.length (some l.length), l)

/-- a sequence of calls -/
def callAll {σ : Type} (step : ICall → σ → IOut β × σ) : List ICall → σ → List (IOut β) × σ
  | [], s => ([], s)
  | c :: cs, s => ((step c s).1 :: (callAll step cs (step c s).2).1, (callAll step cs (step c s).2).2)

end CB
