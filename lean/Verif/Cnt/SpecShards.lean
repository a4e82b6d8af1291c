import Verif.Cnt.Spec
/-!
# Specification vocabulary: counting in shards

A client counts a long list of items by cutting it into parts, counting every part by itself (on another thread,
say) and adding the counters up pairwise, in whatever shape the work was cut.
-/

open Rust
namespace Cnt
open Counter

/-- how the work is cut: a part is counted at once, or the two halves are counted and then added up -/
inductive Plan (T : Type) where
  | part (items : List T)
  | merge (left right : Plan T)

/-- all the items of the plan, from left to right -/
def Plan.items {T : Type} : Plan T → List T
  | .part items => items
  | .merge l r => l.items ++ r.items

/-- What carrying out the plan may give. The iteration order of every intermediate counter is arbitrary, and so is
which of the four additions is used and whether parts are counted by value or by reference. A panic in either half
is the panic of the whole. -/
inductive Runs {T : Type} [DecidableEq T] [Cfg] : Plan T → Except Fault (Counter T) → Prop
  | part {items} : Runs (.part items) (fromIter items)
  | partRef {items} : Runs (.part items) (fromIterRef items)
  | left {l r e} : Runs l (.error e) → Runs (.merge l r) (.error e)
  | right {l r e} : Runs r (.error e) → Runs (.merge l r) (.error e)
  | add {l r a b order} : Runs l (.ok a) → Runs r (.ok b) → IterOf order b → Runs (.merge l r) (add order a)
  | addRef {l r a b order} : Runs l (.ok a) → Runs r (.ok b) → IterOf order b → Runs (.merge l r) (addRef order a)
  | addAssign {l r a b c order} : Runs l (.ok a) → Runs r (.ok b) → IterOf order b →
      addAssign order false a = (.ok (), c) → Runs (.merge l r) (.ok c)
  | addAssignPanic {l r a b c e order} : Runs l (.ok a) → Runs r (.ok b) → IterOf order b →
      addAssign order false a = (.error e, c) → Runs (.merge l r) (.error e)
  | addAssignRef {l r a b c order} : Runs l (.ok a) → Runs r (.ok b) → IterOf order b →
      addAssignRef order false a = (.ok (), c) → Runs (.merge l r) (.ok c)
  | addAssignRefPanic {l r a b c e order} : Runs l (.ok a) → Runs r (.ok b) → IterOf order b →
      addAssignRef order false a = (.error e, c) → Runs (.merge l r) (.error e)

end Cnt
