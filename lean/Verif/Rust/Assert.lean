import Verif.Rust.Base
/-!
# The crate's own tests, as programs over the models: vocabulary

The files `*/CrateTests.lean` replay the unit tests and the documentation examples of the crate on the models. They
prove no property. They are evidence that the models compute what the code computes on the inputs its author wrote
down: a test of the crate that fails on the model would show a mistake in the model (or in the test).
-/

namespace Rust

variable {σ β : Type}

/-- `assert!(b)` -/
def assert (b : Bool) : M σ Unit := if b then pure () else M.throw .explicit
/-- `assert_eq!(a, b)` -/
def assertEq [DecidableEq β] (a b : β) : M σ Unit := assert (decide (a = b))
/-- `assert_ne!(a, b)`, which asks `==` and not `!=` (std) -/
def assertNe [DecidableEq β] (a b : β) : M σ Unit := assert (!decide (a = b))

/-- The test that starts from what `start` makes runs to its end. -/
def passes (start : Except Fault σ) (test : M σ Unit) : Bool :=
  match start with
  | .ok s => (test s).1.isOk
  | .error _ => false

/-- `#[should_panic]` -/
def shouldPanic {α : Type} (r : Except Fault α) : Bool := !r.isOk

/-- what `cargo test` builds: overflow checks and debug assertions -/
@[instance_reducible] def testBuild : Cfg := ⟨64, true, true, by decide, by decide⟩
/-- what `cargo test --release` builds, for a small machine -/
@[instance_reducible] def releaseBuild : Cfg := ⟨16, false, false, by decide, by decide⟩

/-- The test passes in both builds. -/
def inBothBuilds (test : (c : Cfg) → Bool) : Bool := test testBuild && test releaseBuild

end Rust
