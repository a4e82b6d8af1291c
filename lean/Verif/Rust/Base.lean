/-!
# Vocabulary for the Rust runtime behaviour the models rely on

Nothing in this file models a file of the crate; it fixes what a panic, undefined behaviour, a machine
word and a `&mut self` method are in the models of `/repo/src`.
-/

namespace Rust

/-- Everything that can end a call other than returning. All but `ub`, `abort`, `stackOverflow` and
`diverge` are ordinary (catchable) panics. -/
inductive Fault where
  /-- slice index / range out of bounds, `slice::swap`, `split_at_mut`, `rotate_left` precondition -/
  | indexOutOfBounds
  /-- integer overflow with overflow checks on -/
  | overflow
  /-- a failed `debug_assert!` -/
  | assertFailed
  /-- an explicit `panic!` of the crate -/
  | explicit
  /-- `Vec` asked for more than `isize::MAX` bytes -/
  | capacityOverflow
  /-- `Option::unwrap` on `None` -/
  | unwrapNone
  /-- integer division by zero -/
  | divByZero
  /-- a panic raised by user code (element destructor, user iterator, `Clone` of the element) -/
  | user
  /-- `mem::uninitialized` refuses the type (recent toolchains, types with invalid bit patterns) -/
  | uninitRefused
  /-- a second panic while unwinding: the process aborts -/
  | abort
  /-- undefined behaviour: an uninitialised slot is used as a value -/
  | ub
  /-- the recursion needs more stack frames than are available -/
  | stackOverflow
  /-- a loop did not finish within the fuel given to it by the model -/
  | diverge
deriving DecidableEq, Repr

/-- The build configuration and target: pointer width, `-C overflow-checks`, `-C debug-assertions`. -/
class Cfg where
  bits : Nat
  overflowChecks : Bool
  debugAssertions : Bool
  bits_ge : 16 ≤ bits
  bits_le : bits ≤ 64

/-- `usize::MAX` -/
def usizeMax [Cfg] : Nat := 2 ^ Cfg.bits - 1
/-- `isize::MAX` -/
def isizeMax [Cfg] : Nat := 2 ^ (Cfg.bits - 1) - 1

/-- `a + b` on `usize`: panics or wraps around on overflow, depending on the build. -/
def uadd [Cfg] (a b : Nat) : Except Fault Nat :=
  if a + b ≤ usizeMax then .ok (a + b)
  else if Cfg.overflowChecks then .error .overflow
  else .ok ((a + b) % (usizeMax + 1))

/-- `a - b` on `usize`: panics or wraps around on underflow, depending on the build. -/
def usub [Cfg] (a b : Nat) : Except Fault Nat :=
  if b ≤ a then .ok (a - b)
  else if Cfg.overflowChecks then .error .overflow
  else .ok (a + (usizeMax + 1) - b)

/-- A method taking `&mut self`: it returns or faults, and in both cases leaves a state behind. -/
def M (σ α : Type) := σ → Except Fault α × σ

namespace M
variable {σ τ α β : Type}

/-- return without touching the state -/
@[reducible] protected def pure (a : α) : M σ α := fun s => (.ok a, s)
/-- sequencing; a fault stops the method and keeps the state reached so far -/
protected def bind (m : M σ α) (f : α → M σ β) : M σ β := fun s =>
  match m s with
  | (.ok a, s') => f a s'
  | (.error e, s') => (.error e, s')

instance : Monad (M σ) where
  pure := M.pure
  bind := M.bind

/-- fault without touching the state -/
def throw (e : Fault) : M σ α := fun s => (.error e, s)
/-- read the state -/
def get : M σ σ := fun s => (.ok s, s)
/-- change the state -/
def modify (f : σ → σ) : M σ Unit := fun s => (.ok (), f s)
/-- run a computation that does not depend on the state -/
def lift (e : Except Fault α) : M σ α := fun s => (e, s)
/-- run a `&self` method (it cannot change the state) -/
def ask (f : σ → Except Fault α) : M σ α := fun s => (f s, s)

theorem pure_run (a : α) (s : σ) : (Pure.pure a : M σ α) s = (.ok a, s) := rfl
theorem bind_run (m : M σ α) (f : α → M σ β) (s : σ) :
    (m >>= f) s = match m s with
      | (.ok a, s') => f a s'
      | (.error e, s') => (.error e, s') := rfl
theorem bind_ok {m : M σ α} {f : α → M σ β} {s s' : σ} {a : α} (h : m s = (.ok a, s')) :
    (m >>= f) s = f a s' := by rw [bind_run, h]
theorem bind_error {m : M σ α} {f : α → M σ β} {s s' : σ} {e : Fault} (h : m s = (.error e, s')) :
    (m >>= f) s = (.error e, s') := by rw [bind_run, h]

end M

section arith
variable [Cfg]

theorem two_isizeMax : 2 * isizeMax + 1 = usizeMax := by
  unfold isizeMax usizeMax
  have h := Cfg.bits_ge
  obtain ⟨k, hk⟩ : ∃ k, Cfg.bits = k + 1 := ⟨Cfg.bits - 1, by omega⟩
  rw [hk, Nat.add_sub_cancel, Nat.pow_succ]
  have : 0 < 2 ^ k := Nat.pow_pos (by decide)
  omega

theorem isizeMax_pos : 32767 ≤ isizeMax := by
  unfold isizeMax
  have h := Cfg.bits_ge
  have : 2 ^ 15 ≤ 2 ^ (Cfg.bits - 1) := Nat.pow_le_pow_right (by decide) (by omega)
  omega

theorem uadd_ok {a b : Nat} (h : a + b ≤ usizeMax) : uadd a b = .ok (a + b) := by
  simp [uadd, h]

theorem usub_ok {a b : Nat} (h : b ≤ a) : usub a b = .ok (a - b) := by
  simp [usub, h]

end arith
end Rust
