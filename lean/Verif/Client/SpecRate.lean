import Verif.CB.Spec
/-!
# Specification vocabulary: a client that limits how many events it admits

The client remembers the times of the latest admitted events in a `CircularBuffer`. The crate has no such type; the functions
are what a client writes.
-/

open Rust CB
namespace Client

variable [Cfg] [Elem Nat]

/-- ```
fn admit(buf: &mut CircularBuffer<usize>, window: usize, now: usize) -> bool {
    if buf.is_full() {
        match buf.first() {
            None => return false,
            Some(oldest) => if now - oldest < window { return false; }
        }
    }
    buf.push_back(now);
    true
}
``` -/
def admit (window now : Nat) : M (St Nat) Bool := do
  if ← self_ Buf.isFull then
    match ← self_ Buf.first with
    | none => return false
    | some oldest =>
      if (← M.lift (usub now oldest)) < window then
        return false
      else
        pushBack now
        return true
  else
    pushBack now
    return true

/-- `times.map(|now| admit(&mut buf, window, now)).collect()` -/
def admitAll (window : Nat) : List Nat → M (St Nat) (List Bool)
  | [] => pure []
  | now :: times => do
    let flag ← admit window now
    let flags ← admitAll window times
    pure (flag :: flags)

/-- the times of the admitted events -/
def admitted (times : List Nat) (flags : List Bool) : List Nat := ((times.zip flags).filter (·.2)).map (·.1)

/-- no stretch of time as long as the window contains more than `limit` events -/
def AtMost (limit window : Nat) (events : List Nat) : Prop :=
  ∀ t, (events.countP fun x => decide (t ≤ x ∧ x < t + window)) ≤ limit

end Client
