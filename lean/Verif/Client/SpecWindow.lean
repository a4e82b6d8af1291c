import Verif.CB.Spec
import Verif.Cnt.Spec
import Verif.Itv.SpecFold
/-!
# Specification vocabulary: a client that keeps statistics of the latest items of a stream

The client holds a `CircularBuffer` with the latest items and a `Counter` of them. The crate has no such type; the
functions are what a client writes.
-/

open Rust
namespace Client

/-- `struct Window<T> { buf: CircularBuffer<T>, counts: Counter<T> }`; of the buffer also the values it dropped -/
structure Window (α : Type) where
  st : CB.St α
  counts : Cnt.Counter α

variable {α : Type} [Cfg] [CB.Elem α] [DecidableEq α]

/-- a call on the buffer -/
def onBuf {β : Type} (m : M (CB.St α) β) : M (Window α) β := fun w =>
  let (r, s) := m w.st
  (r, { w with st := s })

/-- a call on the counter -/
def onCounts {β : Type} (m : M (Cnt.Counter α) β) : M (Window α) β := fun w =>
  let (r, c) := m w.counts
  (r, { w with counts := c })

/-- ```
if self.buf.is_full() {
    if let Some(old) = self.buf.pop_front() {
        self.counts -= Counter::from_iter(iter::once(old));
    }
}
self.counts.push(x.clone());
self.buf.push_back(x);
``` -/
def feed (x : α) : M (Window α) Unit := do
  if ← onBuf (CB.self_ CB.Buf.isFull) then
    match ← onBuf CB.popFront with
    | some old =>
      let one ← M.lift (Cnt.Counter.fromIter [old])
      onCounts (Cnt.Counter.subAssign one.counter.entries false)
    | none => pure ()
  onCounts (Cnt.Counter.push x)
  onBuf (CB.pushBack x)

/-- the items of a stream, one after the other -/
def feedAll : List α → M (Window α) Unit
  | [] => pure ()
  | x :: xs => do
    feed x
    feedAll xs

end Client
