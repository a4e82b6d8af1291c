import Verif.Client.SpecWindow
/-!
# Specification vocabulary: a client that searches for rearrangements of a pattern

The client of `SpecWindow.lean` with a buffer as long as the pattern; after each item it compares the counts of the window
with those of the pattern. The crate has no such function; it is what a client writes.
-/

open Rust
namespace Client

variable {α : Type} [Cfg] [CB.Elem α] [DecidableEq α]

/-- ```
for x in text {
    window.feed(x);
    i += 1;
    if window.counts == counts { found.push(i - n) }
}
``` -/
def scan (counts : Cnt.Counter α) (n : Nat) : List α → Nat → M (Window α) (List Nat)
  | [], _ => return []
  | x :: text, i => do
    feed x
    let i ← M.lift (uadd i 1)
    if (← M.get).counts.eq counts then
      let s ← M.lift (usub i n)
      return s :: (← scan counts n text i)
    else scan counts n text i

/-- ```
let counts: Counter<_> = pattern.iter().cloned().collect();
let mut window = Window { buf: CircularBuffer::with_capacity(pattern.len()), counts: Counter::new() };
/* scan */
``` -/
def rearranged (pattern text : List α) : Except Fault (List Nat) := do
  let counts ← Cnt.Counter.fromIter pattern
  let cb ← CB.withCapacity pattern.length
  (scan counts pattern.length text 0 ⟨⟨cb, []⟩, Cnt.Counter.new⟩).1

end Client
