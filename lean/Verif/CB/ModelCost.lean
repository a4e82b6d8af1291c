import Verif.CB.Spec
/-!
# What the methods of `CircularBuffer` cost

The methods of `CB/Model.lean` again, with what they spend carried along: steps, and requests for memory. A step is a
piece of code without loops: arithmetic on the fields, access to one slot, the call of a destructor or of a `clone`, one
step of an iterator. `slice::rotate_left` (std) takes a step for each slot. A request for memory is recorded with the
number of slots asked for. `shrink_to_fit` and `into_boxed_slice` on a vector that is as long as the capacity asked for
are no requests (`Vec::with_capacity` is taken to give what was asked for).

Not recorded: requests of the constructors from iterators and vectors, and giving memory back.
-/

open Rust
namespace CB.Cost

variable {α : Type} [Cfg] [Elem α]

/-- what was spent -/
structure Spent where
  steps : Nat := 0
  requests : List Nat := []
deriving DecidableEq, Repr

/-- a buffer, the values dropped, and what was spent -/
abbrev State (α : Type) := St α × Spent

/-- `k` steps that do what `m` does -/
def paid {β : Type} (k : Nat) (m : M (St α) β) : M (State α) β := fun s =>
  let (r, t) := m s.1
  (r, t, { s.2 with steps := s.2.steps + k })

/-- `Vec::with_capacity(n)` (std): refuses without asking, or asks for `n` slots -/
def request (n : Nat) : M (State α) Unit := fun s =>
  match allocCheck α n with
  | .ok () => (.ok (), s.1, { s.2 with requests := s.2.requests ++ [n] })
  | .error e => (.error e, s)

/-- circular.rs:709-715 `incr_end` -/
def incrEnd : M (State α) Unit := do
  paid 1 (debugAssert notFull)
  let e ← paid 1 (self_ fun cb => uadd cb.end_ 1)
  paid 1 (setBuf fun cb => { cb with end_ := e })
  paid 1 (setBuf fun cb => if cb.end_ = cb.buf.length then { cb with end_ := 0 } else cb)

/-- circular.rs:717-724 `decr_end` -/
def decrEnd : M (State α) Unit := do
  paid 1 (debugAssert notEmpty)
  let e ← paid 1 (self_ fun cb => if cb.end_ = 0 then usub cb.buf.length 1 else usub cb.end_ 1)
  paid 1 (setBuf fun cb => { cb with end_ := e })

/-- circular.rs:726-732 `incr_start` -/
def incrStart : M (State α) Unit := do
  paid 1 (debugAssert notEmpty)
  let e ← paid 1 (self_ fun cb => uadd cb.start 1)
  paid 1 (setBuf fun cb => { cb with start := e })
  paid 1 (setBuf fun cb => if cb.start = cb.buf.length then { cb with start := 0 } else cb)

/-- circular.rs:734-741 `decr_start` -/
def decrStart : M (State α) Unit := do
  paid 1 (debugAssert notFull)
  let e ← paid 1 (self_ fun cb => if cb.start = 0 then usub cb.buf.length 1 else usub cb.start 1)
  paid 1 (setBuf fun cb => { cb with start := e })

/-- circular.rs:743-748 `pop_at` -/
def popAt (index : Nat) : M (State α) α := do
  let hole ← paid 1 (M.lift (uninit α))
  let v ← paid 1 (self_ fun cb => readCell cb.buf index)
  paid 1 (setBuf fun cb => { cb with buf := cb.buf.set index hole })
  return v

/-- circular.rs:750-753 `push_at` -/
def pushAt (val : α) (index : Nat) : M (State α) Unit := do
  let _ ← paid 1 (self_ fun cb => if index < cb.buf.length then .ok () else .error .indexOutOfBounds)
  paid 1 (setBuf fun cb => { cb with buf := cb.buf.set index (some val) })

/-- circular.rs:315-322 `pop_back` -/
def popBack : M (State α) (Option α) := do
  if ← paid 1 (self_ fun cb => .ok cb.isEmpty) then
    return none
  else
    decrEnd
    let v ← popAt (← paid 1 (self_ fun cb => .ok cb.end_))
    return some v

/-- circular.rs:341-349 `pop_front` -/
def popFront : M (State α) (Option α) := do
  if ← paid 1 (self_ fun cb => .ok cb.isEmpty) then
    return none
  else
    let tmp ← popAt (← paid 1 (self_ fun cb => .ok cb.start))
    incrStart
    return some tmp

/-- drop an `Option<T>` temporary -/
def dropOpt (v : Option α) : M (State α) Unit := paid 1 (CB.dropOpt v)

/-- run `m` while owning the local `x`: unwinding drops it -/
def owning {β : Type} (x : α) (m : M (State α) β) : M (State α) β := fun s =>
  match m s with
  | (.ok b, s') => (.ok b, s')
  | (.error e, s') =>
    (.error (if Elem.dropPanics x then .abort else e), { s'.1 with dropped := s'.1.dropped ++ [x] },
      { s'.2 with steps := s'.2.steps + 1 })

/-- circular.rs:250-260 `push_back` -/
def pushBack (val : α) : M (State α) Unit := do
  let go ← owning val do
    if ← paid 1 (self_ Buf.isFull) then
      if (← paid 1 (self_ Buf.capacity)) = 0 then
        return false
      else
        dropOpt (← popFront)
        return true
    else
      return true
  if go then
    pushAt val (← paid 1 (self_ fun cb => .ok cb.end_))
    incrEnd
  else
    paid 1 (dropVal val)

/-- circular.rs:286-296 `push_front` -/
def pushFront (val : α) : M (State α) Unit := do
  let go ← owning val do
    if ← paid 1 (self_ Buf.isFull) then
      if (← paid 1 (self_ Buf.capacity)) = 0 then
        return false
      else
        dropOpt (← popBack)
        decrStart
        return true
    else
      decrStart
      return true
  if go then
    pushAt val (← paid 1 (self_ fun cb => .ok cb.start))
  else
    paid 1 (dropVal val)

/-- the loop of circular.rs:367-369 -/
def clearLoop : Nat → M (State α) Unit
  | 0 => M.throw .diverge
  | fuel + 1 => do
    match ← popBack with
    | none => return ()
    | some v =>
      paid 1 (dropVal v)
      clearLoop fuel

/-- circular.rs:366-370 `clear` -/
def clear : M (State α) Unit := fun s => clearLoop (s.1.cb.buf.length + 1) s

/-- `Skip::next` on a `Drain` (std, iter.rs:26-32) -/
def skipLoop : Nat → M (State α) Unit
  | 0 => return ()
  | n + 1 => do
    match ← popFront with
    | none => return ()
    | some v =>
      paid 1 (dropVal v)
      skipLoop n

/-- `Vec::extend` from a `Drain` (iter.rs:26-32): the vector has room for everything, so no memory is asked for -/
def collectLoop : Nat → M (State α) (List α)
  | 0 => M.throw .diverge
  | fuel + 1 => do
    match ← popFront with
    | none => return []
    | some v => return v :: (← collectLoop fuel)

/-- circular.rs:165-181 `resize`. The vector is full when it is made a boxed slice, so `shrink_to_fit` and
`into_boxed_slice` ask for nothing. -/
def resize (capacity : Nat) : M (State α) Unit := do
  let n ← paid 1 (M.lift (uadd capacity 1))
  request n
  let l ← paid 1 (self_ Buf.len)
  let toBeSkipped ← paid 1 (M.lift (if l > capacity then usub l capacity else .ok 0))
  skipLoop toBeSkipped
  let slots ← paid 0 (self_ fun cb => .ok cb.buf.length)
  let newBuf ← collectLoop (slots + 1)
  let elemNum := newBuf.length
  let extra ← paid 1 (M.lift (do uadd (← usub capacity newBuf.length) 1))
  let fill ← paid extra (M.lift (uninits α extra))
  paid 0 (M.lift (allocCheck α (elemNum + extra)))
  paid 1 (setBuf fun _ => { buf := newBuf.map some ++ fill, start := 0, end_ := elemNum })

/-- circular.rs:824-831 `Extend<T>::extend` -/
def extend : List α → Bool → M (State α) Unit
  | [], panics => if panics then M.throw .user else pure ()
  | el :: rest, panics => do
    pushBack el
    extend rest panics

/-- circular.rs:833-840 `Extend<&T>::extend` -/
def extendRef (clone : α → Except Fault α) : List α → Bool → M (State α) Unit
  | [], panics => if panics then M.throw .user else pure ()
  | el :: rest, panics => do
    pushBack (← paid 1 (M.lift (clone el)))
    extendRef clone rest panics

/-- circular.rs:644-650 `linearize` -/
def linearize : M (State α) (List α) := fun s => (do
  let b ← paid s.1.cb.buf.length (self_ fun cb => rotateLeft cb.buf cb.start)
  paid 1 (setBuf fun cb => { cb with buf := b })
  let l ← paid 1 (self_ Buf.len)
  paid 1 (setBuf fun cb => { cb with end_ := l })
  paid 1 (setBuf fun cb => { cb with start := 0 })
  paid 1 (self_ fun cb => do asInit (← sliceRange cb.buf 0 cb.end_))) s

/-- circular.rs:669-671 `swap` -/
def swap (a b : Nat) : M (State α) Unit := do
  let buf ← paid 3 (self_ fun cb => do
    let i ← cb.internalIndex a
    let j ← cb.internalIndex b
    sliceSwap cb.buf i j)
  paid 1 (setBuf fun cb => { cb with buf := buf })

/-- the loop of circular.rs:689-692 -/
def reverseLoop : List Nat → M (State α) Unit
  | [] => return ()
  | a :: as => do
    let b ← paid 1 (self_ fun cb => do usub (← usub (← cb.len) a) 1)
    let buf ← paid 3 (self_ fun cb => do
      let i ← cb.internalIndex a
      let j ← cb.internalIndex b
      sliceSwap cb.buf i j)
    paid 1 (setBuf fun cb => { cb with buf := buf })
    reverseLoop as

/-- circular.rs:688-693 `reverse` -/
def reverse : M (State α) Unit := do
  let l ← paid 1 (self_ Buf.len)
  reverseLoop (List.range (l / 2))

/-- `mem::replace(place, v)` for a place in the backing slice -/
def replacePos (pos : Nat) (v : α) : M (State α) α := do
  let old ← paid 1 (self_ fun cb => readCell cb.buf pos)
  paid 1 (setBuf fun cb => { cb with buf := cb.buf.set pos (some v) })
  return old

/-- circular.rs:770-774 `IndexMut::index_mut`, and `mem::replace` -/
def replaceAt (i : Nat) (v : α) : M (State α) α := do
  replacePos (← paid 1 (self_ fun cb => cb.internalIndex i)) v

/-- circular.rs:502-508 `first_mut`, and `mem::replace` -/
def replaceFirst (v : α) : M (State α) (Option α) := do
  if ← paid 1 (self_ fun cb => .ok cb.isEmpty) then
    return none
  else
    let old ← replacePos (← paid 1 (self_ fun cb => cb.internalIndex 0)) v
    return some old

/-- circular.rs:551-557 `last_mut`, and `mem::replace` -/
def replaceLast (v : α) : M (State α) (Option α) := do
  if ← paid 1 (self_ fun cb => .ok cb.isEmpty) then
    return none
  else
    let old ← replacePos (← paid 2 (self_ fun cb => do cb.internalIndex (← usub (← cb.len) 1))) v
    return some old

/-- writes through successive places -/
def replaceEach : List Nat → List α → M (State α) (List α)
  | pos :: ps, v :: vs => do
    let old ← replacePos pos v
    return old :: (← replaceEach ps vs)
  | _, _ => return []

/-- circular.rs:411-414 `iter_mut`, observed by replacing the first `vs.length` visited elements by `vs` -/
def replaceIter (vs : List α) : M (State α) (List α) := do
  replaceEach (← paid 2 (self_ Buf.iterMut)) vs

/-- `drain().take(k).collect()` (circular.rs:457-459 `drain`, iter.rs:26-32, std `Take`) -/
def drainTake : Nat → M (State α) (List α)
  | 0 => return []
  | k + 1 => do
    match ← popFront with
    | none => return []
    | some v => return v :: (← drainTake k)

/-- `iter().collect()` (circular.rs:388-392): two slices, then one step for each element -/
def iter : M (State α) (List α) := do
  let xs ← paid 2 (self_ Buf.contents)
  paid xs.length (return xs)

/-- each call of the specification, counted -/
def step : Op α → M (State α) (Out α)
  | .pushBack v => do pushBack v; return .unit
  | .pushFront v => do pushFront v; return .unit
  | .popBack => do return .opt (← popBack)
  | .popFront => do return .opt (← popFront)
  | .clear => do clear; return .unit
  | .resize n => do resize n; return .unit
  | .extend items p => do extend items p; return .unit
  | .extendRef c items p => do extendRef c items p; return .unit
  | .drain k => do return .seq (← drainTake k)
  | .linearize => do return .seq (← linearize)
  | .swap a b => do swap a b; return .unit
  | .reverse => do reverse; return .unit
  | .replaceAt i v => do return .elem (← replaceAt i v)
  | .replaceFirst v => do return .opt (← replaceFirst v)
  | .replaceLast v => do return .opt (← replaceLast v)
  | .replaceIter vs => do return .seq (← replaceIter vs)
  | .len => do return .num (← paid 1 (self_ Buf.len))
  | .capacity => do return .num (← paid 1 (self_ Buf.capacity))
  | .isEmpty => do return .flag (← paid 1 (self_ fun cb => .ok cb.isEmpty))
  | .isFull => do return .flag (← paid 1 (self_ Buf.isFull))
  | .first => do return .opt (← paid 3 (self_ Buf.first))
  | .last => do return .opt (← paid 4 (self_ Buf.last))
  | .index i => do return .elem (← paid 2 (self_ fun cb => cb.index i))
  | .iter => do return .seq (← iter)

/-- calls one after the other, panics being caught -/
def run : List (Op α) → State α → List (Except Fault (Out α)) × State α
  | [], s => ([], s)
  | op :: ops, s =>
    match step op s with
    | (.error .abort, s') => ([.error .abort], s')
    | (r, s') => let (rs, s'') := run ops s'; (r :: rs, s'')

/-- circular.rs:89-100 `with_capacity` (and circular.rs:71-73 `new`): asks for the slots, then fills them one by one -/
def withCapacity (capacity : Nat) : Except Fault (Buf α) × Spent :=
  match uadd capacity 1 with
  | .error e => (.error e, { steps := 1 })
  | .ok n =>
    match allocCheck α n with
    | .error e => (.error e, { steps := 1 })
    | .ok () =>
      match uadd capacity 1 with
      | .error e => (.error e, { steps := 2, requests := [n] })
      | .ok m =>
        match uninits α m with
        | .error e => (.error e, { steps := m + 2, requests := [n] })
        | .ok buf => (.ok { buf, start := 0, end_ := 0 }, { steps := m + 2, requests := [n] })

/-! ## two buffers -/

/-- run a method on `self` -/
def onSelf {β : Type} (m : M (State α) β) : M (St2 α × Spent) β := fun s =>
  let (r, t, k) := m (⟨s.1.self, s.1.dropped⟩, s.2)
  (r, { s.1 with self := t.cb, dropped := t.dropped }, k)
/-- run a method on `other` -/
def onOther {β : Type} (m : M (State α) β) : M (St2 α × Spent) β := fun s =>
  let (r, t, k) := m (⟨s.1.other, s.1.dropped⟩, s.2)
  (r, { s.1 with other := t.cb, dropped := t.dropped }, k)

/-- the loop of circular.rs:436-438 and 824-831 -/
def appendLoop : Nat → M (St2 α × Spent) Unit
  | 0 => M.throw .diverge
  | fuel + 1 => do
    match ← onOther popFront with
    | none => return ()
    | some el =>
      onSelf (pushBack el)
      appendLoop fuel

/-- circular.rs:436-438 `append` -/
def append : M (St2 α × Spent) Unit := fun s => appendLoop (s.1.other.buf.length + 1) s

end CB.Cost
