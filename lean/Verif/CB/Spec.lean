import Verif.CB.Model
/-!
# Specification: a bounded deque

A capacity and a list, front first. The specification never mentions slots or positions. It also says
which values are dropped, and what is left when an element's destructor panics.
-/

open Rust
namespace CB

/-- The calls a client can make on one buffer. -/
inductive Op (α : Type) where
  | pushBack (v : α)
  | pushFront (v : α)
  | popBack
  | popFront
  | clear
  | resize (capacity : Nat)
  /-- `extend(iter)` where the iterator yields `items` and then, if `panics`, panics -/
  | extend (items : List α) (panics : Bool)
  /-- `extend(&items)` where `clone` is the element's `Clone` -/
  | extendRef (clone : α → Except Fault α) (items : List α) (panics : Bool)
  /-- `drain().take(k).collect()` -/
  | drain (k : Nat)
  | linearize
  | swap (a b : Nat)
  | reverse
  /-- `mem::replace(&mut cb[i], v)` -/
  | replaceAt (i : Nat) (v : α)
  /-- `cb.first_mut().map(|p| mem::replace(p, v))` -/
  | replaceFirst (v : α)
  /-- `cb.last_mut().map(|p| mem::replace(p, v))` -/
  | replaceLast (v : α)
  /-- replaces the elements visited by `iter_mut()` by `vs`, as far as both go -/
  | replaceIter (vs : List α)
  | len
  | capacity
  | isEmpty
  | isFull
  | first
  | last
  | index (i : Nat)
  /-- `iter().collect()` -/
  | iter

/-- What a call returns. -/
inductive Out (α : Type) where
  | unit
  | num (n : Nat)
  | flag (b : Bool)
  | elem (v : α)
  | opt (v : Option α)
  | seq (vs : List α)
deriving Repr, DecidableEq

/-- The modelled method behind each call. -/
def step {α : Type} [Cfg] [Elem α] : Op α → M (St α) (Out α)
  | .pushBack v => do pushBack v; return .unit
  | .pushFront v => do pushFront v; return .unit
  | .popBack => do return .opt (← popBack)
  | .popFront => do return .opt (← popFront)
  | .clear => do clear; return .unit
  | .resize n => do resize n; return .unit
  | .extend items p => do extend items p; return .unit
  | .extendRef c items p => do extendRef c items p; return .unit
  | .drain k => do return .seq (← drainTake k)
  | .linearize => do return .seq (← linearize)
  | .swap a b => do swap a b; return .unit
  | .reverse => do reverse; return .unit
  | .replaceAt i v => do return .elem (← replaceAt i v)
  | .replaceFirst v => do return .opt (← replaceFirst v)
  | .replaceLast v => do return .opt (← replaceLast v)
  | .replaceIter vs => do return .seq (← replaceIter vs)
  | .len => do return .num (← self_ Buf.len)
  | .capacity => do return .num (← self_ Buf.capacity)
  | .isEmpty => do return .flag (← self_ fun cb => .ok cb.isEmpty)
  | .isFull => do return .flag (← self_ Buf.isFull)
  | .first => do return .opt (← self_ Buf.first)
  | .last => do return .opt (← self_ Buf.last)
  | .index i => do return .elem (← self_ fun cb => cb.index i)
  | .iter => do return .seq (← self_ Buf.contents)

/-- A capacity at the end of the address space that still works: without overflow checks the sums in `len`
and `internal_index` wrap around, which nobody can see if all elements are the same, as is the case for the
zero-sized types of Rust. -/
def Wide [Cfg] (α : Type) (n : Nat) : Prop :=
  Cfg.overflowChecks = false ∧ Subsingleton α ∧ n < usizeMax

/-- Runs calls one after the other. A panic is caught by the client, who goes on using the buffer; an
abort ends the process. Returns what each executed call returned. -/
def run {α : Type} [Cfg] [Elem α] : List (Op α) → St α → List (Except Fault (Out α)) × St α
  | [], s => ([], s)
  | op :: ops, s =>
    match step op s with
    | (.error .abort, s') => ([.error .abort], s')
    | (r, s') => let (rs, s'') := run ops s'; (r :: rs, s'')

namespace Spec

/-- The specification state. -/
structure Deque (α : Type) where
  cap : Nat
  items : List α
deriving Repr, DecidableEq

/-- Result of one specified call: what it returns, the new deque, the values it drops, in order. -/
structure Result (α β : Type) where
  ret : Except Fault β
  deque : Deque α
  dropped : List α

variable {α : Type} [Elem α]

/-- Drops values in order up to and including the first one whose destructor panics: the dropped ones,
the survivors, whether there was a panic. -/
def dropSeq : List α → List α × List α × Bool
  | [] => ([], [], false)
  | x :: xs =>
    if Elem.dropPanics x then ([x], xs, true)
    else let (d, r, p) := dropSeq xs; (x :: d, r, p)

/-- panic of a user destructor -/
def userIf (p : Bool) : Except Fault Unit := if p then .error .user else .ok ()

/-- Append, evicting the front element when full. If the evicted value's destructor panics, the new value
is dropped during unwinding instead of being stored. -/
def pushBack (d : Deque α) (v : α) : Result α Unit :=
  if d.cap = 0 then ⟨userIf (Elem.dropPanics v), d, [v]⟩
  else if d.items.length < d.cap then ⟨.ok (), { d with items := d.items ++ [v] }, []⟩
  else match d.items with
    | [] => ⟨.ok (), { d with items := [v] }, []⟩
    | x :: xs =>
      if Elem.dropPanics x then
        ⟨.error (if Elem.dropPanics v then .abort else .user), { d with items := xs }, [x, v]⟩
      else ⟨.ok (), { d with items := xs ++ [v] }, [x]⟩

/-- Prepend, evicting the back element when full. -/
def pushFront (d : Deque α) (v : α) : Result α Unit :=
  if d.cap = 0 then ⟨userIf (Elem.dropPanics v), d, [v]⟩
  else if d.items.length < d.cap then ⟨.ok (), { d with items := v :: d.items }, []⟩
  else match d.items.getLast? with
    | none => ⟨.ok (), { d with items := [v] }, []⟩
    | some x =>
      if Elem.dropPanics x then
        ⟨.error (if Elem.dropPanics v then .abort else .user), { d with items := d.items.dropLast }, [x, v]⟩
      else ⟨.ok (), { d with items := v :: d.items.dropLast }, [x]⟩

/-- Remove everything, back to front. -/
def clear (d : Deque α) : Result α Unit :=
  let (dr, rest, p) := dropSeq d.items.reverse
  ⟨userIf p, { d with items := rest.reverse }, dr⟩

/-- Keep the newest `n` elements. -/
def resize [Cfg] (d : Deque α) (n : Nat) : Result α Unit :=
  if (n + 1) * Elem.size α > isizeMax then ⟨.error .capacityOverflow, d, []⟩
  else
    let k := d.items.length - n
    let (dr, rest, p) := dropSeq (d.items.take k)
    if p then ⟨.error .user, { d with items := rest ++ d.items.drop k }, dr⟩
    else ⟨.ok (), { cap := n, items := d.items.drop k }, dr⟩

/-- `push_back` one after the other until one panics. -/
def extend (d : Deque α) : List α → Bool → Result α Unit
  | [], p => ⟨userIf p, d, []⟩
  | v :: vs, p =>
    let r := pushBack d v
    match r.ret with
    | .error e => ⟨.error e, r.deque, r.dropped⟩
    | .ok () =>
      let r' := extend r.deque vs p
      ⟨r'.ret, r'.deque, r.dropped ++ r'.dropped⟩

/-- The clones `extend(&items)` gets to make, and the fault that stops it after them. -/
def clonePrefix (c : α → Except Fault α) (p : Bool) : List α → List α × Option Fault
  | [] => ([], if p then some .user else none)
  | x :: xs =>
    match c x with
    | .error e => ([], some e)
    | .ok y => let (ys, q) := clonePrefix c p xs; (y :: ys, q)

/-- `extend` by a sequence that ends in a given fault -/
def extendF (d : Deque α) (vs : List α) (f : Option Fault) : Result α Unit :=
  let r := extend d vs false
  match r.ret with
  | .error e => ⟨.error e, r.deque, r.dropped⟩
  | .ok () => ⟨match f with | some e => .error e | none => .ok (), r.deque, r.dropped⟩

/-- The specified behaviour of each call. -/
def step [Cfg] (d : Deque α) : Op α → Result α (Out α)
  | .pushBack v => let r := pushBack d v; ⟨r.ret.map fun _ => .unit, r.deque, r.dropped⟩
  | .pushFront v => let r := pushFront d v; ⟨r.ret.map fun _ => .unit, r.deque, r.dropped⟩
  | .popBack => ⟨.ok (.opt d.items.getLast?), { d with items := d.items.dropLast }, []⟩
  | .popFront => ⟨.ok (.opt d.items.head?), { d with items := d.items.tail }, []⟩
  | .clear => let r := clear d; ⟨r.ret.map fun _ => .unit, r.deque, r.dropped⟩
  | .resize n => let r := resize d n; ⟨r.ret.map fun _ => .unit, r.deque, r.dropped⟩
  | .extend items p => let r := extend d items p; ⟨r.ret.map fun _ => .unit, r.deque, r.dropped⟩
  | .extendRef c items p =>
    let r := extendF d (clonePrefix c p items).1 (clonePrefix c p items).2
    ⟨r.ret.map fun _ => .unit, r.deque, r.dropped⟩
  | .drain k => ⟨.ok (.seq (d.items.take k)), { d with items := d.items.drop k }, []⟩
  | .linearize => ⟨.ok (.seq d.items), d, []⟩
  | .swap a b =>
    match d.items[a]?, d.items[b]? with
    | some x, some y => ⟨.ok .unit, { d with items := (d.items.set a y).set b x }, []⟩
    | _, _ => ⟨.error .explicit, d, []⟩
  | .reverse => ⟨.ok .unit, { d with items := d.items.reverse }, []⟩
  | .replaceAt i v =>
    match d.items[i]? with
    | some x => ⟨.ok (.elem x), { d with items := d.items.set i v }, []⟩
    | none => ⟨.error .explicit, d, []⟩
  | .replaceFirst v => ⟨.ok (.opt d.items.head?), { d with items := d.items.set 0 v }, []⟩
  | .replaceLast v =>
    ⟨.ok (.opt d.items.getLast?), { d with items := d.items.set (d.items.length - 1) v }, []⟩
  | .replaceIter vs =>
    ⟨.ok (.seq (d.items.take vs.length)),
      { d with items := vs.take d.items.length ++ d.items.drop vs.length }, []⟩
  | .len => ⟨.ok (.num d.items.length), d, []⟩
  | .capacity => ⟨.ok (.num d.cap), d, []⟩
  | .isEmpty => ⟨.ok (.flag d.items.isEmpty), d, []⟩
  | .isFull => ⟨.ok (.flag (d.items.length == d.cap)), d, []⟩
  | .first => ⟨.ok (.opt d.items.head?), d, []⟩
  | .last => ⟨.ok (.opt d.items.getLast?), d, []⟩
  | .index i =>
    match d.items[i]? with
    | some x => ⟨.ok (.elem x), d, []⟩
    | none => ⟨.error .explicit, d, []⟩
  | .iter => ⟨.ok (.seq d.items), d, []⟩

/-- The specified behaviour of a sequence of calls. -/
def run [Cfg] : List (Op α) → Deque α → List (Except Fault (Out α)) × Deque α × List α
  | [], d => ([], d, [])
  | op :: ops, d =>
    let r := step d op
    match r.ret with
    | .error .abort => ([.error .abort], r.deque, r.dropped)
    | ret =>
      let (rs, d', dr) := run ops r.deque
      (ret :: rs, d', r.dropped ++ dr)

end Spec

/-- The newest `n` values of a sequence. -/
def lastN {α : Type} (n : Nat) (xs : List α) : List α := xs.drop (xs.length - n)

end CB
