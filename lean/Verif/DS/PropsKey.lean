import Verif.DS.SimKey
/-!
# C91: which value a disjoint set keeps for values that compare equal

Values are compared by `key`; values with equal keys need not be the same. What is kept is what iteration shows.
`first key k xs` is the first value in `xs` with key `k`. `offers` lists the values the calls of a history store or
find already stored since the last `clear`, in the order of the calls.
-/

open Rust
namespace DS.Key

section
variable {T K : Type} [DecidableEq K] {key : T → K} {clone : T → T} [Cfg]

/-- C91: with keys in place of values, every answer in a history is the one expected of the history of keys: no
answer depends on which of two values that compare equal was passed. -/
theorem c91_answers (hc : Faithful key clone) {k : Nat} (hk : 64 ≤ k) {st : Start T} {ops : List (Op T)}
    (small : ∀ pre, pre <+: ops.map (opKeys key) → ((startKeys key st).abs.run pre).card ≤ usizeMax) :
    ∃ s0, make key clone st = .ok s0 ∧
      Answers (startKeys key st).abs (ops.map (opKeys key)) ((run key clone k ops s0).1.map (·.map (outKeys key))) := by
  obtain ⟨s0, h0, _⟩ := keeps_make (key := key) (clone := clone) st
  refine ⟨s0, h0, ?_⟩
  obtain ⟨ops', h1, h2⟩ := run_sim hc k ops s0
  obtain ⟨t0, h3, h4⟩ := c56_all_answers (st := startKeys key st) (ops := ops') hk (by
    intro pre hp
    obtain ⟨pre', hp', hs⟩ := same_prefix h1 hp
    rw [same_run hs]; exact small pre' hp')
  rw [make_sim hc, h0] at h3
  cases h3
  rw [h2] at h4
  exact same_answers h1 h4

/-- C91: constructors succeed, and whenever iteration after a history shows groups, it shows for every key the first
value with that key that was offered since the last `clear`, once, and nothing else. Later values that compare equal
are dropped, by `make_set`, `union` and `extend` alike. -/
theorem c91_iterate (key : T → K) (clone : T → T) (k : Nat) (st : Start T) (ops : List (Op T)) :
    ∃ s0, make key clone st = .ok s0 ∧
      ∀ (o : Shuffle (T × Nat)) (o' : Shuffle (Nat × List T)) (gs : List (List T)),
        (step key clone k (.iterate o o') (run key clone k ops s0).2).1 = .ok (.groups gs) →
        (gs.flatten.map key).Nodup ∧
        ∀ x, x ∈ gs.flatten ↔ first key (key x) (ops.foldl (offers clone) (startOffers clone st)) = some x := by
  obtain ⟨s0, h0, h1⟩ := keeps_make (key := key) (clone := clone) st
  refine ⟨s0, h0, fun o o' gs h => ?_⟩
  have hr := keeps_run (clone := clone) h1 k ops
  generalize (run key clone k ops s0).2 = s at h hr
  have hi : ∃ s', iterate k o.f o'.f s = (.ok gs, s') := by
    rw [step, wrap] at h
    generalize iterate k o.f o'.f s = q at h
    obtain ⟨r, s'⟩ := q
    cases r with
    | error e => cases h
    | ok g => cases h; exact ⟨s', rfl⟩
  obtain ⟨s', hi⟩ := hi
  have hp := iterate_flat hi
  refine ⟨?_, fun x => by rw [hp.mem_iff, hr.mem x]⟩
  rw [(hp.map key).nodup_iff, List.map_map]
  exact hr.valid

/-- C91: what is kept depends only on the values offered: the capacities asked for, the queries, the panics after the
last value was stored, iteration and its orders make no difference. -/
theorem c91_kept (key : T → K) (clone : T → T) (k : Nat) (st : Start T) (ops : List (Op T)) :
    ∃ s0, make key clone st = .ok s0 ∧
      ∀ x, kept key (run key clone k ops s0).2 x =
        first key x (ops.foldl (offers clone) (startOffers clone st)) := by
  obtain ⟨s0, h0, h1⟩ := keeps_make (key := key) (clone := clone) st
  exact ⟨s0, h0, (keeps_run h1 k ops).kept⟩

/-- C91: a value that is kept stays until `clear`: no other call replaces it by a value that compares equal. -/
theorem c91_until_clear (key : T → K) (clone : T → T) (k : Nat) (st : Start T) (ops more : List (Op T))
    (hm : ∀ op ∈ more, op.isClear = false) :
    ∃ s0, make key clone st = .ok s0 ∧ ∀ x, kept key (run key clone k ops s0).2 (key x) = some x →
      kept key (run key clone k (ops ++ more) s0).2 (key x) = some x := by
  obtain ⟨s0, h0, h1⟩ := keeps_make (key := key) (clone := clone) st
  refine ⟨s0, h0, fun x hx => ?_⟩
  rw [(keeps_run h1 k ops).kept] at hx
  rw [(keeps_run h1 k (ops ++ more)).kept, List.foldl_append]
  obtain ⟨ys, hy⟩ := offers_run_append (clone := clone) more hm (ops.foldl (offers clone) (startOffers clone st))
  rw [hy, first_append, hx]; rfl

end

/-! ## cases -/
namespace Demo
open DS.Demo

/-- a key and a label: equal when the keys are -/
abbrev Lbl := Nat × Nat
/-- compares the first component -/
abbrev by1 : Lbl → Nat := (·.1)
/-- a clone that changes what is not compared -/
abbrev relabel : Lbl → Lbl := fun x => (x.1, x.2 + 100)

theorem relabel_faithful : Faithful by1 relabel := fun _ => rfl

/-- values with equal keys come in through every method; a union panics in its second key -/
def ops : List (Op Lbl) :=
  [.union (1, 0) (2, 0) false false, .makeSet (2, 1) false, .union (3, 1) (1, 1) false false,
   .extendRef 0 false [(3, 2), (4, 2)] false, .union (5, 3) (9, 3) false true, .inUnion (4, 7) (1, 7) false false,
   .iterate rev same, .extend 0 false [(5, 4), (6, 4)] true]

/-- what `from_iter` makes -/
def start : DSet Lbl := ⟨⟨[((7, 0), 0)]⟩, [⟨0, 0⟩]⟩
/-- what the history leaves -/
def last : DSet Lbl :=
  ⟨⟨[((6, 4), 6), ((5, 3), 5), ((4, 102), 4), ((3, 1), 3), ((2, 0), 2), ((1, 0), 1), ((7, 0), 0)]⟩,
   [⟨0, 0⟩, ⟨1, 1⟩, ⟨1, 0⟩, ⟨1, 0⟩, ⟨4, 0⟩, ⟨5, 0⟩, ⟨6, 0⟩]⟩
theorem start_made : make by1 relabel (.fromIter [(7, 0), (7, 1)]) = .ok start := rfl
theorem last_made : (run by1 relabel 64 ops start).2 = last := by decide +kernel

end Demo

open DS.Demo Demo in
example : Faithful by1 relabel ∧
    (∀ pre, pre <+: ops.map (opKeys by1) → ((startKeys by1 (.fromIter [(7, 0), (7, 1)])).abs.run pre).card ≤ usizeMax) ∧
    make by1 relabel (.fromIter [(7, 0), (7, 1)]) = .ok start ∧ (run by1 relabel 64 ops start).2 = last ∧
    (step by1 relabel 64 (.iterate same same) last).1 =
      .ok (.groups [[(7, 0)], [(3, 1), (2, 0), (1, 0)], [(4, 102)], [(5, 3)], [(6, 4)]]) ∧
    ops.foldl (offers relabel) [(7, 0), (7, 1)] =
      [(7, 0), (7, 1), (1, 0), (2, 0), (2, 1), (3, 1), (1, 1), (3, 102), (4, 102), (5, 3), (5, 4), (6, 4)] ∧
    ∀ op ∈ ops, op.isClear = false :=
  ⟨relabel_faithful, small_of_size _ _ (by decide), start_made, last_made, by decide, rfl, by
    simp [ops, Op.isClear]⟩

end DS.Key
