import Verif.Cnt.SimKey
/-!
# C90: which value a counter keeps for values that compare equal

Values are compared by `key`; values with equal keys need not be the same. `kept key c k` is the stored value with
key `k`, what `get_key_value` shows.
-/

open Rust
namespace Cnt.Key

section
variable {T K : Type} [DecidableEq K] {key : T → K} {clone : T → T} [Cfg]

/-- C90: when values that compare equal are not told apart, every call does what the theorems C45 to C55 say. -/
theorem c90_up_to_keys (hc : Faithful key clone) (call : Call T) (c : Counter T) :
    call.runKeys key (keys key c) = ((call.run key clone c).1, keys key (call.run key clone c).2) := by
  cases call with
  | push x => exact bumpK_sim x 1 c
  | extend xs p =>
    show Counter.extend (xs.map key) p (keys key c) = ((extend key xs p c).1, keys key (extend key xs p c).2)
    rw [Cnt.extend_eq, ← pairs_ones, extend_eq]; exact addLoopK_sim _ p c
  | extendRef xs p =>
    show Counter.extendRef (xs.map key) p (keys key c) =
      ((extendRef key xs p c).1, keys key (extendRef key xs p c).2)
    rw [Cnt.extendRef_eq, ← pairs_ones, extendRef_eq]; exact addLoopK_sim _ p c
  | addAssign es p =>
    show Counter.addAssign (KMap.pairs key es) p (keys key c) =
      ((addAssign key es p c).1, keys key (addAssign key es p c).2)
    rw [Cnt.addAssign_eq, addAssign_eq]; exact addLoopK_sim _ p c
  | addAssignRef es p =>
    show Counter.addAssignRef (KMap.pairs key es) p (keys key c) =
      ((addAssignRef key clone es p c).1, keys key (addAssignRef key clone es p c).2)
    rw [Cnt.addAssignRef_eq, addAssignRef_eq, ← pairs_clone hc]; exact addLoopK_sim _ p c
  | subAssign es p => exact subAssign_sim es p c
  | subAssignRef es p =>
    show Counter.subAssignRef (KMap.pairs key es) p (keys key c) =
      ((subAssignRef key clone es p c).1, keys key (subAssignRef key clone es p c).2)
    rw [Cnt.subAssignRef_eq, subAssignRef_eq, ← pairs_clone hc]; exact subAssign_sim _ p c

/-- C90: the same for the functions that make a counter, and for `==`. -/
theorem c90_made_up_to_keys (hc : Faithful key clone) (items : List T) (p : Bool) (order : List (T × Nat))
    (a b : Counter T) :
    Counter.fromIter (items.map key) p = (fromIter key items p).map (keys key) ∧
    Counter.fromIterRef (items.map key) p = (fromIterRef key clone items p).map (keys key) ∧
    Counter.add (KMap.pairs key order) (keys key a) = (add key order a).map (keys key) ∧
    Counter.addRef (KMap.pairs key order) (keys key a) = (addRef key clone order a).map (keys key) ∧
    Counter.sub (KMap.pairs key order) (keys key a) = (sub key order a).map (keys key) ∧
    Counter.subRef (KMap.pairs key order) (keys key a) = (subRef key clone order a).map (keys key) ∧
    Counter.fromMap (KMap.pairs key order) = keys key (fromMap key order) ∧
    Counter.fromMapRef (KMap.pairs key order) = keys key (fromMapRef key clone order) ∧
    (keys key a).eq (keys key b) = eq key a b := by
  refine ⟨?_, ?_, ?_, ?_, ?_, ?_, ?_, ?_, (KMap.eq_keys _ _).symm⟩
  · rw [Counter.fromIter, fromIterLoop_eq, ← pairs_ones, fromIter, extend_eq]
    exact owned_sim (addLoopK_sim _ p) new
  · rw [Counter.fromIterRef, Cnt.fromIterRefLoop_eq, fromIterRef, fromIterRefLoop_eq]
    have : items.map key = (items.map clone).map key := by simp [Function.comp_def, hc _]
    rw [this, ← pairs_ones]
    exact owned_sim (addLoopK_sim _ p) new
  · rw [add_def, add, addAssign_eq]; exact owned_sim (addLoopK_sim _ _) a
  · rw [addRef_def, addRef, addAssignRef_eq, ← pairs_clone hc]; exact owned_sim (addLoopK_sim _ _) a
  · exact owned_sim (subAssign_sim _ _) a
  · rw [subRef_def, subRef, subAssignRef_eq, ← pairs_clone hc]; exact owned_sim (subAssign_sim _ _) a
  · unfold Counter.fromMap fromMap keys; rw [KMap.fromIter_keys]
  · unfold Counter.fromMapRef fromMapRef keys
    rw [KMap.fromIter_keys, pairs_clone hc]; simp

/-- C90: what a call leaves stored: a value that is still counted is the one stored before, or else the first one
offered by the call. An overflow panic, which stops in the middle, is the next
theorem's. -/
theorem c90_kept (call : Call T) (c : Counter T)
    (h : (call.run key clone c).1 ≠ .error .overflow) (k : K) :
    kept key (call.run key clone c).2 k =
      if ((keys key (call.run key clone c).2).get k).isSome
      then (kept key c k).or (first key k (call.offers clone)) else none := by
  have hs : ∀ {o o' : Option T}, (o = o' ∨ o = none) → o = if o.isSome then o' else none := by
    rintro o o' (rfl | rfl)
    · cases o <;> rfl
    · rfl
  rw [← kept_isSome]
  apply hs
  cases call with
  | push x =>
    left
    have := bumpK_kept (key := key) x 1 c k
    rw [show first key k ((Call.push x).offers clone) = (if key x = k then some x else none) from by
      show first key k [x] = _
      rw [first_cons, show first key k [] = none from rfl, Option.or_none]]
    exact this
  | extend xs p =>
    left
    have := addLoopK_kept (key := key) (ones xs) p c (by rw [← extend_eq]; exact h) k
    rw [← extend_eq, keys_ones'] at this; exact this
  | extendRef xs p =>
    left
    have := addLoopK_kept (key := key) (ones xs) p c (by rw [← extendRef_eq]; exact h) k
    rw [← extendRef_eq, keys_ones'] at this; exact this
  | addAssign es p =>
    left
    have := addLoopK_kept (key := key) es p c (by rw [← addAssign_eq]; exact h) k
    rw [← addAssign_eq] at this; exact this
  | addAssignRef es p =>
    left
    have := addLoopK_kept (key := key) (es.map fun e => (clone e.1, e.2)) p c
      (by rw [← addAssignRef_eq]; exact h) k
    rw [← addAssignRef_eq, List.map_map] at this; exact this
  | subAssign es p =>
    rw [show first key k ((Call.subAssign es p).offers clone) = none from rfl, Option.or_none]
    exact subAssign_kept es p c k
  | subAssignRef es p =>
    rw [show first key k ((Call.subAssignRef es p).offers clone) = none from rfl, Option.or_none]
    have := subAssign_kept (key := key) (es.map fun e => (clone e.1, e.2)) p c k
    rw [← subAssignRef_eq] at this; exact this

/-- C90: an overflow panic comes from one of the values offered; what is stored then is what was stored before, and
the first of those offered up to and including that one. -/
theorem c90_kept_overflow (call : Call T) (c : Counter T)
    (h : (call.run key clone c).1 = .error .overflow) :
    ∃ n < (call.offers clone).length, ∀ k, kept key (call.run key clone c).2 k =
      (kept key c k).or (first key k ((call.offers clone).take (n + 1))) := by
  cases call with
  | push x =>
    refine ⟨0, by simp [Call.offers], fun k => ?_⟩
    have := bumpK_kept (key := key) x 1 c k
    rw [show first key k (((Call.push x).offers clone).take (0 + 1)) = (if key x = k then some x else none) from by
      show first key k [x] = _
      rw [first_cons, show first key k [] = none from rfl, Option.or_none]]
    exact this
  | extend xs p =>
    have := addLoopK_kept_overflow (key := key) (ones xs) p c (by rw [← extend_eq]; exact h)
    rw [← extend_eq, keys_ones', ones, List.length_map] at this; exact this
  | extendRef xs p =>
    have := addLoopK_kept_overflow (key := key) (ones xs) p c (by rw [← extendRef_eq]; exact h)
    rw [← extendRef_eq, keys_ones', ones, List.length_map] at this; exact this
  | addAssign es p =>
    have := addLoopK_kept_overflow (key := key) es p c (by rw [← addAssign_eq]; exact h)
    rw [← addAssign_eq, ← List.length_map (·.1)] at this; exact this
  | addAssignRef es p =>
    have := addLoopK_kept_overflow (key := key) (es.map fun e => (clone e.1, e.2)) p c
      (by rw [← addAssignRef_eq]; exact h)
    rw [← addAssignRef_eq, List.map_map, List.length_map, ← List.length_map (fun e => clone e.1)] at this
    exact this
  | subAssign es p =>
    exact absurd h (subAssign_no_overflow es p c)
  | subAssignRef es p =>
    have := subAssign_no_overflow (key := key) (es.map fun e => (clone e.1, e.2)) p c
    rw [← subAssignRef_eq] at this
    exact absurd h this

/-- C90: a counter made from items keeps the first of those that compare equal. -/
theorem c90_from_iter (hc : Faithful key clone) {items : List T} {p : Bool} {c : Counter T} (k : K) :
    (fromIter key items p = .ok c → kept key c k = first key k items) ∧
    (fromIterRef key clone items p = .ok c → kept key c k = (first key k items).map clone) := by
  constructor
  · intro h
    obtain ⟨x, h'⟩ := owned_ok' h
    have := addLoopK_kept (key := key) (ones items) p new (by rw [← extend_eq, h']; simp) k
    rw [← extend_eq, h', keys_ones'] at this
    exact this
  · intro h
    obtain ⟨x, h'⟩ := owned_ok' h
    have := addLoopK_kept (key := key) (ones (items.map clone)) p new (by rw [← fromIterRefLoop_eq, h']; simp) k
    rw [← fromIterRefLoop_eq, h', keys_ones', first_clone hc] at this
    exact this

/-- C90: a sum keeps the values of the left operand and adds those of the right one that it did not have. -/
theorem c90_sum (hc : Faithful key clone) {a b c : Counter T} (hb : Valid key b) {order : List (T × Nat)}
    (ho : IterOf order b) (k : K) :
    (add key order a = .ok c → kept key c k = (kept key a k).or (kept key b k)) ∧
    (addRef key clone order a = .ok c → kept key c k = (kept key a k).or ((kept key b k).map clone)) := by
  constructor
  · intro h
    obtain ⟨x, h'⟩ := owned_ok' h
    have := addLoopK_kept (key := key) order false a (by rw [← addAssign_eq, h']; simp) k
    rw [← addAssign_eq, h', first_iterOf hb ho] at this
    exact this
  · intro h
    obtain ⟨x, h'⟩ := owned_ok' h
    have := addLoopK_kept (key := key) (order.map fun e => (clone e.1, e.2)) false a
      (by rw [← addAssignRef_eq, h']; simp) k
    rw [← addAssignRef_eq, h', List.map_map,
      show order.map ((·.1) ∘ fun e => (clone e.1, e.2)) = (order.map (·.1)).map clone by simp [Function.comp_def],
      first_clone hc, first_iterOf hb ho] at this
    exact this

/-- C90: `a + b` and `b + a` hold the same values exactly when the operands agree on the values they share. -/
theorem c90_sums_agree_iff {a b c d : Counter T} (ha : Valid key a) (hb : Valid key b)
    {oa ob : List (T × Nat)} (hoa : IterOf oa a) (hob : IterOf ob b) (h1 : add key ob a = .ok c)
    (h2 : add key oa b = .ok d) :
    (∀ k, kept key c k = kept key d k) ↔ ∀ x ∈ a.counter.entries, ∀ y ∈ b.counter.entries,
      key x.1 = key y.1 → x.1 = y.1 := by
  have e1 := fun k => (c90_sum (clone := id) (fun _ => rfl) hb hob (a := a) (c := c) k).1 h1
  have e2 := fun k => (c90_sum (clone := id) (fun _ => rfl) ha hoa (a := b) (c := d) k).1 h2
  have hm : ∀ {m : Counter T}, Valid key m → ∀ {x}, x ∈ m.counter.entries → kept key m (key x.1) = some x.1 := by
    intro m hv x hx
    unfold kept KMap.stored
    rw [(KMap.find_eq_some hv.1).mpr ⟨hx, rfl⟩]; rfl
  have hm' : ∀ {m : Counter T} {k x}, kept key m k = some x → ∃ e ∈ m.counter.entries, e.1 = x ∧ key x = k := by
    intro m k x hx
    unfold kept KMap.stored at hx
    cases hf : KMap.find key k m.counter.entries with
    | none => rw [hf] at hx; cases hx
    | some e => rw [hf] at hx; cases hx; exact ⟨e, (KMap.find_key hf).2, rfl, (KMap.find_key hf).1⟩
  constructor
  · intro h x hx y hy hk
    have := h (key x.1)
    rw [e1, e2, hm ha hx, hk, hm hb hy] at this
    exact Option.some.inj this
  · intro h k
    rw [e1, e2]
    cases hka : kept key a k with
    | none => cases kept key b k <;> rfl
    | some x =>
      cases hkb : kept key b k with
      | none => rfl
      | some y =>
        obtain ⟨x', hx, rfl, hxk⟩ := hm' hka
        obtain ⟨y', hy, rfl, hyk⟩ := hm' hkb
        exact congrArg some (h x' hx y' hy (hxk.trans hyk.symm))

/-- C90: a difference keeps values of the left operand only, and all of those that are still counted. -/
theorem c90_difference (hc : Faithful key clone) {a b c : Counter T} (ha : Valid key a) (hb : Valid key b)
    {order : List (T × Nat)} (ho : IterOf order b)
    (h : sub key order a = .ok c ∨ subRef key clone order a = .ok c) (k : K) :
    kept key c k = if ((keys key b).get k).isSome ∧ mult (keys key a) k ≤ mult (keys key b) k
      then none else kept key a k := by
  obtain ⟨d, hd1, hd2, -, -, -, hd3, hd4⟩ :=
    c48_subtraction (valid_keys ha) (valid_keys hb) (iterOf_keys (key := key) ho)
  have hup := c90_made_up_to_keys hc [] false order a b
  have hdc : d = keys key c ∧ (kept key c k = kept key a k ∨ kept key c k = none) := by
    rcases h with h | h
    · rw [h, hd1] at hup
      have := hup.2.2.2.2.1
      obtain ⟨x, h'⟩ := owned_ok' h
      have hk := subAssign_kept (key := key) order false a k
      rw [h'] at hk
      exact ⟨by cases this; rfl, hk⟩
    · rw [h, hd2] at hup
      have := hup.2.2.2.2.2.1
      obtain ⟨x, h'⟩ := owned_ok' h
      have hk := subAssign_kept (key := key) (order.map fun e => (clone e.1, e.2)) false a k
      rw [← subAssignRef_eq, h'] at hk
      exact ⟨by cases this; rfl, hk⟩
  obtain ⟨rfl, hk⟩ := hdc
  have hi := kept_isSome (key := key) c k
  have hia := kept_isSome (key := key) a k
  cases hbk : (keys key b).get k with
  | none =>
    rw [hd3 k hbk, ← hia] at hi
    simp only [Option.isSome_none, Bool.false_eq_true, false_and, if_false]
    rcases hk with hk | hk
    · exact hk
    · rw [hk] at hi ⊢
      cases hka : kept key a k with
      | none => rfl
      | some x => rw [hka] at hi; cases hi
  | some n =>
    obtain ⟨h1, h2⟩ := hd4 k n hbk
    rw [mult_of_some hbk]
    simp only [Option.isSome_some, true_and]
    by_cases hle : mult (keys key a) k ≤ n
    · rw [if_pos hle]
      have : ¬ (kept key c k).isSome := by rw [hi, h1]; omega
      simpa using this
    · rw [if_neg hle]
      have : (kept key c k).isSome := by rw [hi, h1]; omega
      rcases hk with hk | hk
      · exact hk
      · rw [hk] at this; cases this

/-- C90: a counter made from a map holds the values of the map, or clones of them. -/
theorem c90_from_map (hc : Faithful key clone) {m : Counter T} (hv : Valid key m) {order : List (T × Nat)}
    (ho : IterOf order m) (k : K) :
    kept key (fromMap key order) k = kept key m k ∧
    kept key (fromMapRef key clone order) k = (kept key m k).map clone := by
  constructor
  · rw [← first_iterOf hv ho]; exact fromIter_stored order k
  · rw [← first_iterOf hv ho, ← first_clone hc]
    refine (fromIter_stored _ k).trans ?_
    rw [List.map_map, List.map_map]; rfl

/-- C90: `into_most_common` lists the stored values themselves; `most_common` lists clones of them. -/
theorem c90_most_common {c : Counter T} (hv : Valid key c) {order : List (T × Nat)} (ho : IterOf order c)
    {sort : List (Nat × (T × Nat)) → List (Nat × (T × Nat))} (hs : SortByKey sort) :
    ∃ res res', intoMostCommon sort order = .ok res ∧ mostCommon clone sort order = .ok res' ∧
      (∀ x n, (x, n) ∈ res ↔ kept key c (key x) = some x ∧ (keys key c).get (key x) = some n) ∧
      res'.Perm (res.map fun e => (clone e.1, e.2)) ∧
      res.Pairwise (fun x y => y.2 ≤ x.2) ∧ res'.Pairwise fun x y => y.2 ≤ x.2 := by
  have hle : ∀ e ∈ order, e.2 ≤ usizeMax := fun e he => hv.2 e (ho.mem_iff.mp he)
  have hle' : ∀ e ∈ order.map (fun e => (clone e.1, e.2)), e.2 ≤ usizeMax := by
    intro e he
    obtain ⟨f, hf, rfl⟩ := List.mem_map.mp he
    exact hle f hf
  obtain ⟨p1, s1⟩ := sorted_desc hle hs
  obtain ⟨p2, s2⟩ := sorted_desc hle' hs
  refine ⟨_, _, ?_, ?_, fun x n => ?_, p2.trans (p1.map _).symm, s1, s2⟩
  · rw [intoMostCommon, mapM_usub' hle]; rfl
  · rw [mostCommon, mapM_usub' hle']; rfl
  · rw [(p1.trans ho).mem_iff]; exact mem_iff hv.1 x n

end

namespace Demo
/-- a counted value: a word's number and its spelling; only the number is compared -/
def word : Nat × Nat → Nat := (·.1)
/-- a clone that compares equal but is spelled differently -/
def respell (x : Nat × Nat) : Nat × Nat := (x.1, x.2 + 100)
theorem respell_faithful : Faithful word respell := fun _ => rfl
/-- two counters that share word 7 in different spellings -/
def ka : Counter (Nat × Nat) := ⟨⟨[((7, 1), 2), ((8, 1), 1)]⟩⟩
/-- two counters that share word 7 in different spellings -/
def kb : Counter (Nat × Nat) := ⟨⟨[((7, 2), 1), ((9, 2), 3)]⟩⟩
end Demo

open Cnt.Key.Demo Cnt.Demo in
example : Valid word ka ∧ Valid word kb ∧ Faithful word respell ∧
    fromIter word [(7, 1), (8, 1), (7, 3)] = .ok ⟨⟨[((8, 1), 1), ((7, 1), 2)]⟩⟩ ∧
    add word kb.counter.entries ka = .ok ⟨⟨[((9, 2), 3), ((7, 1), 3), ((8, 1), 1)]⟩⟩ ∧
    addRef word respell kb.counter.entries ka = .ok ⟨⟨[((9, 102), 3), ((7, 1), 3), ((8, 1), 1)]⟩⟩ ∧
    add word ka.counter.entries kb = .ok ⟨⟨[((8, 1), 1), ((7, 2), 3), ((9, 2), 3)]⟩⟩ ∧
    sub word kb.counter.entries ka = .ok ⟨⟨[((7, 1), 1), ((8, 1), 1)]⟩⟩ ∧
    sub word ka.counter.entries kb = .ok ⟨⟨[((9, 2), 3)]⟩⟩ := by
  refine ⟨⟨by unfold KMap.Valid; decide, ?_⟩, ⟨by unfold KMap.Valid; decide, ?_⟩, respell_faithful, rfl, rfl, rfl,
    rfl, rfl, rfl⟩
  · intro e he
    have := isizeMax_pos
    have := two_isizeMax
    rcases List.mem_cons.mp he with rfl | he
    · show 2 ≤ usizeMax; omega
    · rcases List.mem_cons.mp he with rfl | he
      · show 1 ≤ usizeMax; omega
      · cases he
  · intro e he
    have := isizeMax_pos
    have := two_isizeMax
    rcases List.mem_cons.mp he with rfl | he
    · show 1 ≤ usizeMax; omega
    · rcases List.mem_cons.mp he with rfl | he
      · show 3 ≤ usizeMax; omega
      · cases he

open Cnt.Key.Demo Cnt.Demo in
example : ∀ f, f = usizeMax → ((Call.extend [(8, 1), (7, 9), (9, 1)] false).run word respell ⟨⟨[((7, 1), f)]⟩⟩).1 =
      .error .overflow ∧
    kept word ((Call.extend [(8, 1), (7, 9), (9, 1)] false).run word respell ⟨⟨[((7, 1), f)]⟩⟩).2 8 = some (8, 1) ∧
    kept word ((Call.extend [(8, 1), (7, 9), (9, 1)] false).run word respell ⟨⟨[((7, 1), f)]⟩⟩).2 9 = none := by
  rintro f rfl
  decide +kernel

end Cnt.Key
