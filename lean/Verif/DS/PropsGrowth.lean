import Verif.Map.Growth
import Verif.DS.PropsMem
/-!
# Growing a disjoint set costs a constant per element (C112)
-/

open Rust Mem
namespace DS.Mem

section
variable {T : Type} [DecidableEq T] {std : Stds}

/-- the cost of the memory of this disjoint set is paid for -/
structure Paid (s : State T) : Prop where
  ids : s.ids.Paid s.set.ids.len 0
  data : s.data.Paid s.set.dataById.length 0

/-- both collections double -/
structure Stds.Doubles (std : Stds) : Prop where
  map : std.map.Doubles
  vec : std.vec.Doubles

/-- what `m` costs is paid for -/
def Pays {α : Type} (m : M (State T) α) : Prop := ∀ s, Paid s → Paid (m s).2

omit [DecidableEq T] in
theorem pays_bind {α β : Type} {m : M (State T) α} {f : α → M (State T) β} (hm : Pays m) (hf : ∀ a, Pays (f a)) :
    Pays (m >>= f) := by
  intro s hs
  rw [M.bind_run]
  have h := hm s hs
  generalize m s = q at h ⊢
  obtain ⟨r, s1⟩ := q
  cases r with
  | error e => exact h
  | ok a => exact hf a s1 h

omit [DecidableEq T] in
theorem pays_pure {α : Type} (a : α) : Pays (T := T) (pure a) := fun _ h => h

omit [DecidableEq T] in
theorem pays_set {d : DSet T} {s : State T} (h : Paid s) (h1 : d.ids.len ≤ s.set.ids.len)
    (h2 : d.dataById.length ≤ s.set.dataById.length) : Paid { s with set := d } :=
  ⟨h.ids.le h1, h.data.le h2⟩

omit [DecidableEq T] in
theorem pays_onSet {α : Type} {m : M (DSet T) α} (h : SameD m) : Pays (onSet m) := fun s hs =>
  pays_set hs (Nat.le_of_eq (congrArg HMap.len (h s.set).1)) (Nat.le_of_eq (h s.set).2)

theorem got_paid {std : Std} (hd : std.Doubles) {len n : Nat} {r r' : Room} (h : r.Paid len 0) (hg : Got std len n r r') :
    r'.Paid (len + n) 0 := by
  rcases hg with ⟨h1, rfl⟩ | ⟨h1, m, h2, rfl⟩
  · exact h.more h1
  · exact h.grown hd h1 h2

theorem pays_makeOrGetSet (hd : std.Doubles) (x : T) (kp : Bool) : Pays (makeOrGetSet std x kp) := by
  intro s hs
  obtain ⟨p1, p2⟩ := makeOrGetSet_plain s.set x kp
  have h := makeOrGetSet_made (std := std) x kp s
  generalize makeOrGetSet std x kp s = q at h
  cases h with
  | there hk =>
    rw [if_neg hk] at p1 p2
    exact pays_set hs (Nat.le_of_eq p1) (Nat.le_of_eq p2)
  | made hk hg gi gd =>
    rw [if_pos ⟨hk, hg⟩] at p1 p2
    refine ⟨?_, ?_⟩
    · show Room.Paid (DSet.makeOrGetSet x kp s.set).2.ids.len 0 _
      rw [p1]; exact got_paid hd.map hs.ids gi
    · show Room.Paid (DSet.makeOrGetSet x kp s.set).2.dataById.length 0 _
      rw [p2]; exact got_paid hd.vec hs.data gd
  | map _ _ _ _ => exact ⟨hs.ids.moment _, hs.data⟩
  | vec hk hg gi _ _ =>
    have hl : (s.set.ids.insert x s.set.ids.len).len = s.set.ids.len + 1 := by rw [HMap.len_insert, hg]; rfl
    refine ⟨?_, hs.data.moment _⟩
    show Room.Paid (s.set.ids.insert x s.set.ids.len).len 0 _
    rw [hl]; exact got_paid hd.map hs.ids gi

theorem pays_makeSet (hd : std.Doubles) (x : T) (kp : Bool) : Pays (makeSet std x kp) :=
  pays_bind (pays_makeOrGetSet hd x kp) fun _ => pays_pure _

theorem pays_makeAll (hd : std.Doubles) (items : List T) (p : Bool) : Pays (makeAll std items p) := by
  induction items with
  | nil => cases p <;> exact fun _ h => h
  | cons x xs ih => exact pays_bind (pays_makeSet hd x false) fun _ => ih

omit [DecidableEq T] in
theorem pays_reserve (hd : std.Doubles) (n : Nat) : Pays (T := T) (reserve std n) :=
  pays_bind (fun _ hs => ⟨hs.ids, (hs.data.reserve hd.vec n).1⟩) fun _ _ hs => ⟨(hs.ids.reserve hd.map n).1, hs.data⟩

theorem pays_call [Cfg] (hd : std.Doubles) (stack : Nat) (call : Call T) : Pays (call.run std stack) := by
  have wrap : ∀ {α : Type} (f : α → Out T) {m : M (State T) α}, Pays m → Pays (Call.wrap f m) := by
    intro α f m hm s hs
    rw [wrapM_snd]
    exact hm s hs
  have same : ∀ {α : Type} (f : α → Out T) {m : M (DSet T) α}, SameD m → Pays (onSet (DS.wrap f m)) := by
    intro α f m hm
    refine pays_onSet fun s => ?_
    rw [wrap_snd]
    exact hm s
  cases call with
  | makeSet x kp => exact wrap _ (pays_makeSet hd x kp)
  | union x y xp yp =>
    exact wrap _ (pays_bind (pays_makeOrGetSet hd x xp) fun i => pays_bind (pays_makeOrGetSet hd y yp) fun j =>
      pays_onSet (sameD_onData (unionIds_same stack i j)))
  | reserve k => exact wrap _ (pays_reserve hd k)
  | extend hint items p => exact wrap _ (pays_bind (pays_reserve hd hint) fun _ => pays_makeAll hd items p)
  | inUnion x y xp yp => exact same .bool (inUnion_same stack x y xp yp)
  | contains x kp => exact same .bool (fun s => by cases kp <;> exact ⟨rfl, rfl⟩)
  | len => exact fun _ h => h
  | isEmpty => exact fun _ h => h
  | clear => exact fun s hs => pays_set hs (Nat.zero_le _) (Nat.zero_le _)
  | iterate o o' => exact same .groups (iterate_same stack o.f o'.f)

theorem pays_start (hd : std.Doubles) {st : Start T} {s : State T} (hs : st.make std = .ok s) : Paid s := by
  have wc : ∀ {n : Nat} {s : State T}, withCapacity std n = .ok s → Paid s := by
    intro n s hs
    have h1 := (Room.paid_empty.reserve hd.map n).1
    have h2 := (Room.paid_empty.reserve hd.vec n).1
    unfold withCapacity at hs
    generalize Room.reserve std.map 0 n {} = q at h1 hs
    obtain ⟨r, ids⟩ := q
    cases r with
    | error e => cases hs
    | ok u =>
      generalize Room.reserve std.vec 0 n {} = q at h2 hs
      obtain ⟨r, data⟩ := q
      cases r with
      | error e => cases hs
      | ok u => cases hs; exact ⟨h1, h2⟩
  cases st with
  | withCapacity n => exact wc hs
  | fromIter hint items =>
    change fromIter std hint items false = .ok s at hs
    unfold fromIter at hs
    cases hw : withCapacity (T := T) std hint with
    | error e => rw [hw] at hs; cases hs
    | ok s0 =>
      rw [hw] at hs
      have h := pays_makeAll hd items false s0 (wc hw)
      change (match makeAll std items false s0 with | (.ok _, s) => .ok s | (.error e, _) => .error e) = Except.ok s at hs
      generalize makeAll std items false s0 = q at h hs
      obtain ⟨r, s1⟩ := q
      cases r with
      | error e => cases hs
      | ok u => cases hs; exact h

theorem pays_runAll [Cfg] (hd : std.Doubles) (stack : Nat) (calls : List (Call T)) {s : State T} (hs : Paid s) :
    Paid (runAll std stack calls s).2 := by
  induction calls generalizing s with
  | nil => exact hs
  | cons f fs ih => exact ih (pays_call hd stack f s hs)

/-- C112: whatever calls are made on a disjoint set, and whichever of them panic: the map and the vector have moved at
most as many elements as the room they end up with, and took memory a logarithmic number of times. -/
theorem c112_disjoint_set [Cfg] (hd : std.Doubles) (stack : Nat) {st : Start T} {s : State T} (hs : st.make std = .ok s)
    (calls : List (Call T)) :
    let t := (runAll std stack calls s).2
    (t.ids.moved ≤ t.ids.slots ∧ t.data.moved ≤ t.data.slots) ∧
    (t.ids.allocs = 0 ∨ 2 ^ t.ids.allocs ≤ 2 * t.ids.slots) ∧
    (t.data.allocs = 0 ∨ 2 ^ t.data.allocs ≤ 2 * t.data.slots) := by
  have h := pays_runAll hd stack calls (pays_start hd hs)
  exact ⟨⟨Nat.le_trans h.ids.moved h.ids.fit.2, Nat.le_trans h.data.moved h.data.fit.2⟩, h.ids.allocs, h.data.allocs⟩

/-- C112: so, if growing is not extravagant either, the elements moved are linear in the most elements there ever were or
were announced: the documented O(1) of `make_set` holds on average. -/
theorem c112_disjoint_set_linear [Cfg] (hd : std.Doubles) {a b : Nat} (hm : std.map.Modest a b) (hv : std.vec.Modest a b)
    (stack : Nat) {s : State T} (hs : withCapacity std 0 = .ok s) (calls : List (Call T)) (k h : Nat)
    (hk : ∀ i, (runAll std stack (calls.take i) s).2.set.len ≤ k) (hh : ∀ f ∈ calls, f.hint ≤ h) :
    let t := (runAll std stack calls s).2
    t.ids.moved + t.data.moved ≤ 2 * (a * (k + h) + b) ∧
    2 ^ t.ids.allocs ≤ 2 * (a * (k + h) + b) + 1 ∧ 2 ^ t.data.allocs ≤ 2 * (a * (k + h) + b) + 1 := by
  have h1 := c112_disjoint_set hd stack (st := .withCapacity 0) hs calls
  obtain ⟨_, _, _, _, _, h0, _⟩ := c100_with_capacity std 0 s hs
  have h2 := c100_memory_partial std hm hv stack calls s (start_made (std := std) (.withCapacity 0) s hs).2 k h hk hh
  rw [(h0 rfl).1, (h0 rfl).2, Nat.zero_max] at h2
  simp only at h1 ⊢
  obtain ⟨⟨i1, i2⟩, i3, i4⟩ := h1
  refine ⟨by omega, ?_, ?_⟩
  · rcases i3 with h3 | h3
    · rw [h3]; omega
    · omega
  · rcases i4 with h3 | h3
    · rw [h3]; omega
    · omega

end

open Demo in
/-- five elements: both collections grew to 1, 2, 4 and 8, moving 1 + 2 + 4 elements -/
example : Stds.Doubles ⟨steady, steady⟩ ∧ Start.make ⟨steady, steady⟩ (.withCapacity 0 : Start Nat) = .ok ⟨DSet.new, {}, {}⟩ ∧
    (runAll ⟨steady, steady⟩ 64 [.union 1 2 false false, .extend 0 [3, 4, 1] false, .union 1 5 false false]
      (⟨DSet.new, {}, {}⟩ : State Nat)).2.ids = { cap := 8, slots := 8, allocs := 4, moment := 4, moved := 7 } :=
  ⟨⟨steady_doubles, steady_doubles⟩, rfl, by decide +kernel⟩

end DS.Mem
