import Verif.DS.SpecMem
import Verif.DS.Props
/-!
# Lemmas on the memory of disjoint sets
-/

open Rust Mem
namespace DS.Mem

/-! ## the number of nodes -/

theorem at_length (id : Nat) (d : List Data) : (at' id d).2 = d := by
  unfold at'; split <;> rfl

theorem setParent_length (id p : Nat) (d : List Data) : (setParent id p d).2.length = d.length := by
  unfold setParent; split <;> simp

theorem incRank_length [Cfg] (id : Nat) (d : List Data) : (incRank id d).2.length = d.length := by
  unfold incRank
  split
  · split <;> simp
  · rfl

/-- `m` does not change the number of nodes -/
def Same {α : Type} (m : M (List Data) α) : Prop := ∀ d, (m d).2.length = d.length

theorem same_bind {α β : Type} {m : M (List Data) α} {f : α → M (List Data) β} (hm : Same m) (hf : ∀ a, Same (f a)) :
    Same (m >>= f) := by
  intro d
  rw [M.bind_run]
  have h := hm d
  generalize m d = q at h ⊢
  obtain ⟨r, d1⟩ := q
  cases r with
  | error e => exact h
  | ok a => exact (hf a d1).trans h

theorem same_pure {α : Type} (a : α) : Same (pure a) := fun _ => rfl
theorem same_at (id : Nat) : Same (at' id) := fun d => by rw [at_length]

theorem find_same (stack id : Nat) : Same (find stack id) := by
  induction stack generalizing id with
  | zero => exact fun _ => rfl
  | succ stack ih =>
    refine same_bind (same_at id) fun x => ?_
    split
    · exact same_bind (ih _) fun p => same_bind (setParent_length id p) fun _ => same_pure p
    · exact same_pure _

theorem unionIds_same [Cfg] (stack a b : Nat) : Same (unionIds stack a b) := by
  refine same_bind (find_same stack a) fun ra => same_bind (find_same stack b) fun rb => ?_
  split
  · exact same_pure ()
  · refine same_bind (same_at _) fun x => same_bind (same_at _) fun y => ?_
    split
    refine same_bind (setParent_length _ _) fun _ => same_bind (same_at _) fun x => same_bind (same_at _) fun y => ?_
    split
    · exact incRank_length _
    · exact same_pure ()

section
variable {T : Type} [DecidableEq T]

theorem onData_len {α : Type} {m : M (List Data) α} (h : Same m) (s : DSet T) :
    (DSet.onData m s).2.ids = s.ids ∧ (DSet.onData m s).2.dataById.length = s.dataById.length := ⟨rfl, h s.dataById⟩

/-! ## requests -/

/-- the memory after a request that was granted -/
def Got (std : Std) (len additional : Nat) (r r' : Room) : Prop :=
  (len + additional ≤ r.cap ∧ r' = r) ∨
    (¬len + additional ≤ r.cap ∧ ∃ n, std.grow r.moment r.slots (len + additional) = some n ∧ r' = r.grown len n)

theorem got_or (std : Std) (len additional : Nat) (r : Room) :
    (∃ r', Got std len additional r r' ∧ r.reserve std len additional = (.ok (), r')) ∨
    (¬len + additional ≤ r.cap ∧ std.grow r.moment r.slots (len + additional) = none ∧
      r.reserve std len additional = (.error .capacityOverflow, { r with moment := r.moment + 1 })) := by
  rcases Room.reserve_cases std len additional r with ⟨h1, h2⟩ | ⟨h1, n, h2, h3⟩ | h
  · exact .inl ⟨r, .inl ⟨h1, rfl⟩, h2⟩
  · exact .inl ⟨r.grown len n, .inr ⟨h1, n, h2, rfl⟩, h3⟩
  · exact .inr h

section
variable {std : Std} {len additional : Nat} {r r' : Room}

theorem Got.slots (h : Got std len additional r r') : r.slots ≤ r'.slots := by
  rcases h with ⟨_, rfl⟩ | ⟨_, n, h, rfl⟩
  · exact Nat.le_refl _
  · exact std.keeps h

theorem Got.allocs (h : Got std len additional r r') : r.allocs ≤ r'.allocs := by
  rcases h with ⟨_, rfl⟩ | ⟨_, n, h, rfl⟩
  · exact Nat.le_refl _
  · show r.allocs ≤ if n = r.slots then r.allocs else r.allocs + 1
    split <;> omega

theorem Got.moment (h : Got std len additional r r') : r.moment ≤ r'.moment := by
  rcases h with ⟨_, rfl⟩ | ⟨_, n, h, rfl⟩
  · exact Nat.le_refl _
  · exact Nat.le_succ _

theorem Got.cap (h : Got std len additional r r') : len + additional ≤ r'.cap := by
  rcases h with ⟨h, rfl⟩ | ⟨_, n, h, rfl⟩
  · exact h
  · exact std.enough h

theorem Got.cap_slots (h : Got std len additional r r') (hr : r.cap ≤ r.slots) : r'.cap ≤ r'.slots := by
  rcases h with ⟨_, rfl⟩ | ⟨_, n, _, rfl⟩
  · exact hr
  · exact Nat.le_refl _

theorem Got.full (h : Got std len additional r r') (hr : r.cap = r.slots) : r'.cap = r'.slots := by
  rcases h with ⟨_, rfl⟩ | ⟨_, n, _, rfl⟩
  · exact hr
  · rfl

theorem Got.quiet (h : Got std len additional r r') (hc : len + additional ≤ r.cap) : r' = r := by
  rcases h with ⟨_, rfl⟩ | ⟨h, _⟩
  · rfl
  · exact absurd hc h

theorem Got.most (h : Got std len additional r r') {a b : Nat} (hm : std.Modest a b) {n : Nat} (hn : len + additional ≤ n) :
    r'.slots ≤ max r.slots (a * n + b) := by
  rcases h with ⟨_, rfl⟩ | ⟨_, m, h, rfl⟩
  · exact Nat.le_max_left _ _
  · have := hm h
    have h2 : a * (len + additional) ≤ a * n := Nat.mul_le_mul_left _ hn
    show m ≤ _
    omega
end

/-! ## `make_or_get_set` -/

variable {std : Stds}

theorem makeOrGetSet_plain (s : DSet T) (x : T) (kp : Bool) :
    (DSet.makeOrGetSet x kp s).2.ids.len = (if kp = false ∧ s.ids.get x = none then s.ids.len + 1 else s.ids.len) ∧
    (DSet.makeOrGetSet x kp s).2.dataById.length =
      (if kp = false ∧ s.ids.get x = none then s.dataById.length + 1 else s.dataById.length) := by
  unfold DSet.makeOrGetSet
  cases kp with
  | true => simp
  | false =>
    cases h : s.ids.get x with
    | none => simp [HMap.len_insert, h]
    | some i => simp

/-- the ways of a `make_or_get_set` -/
inductive Made (std : Stds) (x : T) (kp : Bool) (s : State T) : Except Fault Nat × State T → Prop
  /-- no new key -/
  | there : ¬(kp = false ∧ s.set.ids.get x = none) →
      Made std x kp s ((DSet.makeOrGetSet x kp s.set).1, { s with set := (DSet.makeOrGetSet x kp s.set).2 })
  /-- a new key -/
  | made {ri rd : Room} : kp = false → s.set.ids.get x = none →
      Got std.map s.set.ids.len 1 s.ids ri → Got std.vec s.set.dataById.length 1 s.data rd →
      Made std x kp s ((DSet.makeOrGetSet x kp s.set).1, ⟨(DSet.makeOrGetSet x kp s.set).2, ri, rd⟩)
  /-- no room in the map -/
  | map : kp = false → s.set.ids.get x = none → ¬s.set.ids.len + 1 ≤ s.ids.cap →
      std.map.grow s.ids.moment s.ids.slots (s.set.ids.len + 1) = none →
      Made std x kp s (.error .capacityOverflow, { s with ids := { s.ids with moment := s.ids.moment + 1 } })
  /-- no room in the vector -/
  | vec {ri : Room} : kp = false → s.set.ids.get x = none → Got std.map s.set.ids.len 1 s.ids ri →
      ¬s.set.dataById.length + 1 ≤ s.data.cap →
      std.vec.grow s.data.moment s.data.slots (s.set.dataById.length + 1) = none →
      Made std x kp s (.error .capacityOverflow,
        ⟨{ s.set with ids := s.set.ids.insert x s.set.ids.len }, ri, { s.data with moment := s.data.moment + 1 }⟩)

theorem makeOrGetSet_made (x : T) (kp : Bool) (s : State T) : Made std x kp s (makeOrGetSet std x kp s) := by
  by_cases hk : kp = false ∧ s.set.ids.get x = none
  · obtain ⟨rfl, hg⟩ := hk
    have hp : DSet.makeOrGetSet x false s.set = (.ok s.set.ids.len,
        { ids := s.set.ids.insert x s.set.ids.len, dataById := s.set.dataById ++ [Data.new s.set.ids.len] }) := by
      simp [DSet.makeOrGetSet, hg]
    have e : makeOrGetSet std x false s = makeNew std x s.set.ids.len s := by
      simp [makeOrGetSet, hg]
    rw [e]
    have h1 : makeNew std x s.set.ids.len s = _ := M.bind_run _ _ _
    rw [h1, reserveIds]
    rcases got_or std.map s.set.ids.len 1 s.ids with ⟨ri, g1, g2⟩ | ⟨g1, g2, g3⟩
    · rw [g2]
      show Made std x false s ((reserveData std 1 >>= _) (State.mk { s.set with ids := s.set.ids.insert x s.set.ids.len } ri s.data))
      rw [M.bind_run, reserveData]
      rcases got_or std.vec s.set.dataById.length 1 s.data with ⟨rd, k1, k2⟩ | ⟨k1, k2, k3⟩
      · have := Made.made (std := std) rfl hg g1 k1
        rw [hp] at this
        simp only [k2]
        exact this
      · simp only [k3]
        exact Made.vec rfl hg g1 k1 k2
    · rw [g3]
      exact Made.map rfl hg g1 g2
  · have e : makeOrGetSet std x kp s =
        ((DSet.makeOrGetSet x kp s.set).1, { s with set := (DSet.makeOrGetSet x kp s.set).2 }) := by
      unfold makeOrGetSet DSet.makeOrGetSet
      cases kp with
      | true => rfl
      | false =>
        cases hg : s.set.ids.get x with
        | none => exact absurd ⟨rfl, hg⟩ hk
        | some i => rfl
    rw [e]
    exact Made.there hk

/-! ## what a run does to the memory -/

/-- What holds of the memory before and after a run in which there were never more than `n` elements (or announced and
there): it still fits, nothing is given back, and no more is taken than for `n` elements. -/
structure Later (std : Stds) (n : Nat) (s s' : State T) : Prop where
  fits : Fits s → Fits s'
  ids : s.ids.slots ≤ s'.ids.slots ∧ s.ids.allocs ≤ s'.ids.allocs ∧ s.ids.moment ≤ s'.ids.moment
  data : s.data.slots ≤ s'.data.slots ∧ s.data.allocs ≤ s'.data.allocs ∧ s.data.moment ≤ s'.data.moment
  idsMost : ∀ {a b : Nat}, std.map.Modest a b → s'.ids.slots ≤ max s.ids.slots (a * n + b)
  dataMost : Fits s → ∀ {a b : Nat}, std.vec.Modest a b → s'.data.slots ≤ max s.data.slots (a * n + b)

theorem Later.refl (n : Nat) (s : State T) : Later std n s s :=
  ⟨id, ⟨Nat.le_refl _, Nat.le_refl _, Nat.le_refl _⟩, ⟨Nat.le_refl _, Nat.le_refl _, Nat.le_refl _⟩, fun _ => Nat.le_max_left _ _,
    fun _ _ _ _ => Nat.le_max_left _ _⟩

theorem Later.trans {n : Nat} {s s' s'' : State T} (h : Later std n s s') (h' : Later std n s' s'') :
    Later std n s s'' := by
  refine ⟨fun hf => h'.fits (h.fits hf), ⟨Nat.le_trans h.ids.1 h'.ids.1, Nat.le_trans h.ids.2.1 h'.ids.2.1, Nat.le_trans h.ids.2.2 h'.ids.2.2⟩,
    ⟨Nat.le_trans h.data.1 h'.data.1, Nat.le_trans h.data.2.1 h'.data.2.1, Nat.le_trans h.data.2.2 h'.data.2.2⟩, fun {a b} hm => ?_, fun hf {a b} hm => ?_⟩
  · have h1 := h.idsMost hm
    have h2 := h'.idsMost hm
    omega
  · have h1 := h.dataMost hf hm
    have h2 := h'.dataMost (h.fits hf) hm
    omega

/-- a step that only changes the contents -/
theorem later_set {n : Nat} {s : State T} {d : DSet T} (h1 : d.ids.len ≤ s.set.ids.len)
    (h2 : d.dataById.length ≤ s.set.dataById.length) (h3 : Fits s → d.dataById.length ≤ d.ids.len) :
    Later std n s { s with set := d } :=
  ⟨fun hf => ⟨⟨Nat.le_trans h1 hf.ids.1, hf.ids.2⟩, ⟨Nat.le_trans h2 hf.data.1, hf.data.2⟩, hf.full, h3 hf⟩,
    ⟨Nat.le_refl _, Nat.le_refl _, Nat.le_refl _⟩, ⟨Nat.le_refl _, Nat.le_refl _, Nat.le_refl _⟩, fun _ => Nat.le_max_left _ _,
    fun _ _ _ _ => Nat.le_max_left _ _⟩

theorem made_later {x : T} {kp : Bool} {s : State T} {q : Except Fault Nat × State T} (h : Made std x kp s q) :
    s.set.ids.len ≤ q.2.set.ids.len ∧ ∀ n, q.2.set.ids.len ≤ n → Later std n s q.2 := by
  obtain ⟨p1, p2⟩ := makeOrGetSet_plain s.set x kp
  cases h with
  | there hk =>
    rw [if_neg hk] at p1 p2
    exact ⟨Nat.le_of_eq p1.symm, fun n _ => later_set (Nat.le_of_eq p1) (Nat.le_of_eq p2)
      fun hf => by rw [p1, p2]; exact hf.few⟩
  | made hk hg gi gd =>
    rw [if_pos ⟨hk, hg⟩] at p1 p2
    refine ⟨by simp only [p1]; omega, fun n hn => ?_⟩
    simp only [p1] at hn
    refine ⟨fun hf => ⟨⟨?_, gi.cap_slots hf.ids.2⟩, ⟨?_, gd.cap_slots hf.data.2⟩, gd.full hf.full, ?_⟩,
      ⟨gi.slots, gi.allocs, gi.moment⟩, ⟨gd.slots, gd.allocs, gd.moment⟩, fun hm => gi.most hm hn, fun hf {a b} hm => gd.most hm ?_⟩
    · simp only [p1]; exact gi.cap
    · simp only [p2]; exact gd.cap
    · simp only [p1, p2]; have := hf.few; omega
    · have := hf.few; omega
  | map _ _ _ _ =>
    exact ⟨Nat.le_refl _, fun n _ => ⟨fun hf => ⟨hf.ids, hf.data, hf.full, hf.few⟩, ⟨Nat.le_refl _, Nat.le_refl _, Nat.le_succ _⟩,
      ⟨Nat.le_refl _, Nat.le_refl _, Nat.le_refl _⟩, fun _ => Nat.le_max_left _ _, fun _ _ _ _ => Nat.le_max_left _ _⟩⟩
  | vec hk hg gi _ _ =>
    have hl : (s.set.ids.insert x s.set.ids.len).len = s.set.ids.len + 1 := by rw [HMap.len_insert, hg]; rfl
    refine ⟨by simp only [hl]; omega, fun n hn => ?_⟩
    simp only [hl] at hn
    refine ⟨fun hf => ⟨⟨?_, gi.cap_slots hf.ids.2⟩, hf.data, hf.full, ?_⟩, ⟨gi.slots, gi.allocs, gi.moment⟩,
      ⟨Nat.le_refl _, Nat.le_refl _, Nat.le_succ _⟩, fun hm => gi.most hm hn, fun _ _ _ _ => Nat.le_max_left _ _⟩
    · simp only [hl]; exact gi.cap
    · simp only [hl]; have := hf.few; omega

/-- sequencing of runs that do not remove elements -/
theorem later_bind {α β : Type} {m : M (State T) α} {f : α → M (State T) β} {s : State T}
    (hm : s.set.ids.len ≤ (m s).2.set.ids.len ∧ ∀ n, (m s).2.set.ids.len ≤ n → Later std n s (m s).2)
    (hf : ∀ a s', s'.set.ids.len ≤ (f a s').2.set.ids.len ∧
      ∀ n, (f a s').2.set.ids.len ≤ n → Later std n s' (f a s').2) :
    s.set.ids.len ≤ ((m >>= f) s).2.set.ids.len ∧
      ∀ n, ((m >>= f) s).2.set.ids.len ≤ n → Later std n s ((m >>= f) s).2 := by
  rw [M.bind_run]
  generalize m s = q at hm ⊢
  obtain ⟨r, s1⟩ := q
  cases r with
  | error e => exact hm
  | ok a =>
    obtain ⟨k1, k2⟩ := hf a s1
    exact ⟨Nat.le_trans hm.1 k1, fun n hn => (hm.2 n (Nat.le_trans k1 hn)).trans (k2 n hn)⟩

theorem makeSet_later (x : T) (kp : Bool) (s : State T) :
    s.set.ids.len ≤ (makeSet std x kp s).2.set.ids.len ∧
      ∀ n, (makeSet std x kp s).2.set.ids.len ≤ n → Later std n s (makeSet std x kp s).2 :=
  later_bind (made_later (makeOrGetSet_made x kp s)) fun _ s' => ⟨Nat.le_refl _, fun n _ => Later.refl n s'⟩

theorem union_later [Cfg] (stack : Nat) (x y : T) (xp yp : Bool) (s : State T) :
    s.set.ids.len ≤ (union std stack x y xp yp s).2.set.ids.len ∧
      ∀ n, (union std stack x y xp yp s).2.set.ids.len ≤ n → Later std n s (union std stack x y xp yp s).2 :=
  later_bind (made_later (makeOrGetSet_made x xp s)) fun _ s' =>
    later_bind (made_later (makeOrGetSet_made y yp s')) fun _ s'' => by
      rename_i i j
      obtain ⟨k1, k2⟩ := onData_len (unionIds_same stack i j) s''.set
      refine ⟨Nat.le_of_eq (congrArg HMap.len k1.symm), fun n _ => later_set (Nat.le_of_eq (congrArg HMap.len k1)) (Nat.le_of_eq k2) fun hf => ?_⟩
      exact Nat.le_trans (Nat.le_of_eq k2) hf.few

theorem makeAll_later (items : List T) (p : Bool) (s : State T) :
    s.set.ids.len ≤ (makeAll std items p s).2.set.ids.len ∧
      ∀ n, (makeAll std items p s).2.set.ids.len ≤ n → Later std n s (makeAll std items p s).2 := by
  induction items generalizing s with
  | nil => cases p <;> exact ⟨Nat.le_refl _, fun n _ => Later.refl n s⟩
  | cons x xs ih => exact later_bind (makeSet_later x false s) fun _ s' => ih s'

theorem reserveData_later (k : Nat) (s : State T) :
    (reserveData std k s).2.set = s.set ∧ ∀ n, s.set.ids.len + k ≤ n → Later std n s (reserveData std k s).2 := by
  refine ⟨rfl, fun n hn => ?_⟩
  unfold reserveData
  rcases got_or std.vec s.set.dataById.length k s.data with ⟨rd, g1, g2⟩ | ⟨g1, g2, g3⟩
  · rw [g2]
    exact ⟨fun hf => ⟨hf.ids, ⟨Nat.le_trans (Nat.le_add_right _ _) g1.cap, g1.cap_slots hf.data.2⟩, g1.full hf.full, hf.few⟩,
      ⟨Nat.le_refl _, Nat.le_refl _, Nat.le_refl _⟩, ⟨g1.slots, g1.allocs, g1.moment⟩, fun _ => Nat.le_max_left _ _,
      fun hf {a b} hm => g1.most hm (by have := hf.few; omega)⟩
  · rw [g3]
    exact ⟨fun hf => ⟨hf.ids, hf.data, hf.full, hf.few⟩, ⟨Nat.le_refl _, Nat.le_refl _, Nat.le_refl _⟩,
      ⟨Nat.le_refl _, Nat.le_refl _, Nat.le_succ _⟩, fun _ => Nat.le_max_left _ _, fun _ _ _ _ => Nat.le_max_left _ _⟩

theorem reserveIds_later (k : Nat) (s : State T) :
    (reserveIds std k s).2.set = s.set ∧ ∀ n, s.set.ids.len + k ≤ n → Later std n s (reserveIds std k s).2 := by
  refine ⟨rfl, fun n hn => ?_⟩
  unfold reserveIds
  rcases got_or std.map s.set.ids.len k s.ids with ⟨rd, g1, g2⟩ | ⟨g1, g2, g3⟩
  · rw [g2]
    exact ⟨fun hf => ⟨⟨Nat.le_trans (Nat.le_add_right _ _) g1.cap, g1.cap_slots hf.ids.2⟩, hf.data, hf.full, hf.few⟩,
      ⟨g1.slots, g1.allocs, g1.moment⟩, ⟨Nat.le_refl _, Nat.le_refl _, Nat.le_refl _⟩, fun hm => g1.most hm hn,
      fun _ _ _ _ => Nat.le_max_left _ _⟩
  · rw [g3]
    exact ⟨fun hf => ⟨hf.ids, hf.data, hf.full, hf.few⟩, ⟨Nat.le_refl _, Nat.le_refl _, Nat.le_succ _⟩,
      ⟨Nat.le_refl _, Nat.le_refl _, Nat.le_refl _⟩, fun _ => Nat.le_max_left _ _, fun _ _ _ _ => Nat.le_max_left _ _⟩

theorem reserve_later (k : Nat) (s : State T) :
    (reserve std k s).2.set = s.set ∧ ∀ n, s.set.ids.len + k ≤ n → Later std n s (reserve std k s).2 := by
  rw [reserve, M.bind_run]
  have h := reserveData_later (std := std) k s
  generalize reserveData std k s = q at h ⊢
  obtain ⟨r, s1⟩ := q
  cases r with
  | error e => exact h
  | ok u =>
    obtain ⟨k1, k2⟩ := reserveIds_later (std := std) k s1
    have h1 : s1.set = s.set := h.1
    exact ⟨k1.trans h1, fun n hn => (h.2 n hn).trans (k2 n (by rw [h1]; exact hn))⟩

theorem extend_later (hint : Nat) (items : List T) (p : Bool) (s : State T) :
    s.set.ids.len ≤ (extend std hint items p s).2.set.ids.len ∧
      ∀ n, s.set.ids.len + hint ≤ n → (extend std hint items p s).2.set.ids.len ≤ n →
        Later std n s (extend std hint items p s).2 := by
  rw [extend, M.bind_run]
  have h := reserve_later (std := std) hint s
  generalize reserve std hint s = q at h ⊢
  obtain ⟨r, s1⟩ := q
  have h1 : s1.set = s.set := h.1
  cases r with
  | error e => exact ⟨Nat.le_of_eq (by rw [h1]), fun n hn _ => h.2 n hn⟩
  | ok u =>
    obtain ⟨k1, k2⟩ := makeAll_later (std := std) items p s1
    rw [h1] at k1
    exact ⟨k1, fun n hn hn' => (h.2 n hn).trans (k2 n hn')⟩

/-! ## calls that need no memory -/

/-- `m` changes neither the keys nor the number of nodes -/
def SameD {α : Type} (m : M (DSet T) α) : Prop :=
  ∀ s, (m s).2.ids = s.ids ∧ (m s).2.dataById.length = s.dataById.length

theorem sameD_bind {α β : Type} {m : M (DSet T) α} {f : α → M (DSet T) β} (hm : SameD m) (hf : ∀ a, SameD (f a)) :
    SameD (m >>= f) := by
  intro s
  rw [M.bind_run]
  have h := hm s
  generalize m s = q at h ⊢
  obtain ⟨r, s1⟩ := q
  cases r with
  | error e => exact h
  | ok a => exact ⟨(hf a s1).1.trans h.1, (hf a s1).2.trans h.2⟩

theorem sameD_pure {α : Type} (a : α) : SameD (T := T) (pure a) := fun _ => ⟨rfl, rfl⟩
theorem sameD_onData {α : Type} {m : M (List Data) α} (h : Same m) : SameD (T := T) (DSet.onData m) := onData_len h
theorem sameD_lookup (x : T) (kp : Bool) : SameD (DSet.lookup x kp) := by
  intro s
  cases kp <;> exact ⟨rfl, rfl⟩

theorem inUnion_same (stack : Nat) (x y : T) (xp yp : Bool) : SameD (DSet.inUnion stack x y xp yp) := by
  refine sameD_bind (sameD_lookup x xp) fun i => ?_
  cases i with
  | none => exact sameD_pure _
  | some i =>
    refine sameD_bind (sameD_lookup y yp) fun j => ?_
    cases j with
    | none => exact sameD_pure _
    | some j =>
      exact sameD_bind (sameD_onData (find_same stack i)) fun _ =>
        sameD_bind (sameD_onData (find_same stack j)) fun _ => sameD_pure _

theorem buildLoop_same (stack : Nat) (es : List (T × Nat)) (m : HMap Nat (List T)) :
    SameD (DSet.buildLoop stack es m) := by
  induction es generalizing m with
  | nil => exact sameD_pure _
  | cons e es ih => exact sameD_bind (sameD_onData (find_same stack e.2)) fun _ => ih _

theorem iterate_same (stack : Nat) (o : List (T × Nat) → List (T × Nat))
    (o' : List (Nat × List T) → List (Nat × List T)) : SameD (DSet.iterate stack o o') :=
  sameD_bind (fun s => buildLoop_same stack _ _ s) fun _ => sameD_pure _

theorem wrap_snd {α : Type} (f : α → Out T) (m : M (DSet T) α) (s : DSet T) : (DS.wrap f m s).2 = (m s).2 := by
  unfold DS.wrap
  generalize m s = q
  obtain ⟨r, s1⟩ := q
  cases r <;> rfl

theorem wrapM_snd {α : Type} (f : α → Out T) (m : M (State T) α) (s : State T) :
    (Call.wrap f m s).2 = (m s).2 := by
  unfold Call.wrap
  generalize m s = q
  obtain ⟨r, s1⟩ := q
  cases r <;> rfl

/-- Any call: the memory is as for the elements there were before it, announced or after it. -/
theorem call_later [Cfg] (stack : Nat) (call : Call T) (s : State T) {n : Nat} (h1 : s.set.ids.len + call.hint ≤ n)
    (h2 : (call.run std stack s).2.set.ids.len ≤ n) : Later std n s (call.run std stack s).2 := by
  have same : ∀ {α : Type} (f : α → Out T) (m : M (DSet T) α), SameD m →
      Later std n s { s with set := (DS.wrap f m s.set).2 } := by
    intro α f m hm
    rw [wrap_snd]
    obtain ⟨k1, k2⟩ := hm s.set
    exact later_set (Nat.le_of_eq (congrArg HMap.len k1)) (Nat.le_of_eq k2) fun hf => by rw [k1, k2]; exact hf.few
  cases call with
  | makeSet x kp =>
    simp only [Call.run, wrapM_snd] at h2 ⊢
    exact (makeSet_later x kp s).2 n h2
  | union x y xp yp =>
    simp only [Call.run, wrapM_snd] at h2 ⊢
    exact (union_later stack x y xp yp s).2 n h2
  | reserve k =>
    simp only [Call.run, wrapM_snd] at h2 ⊢
    exact (reserve_later k s).2 n h1
  | extend hint items p =>
    simp only [Call.run, wrapM_snd] at h2 ⊢
    exact (extend_later hint items p s).2 n h1 h2
  | inUnion x y xp yp => exact same .bool _ (inUnion_same stack x y xp yp)
  | contains x kp => exact same .bool _ (fun s => by cases kp <;> exact ⟨rfl, rfl⟩)
  | len => exact Later.refl n s
  | isEmpty => exact Later.refl n s
  | clear => exact later_set (Nat.zero_le _) (Nat.zero_le _) fun _ => Nat.le_refl _
  | iterate o o' => exact same .groups _ (iterate_same stack o.f o'.f)

/-! ## no growth -/

theorem makeOrGetSet_quiet (x : T) (kp : Bool) (s : State T) (hf : s.set.dataById.length ≤ s.set.ids.len)
    (hi : (DSet.makeOrGetSet x kp s.set).2.ids.len ≤ s.ids.cap)
    (hd : (DSet.makeOrGetSet x kp s.set).2.ids.len ≤ s.data.cap) :
    makeOrGetSet std x kp s =
      ((DSet.makeOrGetSet x kp s.set).1, { s with set := (DSet.makeOrGetSet x kp s.set).2 }) := by
  have h := makeOrGetSet_made (std := std) x kp s
  have hp := (makeOrGetSet_plain s.set x kp).1
  generalize makeOrGetSet std x kp s = q at h
  cases h with
  | there _ => rfl
  | made hk hg gi gd =>
    rw [if_pos ⟨hk, hg⟩] at hp
    rw [gi.quiet (by omega), gd.quiet (by omega)]
  | map hk hg h _ =>
    rw [if_pos ⟨hk, hg⟩] at hp
    omega
  | vec hk hg _ h _ =>
    rw [if_pos ⟨hk, hg⟩] at hp
    omega

/-- `m` does what `p` does and leaves the memory alone, if the capacities suffice for the elements there are in the end;
`p` does not remove elements. -/
def Quiet {α : Type} (m : M (State T) α) (p : M (DSet T) α) : Prop :=
  ∀ s : State T, s.set.dataById.length ≤ s.set.ids.len →
    (s.set.ids.len ≤ (p s.set).2.ids.len ∧ (p s.set).2.dataById.length ≤ (p s.set).2.ids.len) ∧
    ((p s.set).2.ids.len ≤ s.ids.cap → (p s.set).2.ids.len ≤ s.data.cap →
      m s = ((p s.set).1, { s with set := (p s.set).2 }))

theorem quiet_bind {α β : Type} {m : M (State T) α} {p : M (DSet T) α} {f : α → M (State T) β} {g : α → M (DSet T) β}
    (hm : Quiet m p) (hf : ∀ a, Quiet (f a) (g a)) : Quiet (m >>= f) (p >>= g) := by
  intro s hs
  obtain ⟨⟨h1, h2⟩, h3⟩ := hm s hs
  rw [M.bind_run, M.bind_run]
  generalize p s.set = q at h1 h2 h3 ⊢
  obtain ⟨r, d⟩ := q
  cases r with
  | error e =>
    refine ⟨⟨h1, h2⟩, fun ci cd => ?_⟩
    rw [h3 ci cd]
  | ok a =>
    obtain ⟨⟨k1, k2⟩, k3⟩ := hf a { s with set := d } h2
    refine ⟨⟨Nat.le_trans h1 k1, k2⟩, fun ci cd => ?_⟩
    rw [h3 (Nat.le_trans k1 ci) (Nat.le_trans k1 cd)]
    exact k3 ci cd

theorem quiet_same {α : Type} {p : M (DSet T) α} (h : SameD p) : Quiet (onSet p) p := by
  intro s hs
  obtain ⟨h1, h2⟩ := h s.set
  exact ⟨⟨Nat.le_of_eq (congrArg HMap.len h1.symm), by rw [h1, h2]; exact hs⟩, fun _ _ => rfl⟩

theorem quiet_pure {α : Type} (a : α) : Quiet (T := T) (pure a) (pure a) :=
  fun _ hs => ⟨⟨Nat.le_refl _, hs⟩, fun _ _ => rfl⟩
theorem quiet_throw {α : Type} (e : Fault) : Quiet (T := T) (M.throw e : M _ α) (M.throw e) :=
  fun _ hs => ⟨⟨Nat.le_refl _, hs⟩, fun _ _ => rfl⟩

theorem quiet_make (x : T) (kp : Bool) : Quiet (makeOrGetSet std x kp) (DSet.makeOrGetSet x kp) := by
  intro s hs
  obtain ⟨h1, h2⟩ := makeOrGetSet_plain s.set x kp
  refine ⟨⟨?_, ?_⟩, makeOrGetSet_quiet x kp s hs⟩
  · rw [h1]; split <;> omega
  · rw [h1, h2]; split <;> omega

theorem quiet_makeSet (x : T) (kp : Bool) : Quiet (makeSet std x kp) (DSet.makeSet x kp) :=
  quiet_bind (quiet_make x kp) fun _ => quiet_pure ()

theorem quiet_union [Cfg] (stack : Nat) (x y : T) (xp yp : Bool) :
    Quiet (union std stack x y xp yp) (DSet.union stack x y xp yp) :=
  quiet_bind (quiet_make x xp) fun i => quiet_bind (quiet_make y yp) fun j =>
    quiet_same (sameD_onData (unionIds_same stack i j))

theorem quiet_makeAll (items : List T) (p : Bool) : Quiet (makeAll std items p) (DSet.extendLoop items p) := by
  induction items with
  | nil =>
    cases p
    · exact quiet_pure ()
    · exact quiet_throw .user
  | cons x xs ih => exact quiet_bind (quiet_makeSet x false) fun _ => ih

theorem reserve_quiet (k : Nat) (s : State T) (hf : s.set.dataById.length ≤ s.set.ids.len)
    (hi : s.set.ids.len + k ≤ s.ids.cap) (hd : s.set.ids.len + k ≤ s.data.cap) :
    reserve std k s = (.ok (), s) := by
  rw [reserve, M.bind_run, reserveData, Room.reserve_fits (by omega)]
  simp only [reserveIds, Room.reserve_fits hi]

theorem extend_quiet (hint : Nat) (items : List T) (p : Bool) (s : State T)
    (hf : s.set.dataById.length ≤ s.set.ids.len) (hi : s.set.ids.len + hint ≤ s.ids.cap)
    (hd : s.set.ids.len + hint ≤ s.data.cap)
    (hi' : (DSet.extend hint false items p s.set).2.ids.len ≤ s.ids.cap)
    (hd' : (DSet.extend hint false items p s.set).2.ids.len ≤ s.data.cap) :
    extend std hint items p s = ((DSet.extend hint false items p s.set).1,
      { s with set := (DSet.extend hint false items p s.set).2 }) := by
  rw [extend, M.bind_run, reserve_quiet hint s hf hi hd]
  exact (quiet_makeAll items p s hf).2 hi' hd'

theorem call_quiet [Cfg] (stack : Nat) (call : Call T) (s : State T)
    (hf : s.set.dataById.length ≤ s.set.ids.len)
    (hi : s.set.ids.len + call.hint ≤ s.ids.cap) (hd : s.set.ids.len + call.hint ≤ s.data.cap)
    (hi' : (step stack call.plain s.set).2.ids.len ≤ s.ids.cap)
    (hd' : (step stack call.plain s.set).2.ids.len ≤ s.data.cap) :
    call.run std stack s = ((step stack call.plain s.set).1, { s with set := (step stack call.plain s.set).2 }) ∧
      (step stack call.plain s.set).2.dataById.length ≤ (step stack call.plain s.set).2.ids.len := by
  have key : ∀ {α : Type} (f : α → Out T) (m : M (State T) α) (p : M (DSet T) α),
      m s = ((p s.set).1, { s with set := (p s.set).2 }) →
      Call.wrap f m s = ((DS.wrap f p s.set).1, { s with set := (DS.wrap f p s.set).2 }) := by
    intro α f m p h
    unfold Call.wrap DS.wrap
    rw [h]
    generalize p s.set = q
    obtain ⟨r, d⟩ := q
    cases r <;> rfl
  have same : ∀ {α : Type} (f : α → Out T) (m : M (DSet T) α), SameD m →
      (DS.wrap f m s.set).2.dataById.length ≤ (DS.wrap f m s.set).2.ids.len := by
    intro α f m hm
    rw [wrap_snd, (hm s.set).1, (hm s.set).2]
    exact hf
  cases call with
  | makeSet x kp =>
    simp only [Call.plain, step, wrap_snd] at hi' hd'
    have h := quiet_makeSet (std := std) x kp s hf
    exact ⟨key _ _ _ (h.2 hi' hd'), by simp only [Call.plain, step, wrap_snd]; exact h.1.2⟩
  | union x y xp yp =>
    simp only [Call.plain, step, wrap_snd] at hi' hd'
    have h := quiet_union (std := std) stack x y xp yp s hf
    exact ⟨key _ _ _ (h.2 hi' hd'), by simp only [Call.plain, step, wrap_snd]; exact h.1.2⟩
  | reserve k =>
    exact ⟨key (fun _ => .unit) _ (DSet.reserve k false) (reserve_quiet k s hf hi hd), hf⟩
  | extend hint items p =>
    simp only [Call.plain, step, wrap_snd] at hi' hd'
    refine ⟨key _ _ _ (extend_quiet hint items p s hf hi hd hi' hd'), ?_⟩
    simp only [Call.plain, step, wrap_snd]
    exact (quiet_makeAll (std := std) items p s hf).1.2
  | inUnion x y xp yp => exact ⟨rfl, same .bool _ (inUnion_same stack x y xp yp)⟩
  | contains x kp => exact ⟨rfl, same .bool _ (fun s => by cases kp <;> exact ⟨rfl, rfl⟩)⟩
  | len => exact ⟨rfl, hf⟩
  | isEmpty => exact ⟨rfl, hf⟩
  | clear => exact ⟨rfl, Nat.le_refl _⟩
  | iterate o o' => exact ⟨rfl, same .groups _ (iterate_same stack o.f o'.f)⟩

theorem reserve_loud (k : Nat) (s : State T) (hf : s.set.dataById.length = s.set.ids.len)
    (h : (reserve std k s).2.ids.moment ≤ s.ids.moment) (h' : (reserve std k s).2.data.moment ≤ s.data.moment) :
    s.set.ids.len + k ≤ s.ids.cap ∧ s.set.ids.len + k ≤ s.data.cap := by
  rw [reserve, M.bind_run, reserveData] at h h'
  rcases got_or std.vec s.set.dataById.length k s.data with ⟨rd, g1, g2⟩ | ⟨_, g4, g3⟩
  · simp only [g2, reserveIds] at h h'
    rcases got_or std.map s.set.ids.len k s.ids with ⟨ri, k1, k2⟩ | ⟨_, k4, k3⟩
    · simp only [k2] at h h'
      rcases g1 with ⟨g1, rfl⟩ | ⟨_, n, _, rfl⟩
      · rcases k1 with ⟨k1, rfl⟩ | ⟨_, n, _, rfl⟩
        · exact ⟨k1, by omega⟩
        · exact absurd h (Nat.not_succ_le_self _)
      · exact absurd h' (Nat.not_succ_le_self _)
    · simp only [k3] at h
      exact absurd h (Nat.not_succ_le_self _)
  · simp only [g3] at h'
    exact absurd h' (Nat.not_succ_le_self _)

/-- `m` keeps as many nodes as keys -/
def Level {α : Type} (m : M (DSet T) α) : Prop :=
  ∀ s, s.dataById.length = s.ids.len → (m s).2.dataById.length = (m s).2.ids.len

theorem level_bind {α β : Type} {m : M (DSet T) α} {f : α → M (DSet T) β} (hm : Level m) (hf : ∀ a, Level (f a)) :
    Level (m >>= f) := by
  intro s hs
  rw [M.bind_run]
  have h := hm s hs
  generalize m s = q at h ⊢
  obtain ⟨r, s1⟩ := q
  cases r with
  | error e => exact h
  | ok a => exact hf a s1 h

theorem level_same {α : Type} {m : M (DSet T) α} (h : SameD m) : Level m := by
  intro s hs
  rw [(h s).1, (h s).2, hs]

theorem level_make (x : T) (kp : Bool) : Level (DSet.makeOrGetSet x kp) := by
  intro s hs
  rw [(makeOrGetSet_plain s x kp).1, (makeOrGetSet_plain s x kp).2, hs]

theorem level_makeSet (x : T) (kp : Bool) : Level (DSet.makeSet x kp) :=
  level_bind (level_make x kp) fun _ => level_same (sameD_pure _)

theorem level_extend (items : List T) (p : Bool) : Level (DSet.extendLoop items p) := by
  induction items with
  | nil => cases p <;> exact fun _ hs => hs
  | cons x xs ih => exact level_bind (level_makeSet x false) fun _ => ih

theorem call_level [Cfg] (stack : Nat) (call : Call T) : Level (step stack call.plain) := by
  intro s hs
  cases call with
  | makeSet x kp => simp only [Call.plain, step, wrap_snd]; exact level_makeSet x kp s hs
  | union x y xp yp =>
    simp only [Call.plain, step, wrap_snd]
    exact level_bind (level_make x xp) (fun i => level_bind (level_make y yp) fun j =>
      level_same (sameD_onData (unionIds_same stack i j))) s hs
  | reserve k => exact hs
  | extend hint items p => simp only [Call.plain, step, wrap_snd]; exact level_extend items p s hs
  | inUnion x y xp yp =>
    simp only [Call.plain, step, wrap_snd]
    exact level_same (inUnion_same stack x y xp yp) s hs
  | contains x kp => cases kp <;> exact hs
  | len => exact hs
  | isEmpty => exact hs
  | clear => rfl
  | iterate o o' =>
    simp only [Call.plain, step, wrap_snd]
    exact level_same (iterate_same stack o.f o'.f) s hs

/-- A call that leaves the memory alone announced no more elements than there is room for. -/
theorem call_loud [Cfg] (stack : Nat) (call : Call T) (s : State T) (hlen : s.set.dataById.length = s.set.ids.len)
    (hf : Fits s) (h : (call.run std stack s).2.ids.moment ≤ s.ids.moment)
    (h' : (call.run std stack s).2.data.moment ≤ s.data.moment) :
    s.set.ids.len + call.hint ≤ s.ids.cap ∧ s.set.ids.len + call.hint ≤ s.data.cap := by
  have fit : s.set.ids.len ≤ s.ids.cap ∧ s.set.ids.len ≤ s.data.cap := ⟨hf.ids.1, hlen ▸ hf.data.1⟩
  cases call with
  | reserve k =>
    simp only [Call.run, wrapM_snd] at h h'
    exact reserve_loud k s hlen h h'
  | extend hint items p =>
    simp only [Call.run, wrapM_snd, extend] at h h'
    rw [M.bind_run] at h h'
    refine reserve_loud (std := std) hint s hlen ?_ ?_
    all_goals
      generalize reserve std hint s = q at h h' ⊢
      obtain ⟨r, s1⟩ := q
      cases r with
      | error e => assumption
      | ok u =>
        have k := (makeAll_later (std := std) items p s1).2 _ (Nat.le_refl _)
        first
          | exact Nat.le_trans k.ids.2.2 h
          | exact Nat.le_trans k.data.2.2 h'
  | _ => exact fit

/-! ## refused requests -/

/-- `m` does what `p` does, or is refused memory and leaves what one of the panicking `q n` leaves. -/
def Does {α : Type} (std : Stds) (m : M (State T) α) (p : M (DSet T) α) (q : Nat → M (DSet T) α) : Prop :=
  ∀ s : State T, Fits s →
    Fits (m s).2 ∧
    ((∃ ri rd, m s = ((p s.set).1, ⟨(p s.set).2, ri, rd⟩)) ∨
      (std.Refuses ∧ ∃ n s' e, m s = (.error .capacityOverflow, s') ∧ q n s.set = (.error e, s'.set)))

theorem make_does (hc : Calm std) (x : T) (kp : Bool) :
    Does std (makeOrGetSet std x kp) (DSet.makeOrGetSet x kp) (fun _ => M.throw .user) := by
  intro s hf
  have h := makeOrGetSet_made (std := std) x kp s
  refine ⟨((made_later h).2 _ (Nat.le_refl _)).fits hf, ?_⟩
  generalize makeOrGetSet std x kp s = q at h
  cases h with
  | there _ => exact .inl ⟨_, _, rfl⟩
  | made _ _ _ _ => exact .inl ⟨_, _, rfl⟩
  | map _ _ _ h => exact .inr ⟨.inl ⟨_, _, _, h⟩, 0, _, .user, rfl, rfl⟩
  | vec _ _ _ h1 h2 =>
    have h3 := hf.data.1
    have h4 := hf.full
    have h5 : s.set.dataById.length = s.data.slots := by omega
    rw [h5] at h2
    exact absurd h2 (hc _ _)

theorem makeSet_does (hc : Calm std) (x : T) (kp : Bool) :
    Does std (makeSet std x kp) (DSet.makeSet x kp) (fun _ => M.throw .user) := by
  intro s hf
  obtain ⟨h1, h2⟩ := make_does hc x kp s hf
  rw [makeSet, DSet.makeSet, M.bind_run, M.bind_run]
  generalize DSet.makeOrGetSet x kp s.set = pq at h2 ⊢
  generalize makeOrGetSet std x kp s = q at h1 h2 ⊢
  rcases h2 with ⟨ri, rd, rfl⟩ | ⟨hr, n, s', e, rfl, h2⟩
  · obtain ⟨r, d⟩ := pq
    cases r <;> exact ⟨h1, .inl ⟨_, _, rfl⟩⟩
  · have h3 : s.set = s'.set := congrArg Prod.snd h2
    exact ⟨h1, .inr ⟨hr, 0, s', .user, rfl, by rw [← h3]; rfl⟩⟩

theorem makeAll_does (hc : Calm std) (items : List T) (p : Bool) :
    Does std (makeAll std items p) (DSet.extendLoop items p) (fun n => DSet.extendLoop (items.take n) true) := by
  induction items with
  | nil =>
    intro s hf
    cases p <;> exact ⟨hf, .inl ⟨_, _, rfl⟩⟩
  | cons x xs ih =>
    intro s hf
    obtain ⟨h1, h2⟩ := makeSet_does hc x false s hf
    rw [makeAll, DSet.extendLoop, M.bind_run, M.bind_run]
    generalize hpq : DSet.makeSet x false s.set = pq at h2 ⊢
    generalize makeSet std x false s = q at h1 h2 ⊢
    rcases h2 with ⟨ri, rd, rfl⟩ | ⟨hr, n, s', e, rfl, h2⟩
    · obtain ⟨r, d⟩ := pq
      cases r with
      | error e => exact ⟨h1, .inl ⟨_, _, rfl⟩⟩
      | ok u =>
        obtain ⟨k1, k2⟩ := ih ⟨d, ri, rd⟩ h1
        refine ⟨k1, ?_⟩
        rcases k2 with ⟨ri', rd', k2⟩ | ⟨hr, n, s', e, k2, k3⟩
        · exact .inl ⟨ri', rd', k2⟩
        · refine .inr ⟨hr, n + 1, s', e, k2, ?_⟩
          show (DSet.makeSet x false >>= fun _ => DSet.extendLoop (xs.take n) true) s.set = _
          rw [M.bind_ok hpq]
          exact k3
    · have h3 : s.set = s'.set := congrArg Prod.snd h2
      exact ⟨h1, .inr ⟨hr, 0, s', .user, rfl, by rw [← h3]; rfl⟩⟩

theorem reserve_does (k : Nat) : Does (T := T) std (reserve std k) (DSet.reserve k false) (fun _ => DSet.reserve k true) := by
  intro s hf
  have hl := reserve_later (std := std) k s
  refine ⟨(hl.2 _ (Nat.le_refl _)).fits hf, ?_⟩
  have hs := hl.1
  rw [reserve, M.bind_run] at hs ⊢
  unfold reserveData at hs ⊢
  rcases got_or std.vec s.set.dataById.length k s.data with ⟨rd, _, g2⟩ | ⟨_, g4, g3⟩
  · simp only [g2]
    unfold reserveIds
    rcases got_or std.map s.set.ids.len k s.ids with ⟨ri, _, k2⟩ | ⟨_, k4, k3⟩
    · simp only [k2]
      exact .inl ⟨_, _, rfl⟩
    · simp only [k3]
      exact .inr ⟨.inl ⟨_, _, _, k4⟩, 0, _, .capacityOverflow, rfl, rfl⟩
  · simp only [g3]
    exact .inr ⟨.inr ⟨_, _, _, g4⟩, 0, _, .capacityOverflow, rfl, rfl⟩

/-- the call as it is, or what it amounts to -/
theorem call_does [Cfg] (hc : Calm std) (stack : Nat) (call : Call T) (s : State T) (hf : Fits s) :
    Fits (call.run std stack s).2 ∧
    ((∃ ri rd, call.run std stack s = ((step stack call.plain s.set).1, ⟨(step stack call.plain s.set).2, ri, rd⟩)) ∨
      (std.Refuses ∧ ∃ op s' e, call.Refused op ∧ call.run std stack s = (.error .capacityOverflow, s') ∧
        step stack op s.set = (.error e, s'.set))) := by
  refine ⟨(call_later (n := max (s.set.ids.len + call.hint) (call.run std stack s).2.set.ids.len) stack call s
    (Nat.le_max_left _ _) (Nat.le_max_right _ _)).fits hf, ?_⟩
  have ok : ∀ {α : Type} (f : α → Out T) (m : M (State T) α) (p : M (DSet T) α) (ri rd : Room),
      m s = ((p s.set).1, ⟨(p s.set).2, ri, rd⟩) →
      Call.wrap f m s = ((DS.wrap f p s.set).1, ⟨(DS.wrap f p s.set).2, ri, rd⟩) := by
    intro α f m p ri rd h
    unfold Call.wrap DS.wrap
    rw [h]
    generalize p s.set = q
    obtain ⟨r, d⟩ := q
    cases r <;> rfl
  have bad : ∀ {α : Type} (f : α → Out T) (m : M (State T) α) (s' : State T) (e : Fault),
      m s = (.error e, s') → Call.wrap f m s = (.error e, s') := by
    intro α f m s' e h
    unfold Call.wrap
    rw [h]
  have bad' : ∀ {α : Type} (f : α → Out T) (p : M (DSet T) α) (d d' : DSet T) (e : Fault),
      p d = (.error e, d') → DS.wrap f p d = (.error e, d') := by
    intro α f m d d' e h
    unfold DS.wrap
    rw [h]
  cases call with
  | makeSet x kp =>
    rcases (makeSet_does hc x kp s hf).2 with ⟨ri, rd, h⟩ | ⟨hr, n, s', e, h, h'⟩
    · exact .inl ⟨ri, rd, ok _ _ _ _ _ h⟩
    · refine .inr ⟨hr, _, s', .user, .makeSet x kp, bad _ _ _ _ h, ?_⟩
      have h3 : s.set = s'.set := congrArg Prod.snd h'
      rw [← h3]; rfl
  | union x y xp yp =>
    have hx := make_does hc x xp s hf
    have run : ∃ q, union std stack x y xp yp s = q := ⟨_, rfl⟩
    obtain ⟨q, hq⟩ := run
    have hrun := hq
    rw [union, M.bind_run] at hq
    rcases hx.2 with ⟨ri, rd, h⟩ | ⟨hr, n, s', e, h, h'⟩
    · rw [h] at hq
      have hfit := hx.1
      rw [h] at hfit
      have hp : DSet.union stack x y xp yp s.set = _ := M.bind_run _ _ _
      have hp' : DSet.union stack x y xp true s.set = _ := M.bind_run _ _ _
      generalize DSet.makeOrGetSet x xp s.set = px at hq hfit hp hp'
      obtain ⟨r, d⟩ := px
      cases r with
      | error e =>
        refine .inl ⟨ri, rd, ok _ _ (DSet.union stack x y xp yp) _ _ ?_⟩
        rw [hrun, ← hq, hp]
      | ok i =>
        have hy := make_does hc y yp ⟨d, ri, rd⟩ hfit
        change (makeOrGetSet std y yp >>= fun j => onSet (DSet.onData (unionIds stack i j))) ⟨d, ri, rd⟩ = q at hq
        change _ = (DSet.makeOrGetSet y yp >>= fun j => DSet.onData (unionIds stack i j)) d at hp
        rw [M.bind_run] at hq hp
        rcases hy.2 with ⟨ri', rd', h2⟩ | ⟨hr, n, s', e, h2, h2'⟩
        · rw [h2] at hq
          generalize DSet.makeOrGetSet y yp d = py at hq hp
          obtain ⟨r2, d2⟩ := py
          cases r2 with
          | error e =>
            refine .inl ⟨ri', rd', ok _ _ (DSet.union stack x y xp yp) _ _ ?_⟩
            rw [hrun, ← hq, hp]
          | ok j =>
            refine .inl ⟨ri', rd', ok _ _ (DSet.union stack x y xp yp) _ _ ?_⟩
            rw [hrun, ← hq, hp]
            rfl
        · rw [h2] at hq
          refine .inr ⟨hr, _, s', .user, .second x y xp yp, bad _ _ _ _ (hrun.trans hq.symm), ?_⟩
          have h3 : d = s'.set := congrArg Prod.snd h2'
          refine bad' _ (DSet.union stack x y xp true) _ _ _ ?_
          rw [hp', ← h3]
          rfl
    · rw [h] at hq
      refine .inr ⟨hr, _, s', .user, .first x y xp yp, bad _ _ _ _ (hrun.trans hq.symm), ?_⟩
      have h3 : s.set = s'.set := congrArg Prod.snd h'
      rw [← h3]; rfl
  | reserve k =>
    rcases (reserve_does k s hf).2 with ⟨ri, rd, h⟩ | ⟨hr, n, s', e, h, h'⟩
    · exact .inl ⟨ri, rd, ok _ _ (DSet.reserve k false) _ _ h⟩
    · exact .inr ⟨hr, _, s', e, .reserve k, bad _ _ _ _ h, bad' (fun _ => .unit) (DSet.reserve k true) _ _ _ h'⟩
  | extend hint items p =>
    have run : ∃ q, extend std hint items p s = q := ⟨_, rfl⟩
    obtain ⟨q, hq⟩ := run
    have hrun := hq
    rw [extend, M.bind_run] at hq
    have hq' := reserve_does (std := std) hint s hf
    rcases hq'.2 with ⟨ri, rd, h⟩ | ⟨hr, n, s', e, h, h'⟩
    · have hfit := hq'.1
      rw [h] at hq hfit
      change makeAll std items p ⟨s.set, ri, rd⟩ = q at hq
      rcases (makeAll_does hc items p ⟨s.set, ri, rd⟩ hfit).2 with ⟨ri', rd', h2⟩ | ⟨hr, n, s', e, h2, h2'⟩
      · exact .inl ⟨ri', rd', ok _ _ (DSet.extend hint false items p) _ _ (hrun.trans (hq.symm.trans h2))⟩
      · exact .inr ⟨hr, _, s', e, .extend hint items p n, bad _ _ _ _ (hrun.trans (hq.symm.trans h2)),
          bad' _ (DSet.extend hint false (items.take n) true) _ _ _ h2'⟩
    · rw [h] at hq
      have h3 : s.set = s'.set := congrArg Prod.snd h'
      refine .inr ⟨hr, _, s', .capacityOverflow, .announced hint items p, bad _ _ _ _ (hrun.trans hq.symm), ?_⟩
      rw [← h3]; rfl
  | inUnion x y xp yp => exact .inl ⟨_, _, rfl⟩
  | contains x kp => exact .inl ⟨_, _, rfl⟩
  | len => exact .inl ⟨_, _, rfl⟩
  | isEmpty => exact .inl ⟨_, _, rfl⟩
  | clear => exact .inl ⟨_, _, rfl⟩
  | iterate o o' => exact .inl ⟨_, _, rfl⟩

/-! ## constructors -/

theorem withCapacity_made (n : Nat) (s : State T) (hs : withCapacity std n = .ok s) :
    s.set = DSet.new ∧ Got std.map 0 n {} s.ids ∧ Got std.vec 0 n {} s.data := by
  unfold withCapacity at hs
  rcases got_or std.map 0 n {} with ⟨ri, g1, g2⟩ | ⟨_, _, g3⟩
  · rw [g2] at hs
    simp only at hs
    rcases got_or std.vec 0 n {} with ⟨rd, k1, k2⟩ | ⟨_, _, k3⟩
    · rw [k2] at hs
      cases hs
      exact ⟨rfl, g1, k1⟩
    · rw [k3] at hs; cases hs
  · rw [g3] at hs; cases hs

theorem withCapacity_fits (n : Nat) (s : State T) (hs : withCapacity std n = .ok s) : Fits s := by
  obtain ⟨h1, h2, h3⟩ := withCapacity_made n s hs
  refine ⟨?_, ?_, h3.full rfl, ?_⟩
  · rw [h1]; exact ⟨Nat.zero_le _, h2.cap_slots (Nat.le_refl _)⟩
  · rw [h1]; exact ⟨Nat.zero_le _, h3.cap_slots (Nat.le_refl _)⟩
  · rw [h1]; exact Nat.le_refl _

theorem fromIterLoop_eq (items : List T) (p : Bool) : DSet.fromIterLoop items p = DSet.extendLoop items p := by
  induction items with
  | nil => rfl
  | cons x xs ih => simp only [DSet.fromIterLoop, DSet.extendLoop, ih]

theorem makeSet_ok (x : T) (kp : Bool) (s s' : State T) (h : makeSet std x kp s = (.ok (), s')) :
    DSet.makeSet x kp s.set = (.ok (), s'.set) := by
  rw [makeSet, M.bind_run] at h
  rw [DSet.makeSet, M.bind_run]
  have hm := makeOrGetSet_made (std := std) x kp s
  generalize makeOrGetSet std x kp s = q at h hm
  cases hm with
  | there _ =>
    generalize DSet.makeOrGetSet x kp s.set = pq at h ⊢
    obtain ⟨r, d⟩ := pq
    cases r with
    | error e => simp at h
    | ok i => rw [← show _ = s' from congrArg Prod.snd h] <;> rfl
  | made _ _ _ _ =>
    generalize DSet.makeOrGetSet x kp s.set = pq at h ⊢
    obtain ⟨r, d⟩ := pq
    cases r with
    | error e => simp at h
    | ok i => rw [← show _ = s' from congrArg Prod.snd h] <;> rfl
  | map _ _ _ _ => simp at h
  | vec _ _ _ _ _ => simp at h

theorem makeAll_ok (items : List T) (p : Bool) (s s' : State T) (h : makeAll std items p s = (.ok (), s')) :
    DSet.extendLoop items p s.set = (.ok (), s'.set) := by
  induction items generalizing s with
  | nil =>
    cases p with
    | true => simp [makeAll, M.throw] at h
    | false =>
      have : s = s' := congrArg Prod.snd h
      rw [← this]
      rfl
  | cons x xs ih =>
    rw [makeAll, M.bind_run] at h
    cases hq : makeSet std x false s with
    | mk r s1 =>
      rw [hq] at h
      cases r with
      | error e => simp at h
      | ok u =>
        rw [DSet.extendLoop, M.bind_ok (makeSet_ok x false s s1 hq)]
        exact ih s1 h

theorem fromIter_made (hint : Nat) (items : List T) (s : State T)
    (hs : fromIter std hint items false = .ok s) :
    DSet.fromIter items false = .ok s.set ∧ Fits s ∧
      ∃ s0, withCapacity std hint = .ok s0 ∧ makeAll std items false s0 = (.ok (), s) := by
  rw [fromIter] at hs
  cases hw : withCapacity (T := T) std hint with
  | error e => rw [hw] at hs; cases hs
  | ok s0 =>
    rw [hw] at hs
    change (match makeAll std items false s0 with | (.ok _, s) => .ok s | (.error e, _) => .error e) = Except.ok s at hs
    have h0 := (withCapacity_made hint s0 hw).1
    have hl := makeAll_later (std := std) items false s0
    cases hq : makeAll std items false s0 with
    | mk r s1 =>
      rw [hq] at hs hl
      cases r with
      | error e => cases hs
      | ok u =>
        cases hs
        refine ⟨?_, (hl.2 _ (Nat.le_refl _)).fits (withCapacity_fits hint s0 hw), s0, rfl, hq⟩
        have := makeAll_ok items false s0 s hq
        rw [h0] at this
        rw [DSet.fromIter, fromIterLoop_eq, this]

theorem start_made (st : Start T) (s : State T) (hs : st.make std = .ok s) :
    st.plain.make = .ok s.set ∧ Fits s := by
  cases st with
  | withCapacity n => exact ⟨by rw [(withCapacity_made n s hs).1]; rfl, withCapacity_fits n s hs⟩
  | fromIter hint items =>
    obtain ⟨h1, h2, _⟩ := fromIter_made hint items s hs
    exact ⟨h1, h2⟩

/-! ## the vector refused -/

/-- The nodes from `m` on lead nowhere: each has a parent behind it. The others know nothing of them. -/
structure Dead (m : Nat) (d : List Data) : Prop where
  low : ∀ i x, d[i]? = some x → i < m → x.parent < m
  high : ∀ i x, d[i]? = some x → m ≤ i → i < x.parent

theorem Dead.set {m : Nat} {d : List Data} (h : Dead m d) {i : Nat} (hi : i < m) {x : Data} (hx : x.parent < m) :
    Dead m (d.set i x) := by
  constructor
  · intro j y hy hj
    rw [List.getElem?_set] at hy
    split at hy
    · split at hy
      · cases hy; exact hx
      · cases hy
    · exact h.low j y hy hj
  · intro j y hy hj
    rw [List.getElem?_set_ne (by omega)] at hy
    exact h.high j y hy hj

theorem find_dead {m : Nat} (stack i : Nat) {d : List Data} (h : Dead m d) (hi : m ≤ i) :
    ∃ e, find stack i d = (.error e, d) := by
  induction stack generalizing i with
  | zero => exact ⟨_, rfl⟩
  | succ stack ih =>
    rw [find, M.bind_run, at']
    cases hx : d[i]? with
    | none => exact ⟨_, rfl⟩
    | some x =>
      have hp := h.high i x hx hi
      simp only
      rw [if_pos (by omega), M.bind_run]
      obtain ⟨e, he⟩ := ih x.parent (by omega)
      rw [he]
      exact ⟨e, rfl⟩

theorem find_alive {m : Nat} (stack i : Nat) {d : List Data} (h : Dead m d) (hi : i < m) :
    Dead m (find stack i d).2 ∧ ∀ r, (find stack i d).1 = .ok r → r < m := by
  induction stack generalizing i d with
  | zero => exact ⟨h, fun r hr => by cases hr⟩
  | succ stack ih =>
    rw [find, M.bind_run, at']
    cases hx : d[i]? with
    | none => exact ⟨h, fun r hr => by cases hr⟩
    | some x =>
      have hp := h.low i x hx hi
      simp only
      by_cases he : x.parent ≠ i
      · rw [if_pos he, M.bind_run]
        have hf := ih x.parent h hp
        generalize find stack x.parent d = q at hf ⊢
        obtain ⟨r, d1⟩ := q
        cases r with
        | error e => exact ⟨hf.1, fun r hr => by cases hr⟩
        | ok r =>
          have hr := hf.2 r rfl
          show Dead m ((setParent i r >>= fun _ => pure r) d1).2 ∧ ∀ r', ((setParent i r >>= fun _ => pure r) d1).1 = .ok r' → r' < m
          rw [M.bind_run, setParent]
          cases hy : d1[i]? with
          | none => exact ⟨hf.1, fun r hr => by cases hr⟩
          | some y =>
            refine ⟨hf.1.set hi hr, fun r' hr' => ?_⟩
            cases hr'
            exact hr
      · rw [if_neg he]
        exact ⟨h, fun r hr => by cases hr; exact hp⟩

theorem find_keeps {m : Nat} (stack i : Nat) {d : List Data} (h : Dead m d) : Dead m (find stack i d).2 := by
  by_cases hi : i < m
  · exact (find_alive stack i h hi).1
  · obtain ⟨e, he⟩ := find_dead stack i h (by omega)
    rw [he]; exact h

theorem setParent_keeps {m i p : Nat} {d : List Data} (h : Dead m d) (hi : i < m) (hp : p < m) :
    Dead m (setParent i p d).2 := by
  unfold setParent
  split
  · exact h.set hi hp
  · exact h

theorem incRank_keeps [Cfg] {m i : Nat} {d : List Data} (h : Dead m d) (hi : i < m) : Dead m (incRank i d).2 := by
  unfold incRank
  split
  · next x hx =>
    split
    · exact h.set hi (h.low i x hx hi)
    · exact h
  · exact h

theorem keeps_bind {m : Nat} {α β : Type} {f : M (List Data) α} {g : α → M (List Data) β} {d : List Data}
    (hf : Dead m (f d).2) (hg : ∀ a d', (f d) = (.ok a, d') → Dead m (g a d').2) : Dead m ((f >>= g) d).2 := by
  rw [M.bind_run]
  generalize f d = q at hf hg ⊢
  obtain ⟨r, d1⟩ := q
  cases r with
  | error e => exact hf
  | ok a => exact hg a d1 rfl

theorem unionIds_keeps [Cfg] {m : Nat} (stack i j : Nat) {d : List Data} (h : Dead m d) :
    Dead m (unionIds stack i j d).2 := by
  refine keeps_bind (find_keeps stack i h) fun ra d1 h1 => ?_
  by_cases hi : i < m
  · have ha := find_alive stack i h hi
    rw [h1] at ha
    have hra := ha.2 ra rfl
    refine keeps_bind (find_keeps stack j ha.1) fun rb d2 h2 => ?_
    by_cases hj : j < m
    · have hb := find_alive stack j ha.1 hj
      rw [h2] at hb
      have hrb := hb.2 rb rfl
      split
      · exact hb.1
      · refine keeps_bind (by rw [at_length]; exact hb.1) fun x d3 h3 => ?_
        have e3 : d3 = d2 := by have := at_length ra d2; rw [h3] at this; exact this
        subst e3
        refine keeps_bind (by rw [at_length]; exact hb.1) fun y d4 h4 => ?_
        have e4 : d4 = d3 := by have := at_length rb d3; rw [h4] at this; exact this
        subst e4
        have low : ∀ (p q : Nat), p < m → q < m → Dead m ((do
            setParent q p
            let x ← at' p
            let y ← at' q
            if x.rank = y.rank then incRank p : M (List Data) Unit) d4).2 := by
          intro p q hp hq
          refine keeps_bind (setParent_keeps hb.1 hq hp) fun _ d5 h5 => ?_
          have k5 : Dead m d5 := by have := setParent_keeps hb.1 hq hp; rw [h5] at this; exact this
          refine keeps_bind (by rw [at_length]; exact k5) fun x' d6 h6 => ?_
          have e6 : d6 = d5 := by have := at_length p d5; rw [h6] at this; exact this
          subst e6
          refine keeps_bind (by rw [at_length]; exact k5) fun y' d7 h7 => ?_
          have e7 : d7 = d6 := by have := at_length q d6; rw [h7] at this; exact this
          subst e7
          split
          · exact incRank_keeps k5 hp
          · exact k5
        by_cases hr : x.rank < y.rank
        · simp only [if_pos hr]
          exact low rb ra hrb hra
        · simp only [if_neg hr]
          exact low ra rb hra hrb
    · obtain ⟨e, he⟩ := find_dead stack j ha.1 (by omega)
      rw [he] at h2; cases h2
  · obtain ⟨e, he⟩ := find_dead stack i h (by omega)
    rw [he] at h1; cases h1

/-- A key is missing in the vector. It and all keys that are not `old` have nodes that lead nowhere. -/
structure Poisoned (w : Nat) (old : T → Prop) (x : T) (s : DSet T) : Prop where
  has : (s.ids.get x).isSome
  young : ∀ y i, s.ids.get y = some i → ¬old y → w ≤ i
  low : w ≤ s.dataById.length
  dead : Dead w s.dataById
  behind : s.dataById.length < s.ids.len

variable {w : Nat} {old : T → Prop}

theorem Poisoned.step {x : T} {s s' : DSet T} (h : Poisoned w old x s) (hi : s'.ids = s.ids)
    (hl : s'.dataById.length = s.dataById.length) (hd : Dead w s.dataById → Dead w s'.dataById) :
    Poisoned w old x s' := by
  obtain ⟨h1, h2, h3, h4, h5⟩ := h
  exact ⟨by rw [hi]; exact h1, by rw [hi]; exact h2, by rw [hl]; exact h3, hd h4, by rw [hi, hl]; exact h5⟩

theorem dead_append {m : Nat} {d : List Data} (h : Dead m d) (hm : m ≤ d.length) {n : Nat} (hn : d.length < n) :
    Dead m (d ++ [Data.new n]) := by
  constructor
  · intro i y hy hi
    rw [List.getElem?_append_left (by omega)] at hy
    exact h.low i y hy hi
  · intro i y hy hi
    by_cases hl : i < d.length
    · rw [List.getElem?_append_left hl] at hy
      exact h.high i y hy hi
    · rw [List.getElem?_append_right (by omega)] at hy
      rcases Nat.eq_or_lt_of_le (Nat.not_lt.mp hl) with e | e
      · rw [← e] at hy ⊢
        simp only [Nat.sub_self, List.getElem?_cons_zero, Option.some.injEq] at hy
        subst hy
        exact hn
      · rw [List.getElem?_eq_none (by simp; omega)] at hy
        cases hy

theorem insert_young {x y : T} {s : DSet T} (h : Poisoned w old x s) (hg : s.ids.get y = none) :
    ((s.ids.insert y s.ids.len).get x).isSome ∧
      (∀ z i, (s.ids.insert y s.ids.len).get z = some i → ¬old z → w ≤ i) ∧
      (s.ids.insert y s.ids.len).len = s.ids.len + 1 := by
  refine ⟨?_, fun z i hz ho => ?_, ?_⟩
  · rw [HMap.get_insert]
    split
    · rfl
    · exact h.has
  · rw [HMap.get_insert] at hz
    split at hz
    · cases hz
      have := h.low
      have := h.behind
      omega
    · exact h.young z i hz ho
  · simp only [HMap.len_insert, hg, Option.isSome_none, Bool.false_eq_true, if_false]

theorem made_poisoned {x y : T} {kp : Bool} {s : State T} {q : Except Fault Nat × State T} (h : Made std y kp s q)
    (hx : Poisoned w old x s.set) : Poisoned w old x q.2.set := by
  cases h with
  | there hk =>
    have : (DSet.makeOrGetSet y kp s.set).2 = s.set := by
      simp only [DSet.makeOrGetSet]
      cases kp with
      | true => rfl
      | false =>
        cases hg : s.set.ids.get y with
        | none => exact absurd ⟨rfl, hg⟩ hk
        | some j => rfl
    rw [this]
    exact hx
  | made hk hg gi gd =>
    subst hk
    have hp : DSet.makeOrGetSet y false s.set = (.ok s.set.ids.len,
        { ids := s.set.ids.insert y s.set.ids.len, dataById := s.set.dataById ++ [Data.new s.set.ids.len] }) := by
      simp [DSet.makeOrGetSet, hg]
    rw [hp]
    obtain ⟨k1, k2, k3⟩ := insert_young hx hg
    have h3 := hx.low
    have h5 := hx.behind
    refine ⟨k1, k2, ?_, dead_append hx.dead h3 h5, ?_⟩
    · simp only [List.length_append]; omega
    · simp only [List.length_append, List.length_singleton, k3]; omega
  | map _ _ _ _ => exact hx
  | vec hk hg _ _ _ =>
    obtain ⟨k1, k2, k3⟩ := insert_young hx hg
    have h5 := hx.behind
    exact ⟨k1, k2, hx.low, hx.dead, by simp only [k3]; omega⟩

theorem poisoned_bind {x : T} {α β : Type} {m : M (State T) α} {f : α → M (State T) β} {s : State T}
    (hm : Poisoned w old x (m s).2.set) (hf : ∀ a s', Poisoned w old x s'.set → Poisoned w old x (f a s').2.set) :
    Poisoned w old x ((m >>= f) s).2.set := by
  rw [M.bind_run]
  generalize m s = q at hm ⊢
  obtain ⟨r, s1⟩ := q
  cases r with
  | error e => exact hm
  | ok a => exact hf a s1 hm

theorem poisoned_bindD {x : T} {α β : Type} {m : M (DSet T) α} {f : α → M (DSet T) β} {s : DSet T}
    (hm : Poisoned w old x (m s).2) (hf : ∀ a s', Poisoned w old x s' → Poisoned w old x (f a s').2) :
    Poisoned w old x ((m >>= f) s).2 := by
  rw [M.bind_run]
  generalize m s = q at hm ⊢
  obtain ⟨r, s1⟩ := q
  cases r with
  | error e => exact hm
  | ok a => exact hf a s1 hm

theorem poisoned_find {x : T} (stack i : Nat) {s : DSet T} (h : Poisoned w old x s) :
    Poisoned w old x (DSet.onData (find stack i) s).2 :=
  h.step rfl (find_same stack i s.dataById) fun hd => find_keeps stack i hd

theorem makeSet_poisoned {x : T} (y : T) (kp : Bool) {s : State T} (h : Poisoned w old x s.set) :
    Poisoned w old x (makeSet std y kp s).2.set :=
  poisoned_bind (made_poisoned (makeOrGetSet_made y kp s) h) fun _ _ h => h

theorem makeAll_poisoned {x : T} (items : List T) (p : Bool) {s : State T} (h : Poisoned w old x s.set) :
    Poisoned w old x (makeAll std items p s).2.set := by
  induction items generalizing s with
  | nil => cases p <;> exact h
  | cons y ys ih => exact poisoned_bind (makeSet_poisoned y false h) fun _ _ h => ih h

theorem buildLoop_poisoned {x : T} (stack : Nat) (es : List (T × Nat)) (m : HMap Nat (List T)) {s : DSet T}
    (h : Poisoned w old x s) : Poisoned w old x (DSet.buildLoop stack es m s).2 := by
  induction es generalizing m s with
  | nil => exact h
  | cons e es ih => exact poisoned_bindD (poisoned_find stack e.2 h) fun _ _ h => ih _ h

theorem call_poisoned [Cfg] {x : T} (stack : Nat) (call : Call T) (hc : call ≠ .clear) {s : State T}
    (h : Poisoned w old x s.set) : Poisoned w old x (call.run std stack s).2.set := by
  cases call with
  | makeSet y kp =>
    simp only [Call.run, wrapM_snd]
    exact makeSet_poisoned y kp h
  | union y z yp zp =>
    simp only [Call.run, wrapM_snd]
    exact poisoned_bind (made_poisoned (makeOrGetSet_made y yp s) h) fun i s' h' =>
      poisoned_bind (made_poisoned (makeOrGetSet_made z zp s') h') fun j s'' h'' =>
        h''.step rfl (unionIds_same stack i j s''.set.dataById) fun hd => unionIds_keeps stack i j hd
  | reserve k =>
    simp only [Call.run, wrapM_snd]
    rw [(reserve_later (std := std) k s).1]
    exact h
  | extend hint items p =>
    simp only [Call.run, wrapM_snd]
    exact poisoned_bind (by rw [(reserve_later (std := std) hint s).1]; exact h) fun _ _ h => makeAll_poisoned items p h
  | inUnion y z yp zp =>
    show Poisoned w old x (DS.wrap .bool (DSet.inUnion stack y z yp zp) s.set).2
    rw [wrap_snd]
    have lk : ∀ (y : T) (kp : Bool) (s : DSet T), Poisoned w old x s → Poisoned w old x (DSet.lookup y kp s).2 := by
      intro y kp s h
      cases kp <;> exact h
    refine poisoned_bindD (lk y yp s.set h) fun i s' h' => ?_
    cases i with
    | none => exact h'
    | some i =>
      refine poisoned_bindD (lk z zp s' h') fun j s'' h'' => ?_
      cases j with
      | none => exact h''
      | some j =>
        exact poisoned_bindD (poisoned_find stack i h'') fun _ _ h => poisoned_bindD (poisoned_find stack j h) fun _ _ h => h
  | contains y kp =>
    show Poisoned w old x (DS.wrap .bool (DSet.contains y kp) s.set).2
    rw [wrap_snd]
    cases kp <;> exact h
  | len => exact h
  | isEmpty => exact h
  | clear => exact (hc rfl).elim
  | iterate o o' =>
    show Poisoned w old x (DS.wrap .groups (DSet.iterate stack o.f o'.f) s.set).2
    rw [wrap_snd]
    exact poisoned_bindD (buildLoop_poisoned stack _ _ h) fun _ _ h => h

theorem buildLoop_fails {x : T} {i : Nat} (stack : Nat) (es : List (T × Nat)) (m : HMap Nat (List T)) {s : DSet T}
    {k : Nat} (hd : Dead k s.dataById) (hi : k ≤ i) (he : (x, i) ∈ es) :
    ∃ e, (DSet.buildLoop stack es m s).1 = .error e := by
  induction es generalizing m s with
  | nil => cases he
  | cons e es ih =>
    rw [DSet.buildLoop, M.bind_run]
    rcases List.mem_cons.mp he with rfl | he
    · obtain ⟨f, hf⟩ := find_dead stack i hd hi
      have : DSet.onData (find stack i) s = (.error f, s) := by
        rw [DSet.onData, hf]
      rw [this]
      exact ⟨f, rfl⟩
    · have hk := find_keeps stack e.2 hd
      have hk' : Dead k (DSet.onData (find stack e.2) s).2.dataById := hk
      generalize DSet.onData (find stack e.2) s = q at hk' ⊢
      obtain ⟨r, s1⟩ := q
      cases r with
      | error f => exact ⟨f, rfl⟩
      | ok r => exact ih _ hk' he

theorem history_quiet [Cfg] (stack n : Nat) (calls : List (Call T)) (s : State T)
    (hf : s.set.dataById.length ≤ s.set.ids.len) (hi : n ≤ s.ids.cap) (hd : n ≤ s.data.cap)
    (hw : Within stack n calls s.set) :
    runAll std stack calls s =
      ((DS.run stack (calls.map Call.plain) s.set).1, ⟨(DS.run stack (calls.map Call.plain) s.set).2, s.ids, s.data⟩) := by
  induction calls generalizing s with
  | nil => rfl
  | cons f fs ih =>
    obtain ⟨w1, w2, w3⟩ := hw
    have w1' : s.set.ids.len + f.hint ≤ n := w1
    have w2' : (step stack f.plain s.set).2.ids.len ≤ n := w2
    obtain ⟨h1, h2⟩ := call_quiet (std := std) stack f s hf (by omega) (by omega) (by omega) (by omega)
    have h3 := ih { s with set := (step stack f.plain s.set).2 } h2 hi hd w3
    simp only [runAll, h1, h3]
    rfl

theorem history_as_if [Cfg] (hc : Calm std) (stack : Nat) (calls : List (Call T)) (s : State T) (hf : Fits s) :
    ∃ ops, AsIf std calls ops (runAll std stack calls s).1 (DS.run stack ops s.set).1 ∧
      (runAll std stack calls s).2.set = (DS.run stack ops s.set).2 ∧
      (¬std.Refuses → ops = calls.map Call.plain) := by
  induction calls generalizing s with
  | nil => exact ⟨[], trivial, rfl, fun _ => rfl⟩
  | cons f fs ih =>
    obtain ⟨h1, h2⟩ := call_does hc stack f s hf
    obtain ⟨ops, i1, i2, i3⟩ := ih (f.run std stack s).2 h1
    simp only [runAll]
    generalize f.run std stack s = q at h1 h2 i1 i2 ⊢
    rcases h2 with ⟨ri, rd, rfl⟩ | ⟨hr, op, s', e, k1, rfl, k3⟩
    · refine ⟨f.plain :: ops, ⟨.inl ⟨rfl, rfl⟩, i1⟩, i2, fun hr => ?_⟩
      rw [i3 hr]; rfl
    · refine ⟨op :: ops, ?_, ?_, fun h => absurd hr h⟩
      · simp only [DS.run, k3]
        exact ⟨.inr ⟨hr, k1, rfl, e, rfl⟩, i1⟩
      · simp only [DS.run, k3]
        exact i2

theorem history_poisoned [Cfg] {x : T} (stack : Nat) (calls : List (Call T)) (hc : ∀ f ∈ calls, f ≠ .clear) (s : State T)
    (h : Poisoned w old x s.set) : Poisoned w old x (runAll std stack calls s).2.set := by
  induction calls generalizing s with
  | nil => exact h
  | cons f fs ih =>
    exact ih (fun g hg => hc g (List.mem_cons_of_mem _ hg)) _ (call_poisoned stack f (hc f List.mem_cons_self) h)

theorem poisoned_fails [Cfg] {x y z : T} (stack : Nat) {s : DSet T} (h : Poisoned w old x s) {i : Nat}
    (hy : s.ids.get y = some i) (ho : ¬old y) :
    (∃ e, (DSet.inUnion stack y y false false s).1 = .error e) ∧
    ((s.ids.get z).isSome → ∃ e, (DSet.inUnion stack y z false false s).1 = .error e) ∧
    (∃ e, (DSet.union stack y y false false s).1 = .error e) ∧
    (∀ o o' : List _ → List _, (∀ l, (o l).Perm l) → ∃ e, (DSet.iterate stack o o' s).1 = .error e) := by
  have hi := h.young y i hy ho
  obtain ⟨e, he⟩ := find_dead stack i h.dead hi
  have hd : DSet.onData (T := T) (find stack i) s = (.error e, s) := by rw [DSet.onData, he]
  have hl : DSet.lookup y false s = (.ok (some i), s) := by rw [← hy]; rfl
  have in_ : ∀ z j, s.ids.get z = some j → (DSet.inUnion stack y z false false s).1 = .error e := by
    intro z j hj
    have hl' : DSet.lookup z false s = (.ok (some j), s) := by rw [← hj]; rfl
    rw [DSet.inUnion, M.bind_ok hl]
    simp only
    rw [M.bind_ok hl']
    simp only
    rw [M.bind_error hd]
  refine ⟨⟨e, in_ y i hy⟩, fun hz => ?_, ⟨e, ?_⟩, fun o o' ho' => ?_⟩
  · obtain ⟨j, hj⟩ := Option.isSome_iff_exists.mp hz
    exact ⟨e, in_ z j hj⟩
  · have hm : DSet.makeOrGetSet y false s = (.ok i, s) := by simp [DSet.makeOrGetSet, hy]
    rw [DSet.union, M.bind_ok hm, M.bind_ok hm]
    have : DSet.onData (unionIds stack i i) s = (.error e, s) := by
      rw [DSet.onData, unionIds, M.bind_error he]
    rw [this]
  · have hmem : (y, i) ∈ o s.ids.entries := (ho' _).mem_iff.mpr (HMap.mem_of_lookup hy)
    obtain ⟨f, hf⟩ := buildLoop_fails (x := y) stack (o s.ids.entries) HMap.empty h.dead hi hmem
    refine ⟨f, ?_⟩
    rw [DSet.iterate, M.bind_run]
    have hb : DSet.buildSets stack o s = DSet.buildLoop stack (o s.ids.entries) HMap.empty s := rfl
    rw [hb]
    generalize DSet.buildLoop stack (o s.ids.entries) HMap.empty s = q at hf ⊢
    obtain ⟨r, s1⟩ := q
    simp only at hf
    subst hf
    rfl

end
end DS.Mem
