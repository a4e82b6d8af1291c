import Verif.DS.ModelMemIter
import Verif.DS.LemmasMem
import Verif.DS.Flat
import Verif.DS.Local
import Verif.Map.Growth
/-!
# Lemmas on the memory of an iteration
-/

open Rust Mem
namespace DS.Mem

section
variable {T : Type} [DecidableEq T] {std : IterStds}

/-- the grouping step of the model without memory -/
def plainAdd (root : Nat) (key : T) (m : HMap Nat (List T)) : HMap Nat (List T) :=
  (m.orInsert root []).2.insert root ((m.orInsert root []).1 ++ [key])

/-- one round of the loop, the root being known -/
def Local.add (std : IterStds) (root : Nat) (key : T) (l : Local T) : Except Fault (Local T) :=
  match l.entry std root with
  | .ok l => l.push std root key
  | .error e => .error e

omit [DecidableEq T] in
theorem buildLoop_cons (stack : Nat) (key : T) (val : Nat) (rest : List (T × Nat)) (l : Local T) (s : DSet T) :
    buildLoop std stack ((key, val) :: rest) l s =
      match (DSet.onData (find stack val) : M (DSet T) Nat) s with
      | (.error e, s') => (.error e, s')
      | (.ok root, s') =>
        match l.add std root key with
        | .ok l' => buildLoop std stack rest l' s'
        | .error e => (.error e, s') := by
  rw [buildLoop, M.bind_run]
  rcases (DSet.onData (find stack val) : M (DSet T) Nat) s with ⟨q, s'⟩
  cases q with
  | error e => rfl
  | ok root =>
    simp only [Local.add]
    rw [M.bind_run, M.lift]
    cases l.entry std root with
    | error e => rfl
    | ok l1 =>
      simp only
      rw [M.bind_run, M.lift]
      cases l1.push std root key <;> rfl

omit [DecidableEq T] in
theorem plainLoop_cons (stack : Nat) (key : T) (val : Nat) (rest : List (T × Nat)) (m : HMap Nat (List T)) (s : DSet T) :
    DSet.buildLoop stack ((key, val) :: rest) m s =
      match (DSet.onData (find stack val) : M (DSet T) Nat) s with
      | (.error e, s') => (.error e, s')
      | (.ok root, s') => DSet.buildLoop stack rest (plainAdd root key m) s' := by
  rw [DSet.buildLoop, M.bind_run]
  rcases (DSet.onData (find stack val) : M (DSet T) Nat) s with ⟨q, s'⟩
  cases q <;> rfl

/-- a round that is granted the memory it needs -/
structure Added (std : IterStds) (root : Nat) (key : T) (l l' : Local T) : Prop where
  sets : l'.sets = plainAdd root key l.sets
  map : match l.sets.get root with
    | some _ => l'.map = l.map
    | none => Got std.map l.sets.len 1 l.map l'.map
  vec : Got (std.vec root) ((l.sets.get root).getD []).length 1 (l.vecs root) (l'.vecs root)
  others : ∀ r, r ≠ root → l'.vecs r = l.vecs r

/-- some request is refused -/
def IterStds.Refuses (std : IterStds) : Prop :=
  (∃ m s n, std.map.grow m s n = none) ∨ ∃ r m s n, (std.vec r).grow m s n = none

omit [DecidableEq T] in
theorem push_cases (root : Nat) (key : T) (l : Local T) :
    (∃ room, Got (std.vec root) ((l.sets.get root).getD []).length 1 (l.vecs root) room ∧
      l.push std root key = .ok { l with sets := l.sets.insert root ((l.sets.get root).getD [] ++ [key]),
                                         vecs := fun r => if r = root then room else l.vecs r }) ∨
    l.push std root key = .error .capacityOverflow ∧ std.Refuses := by
  rcases got_or (std.vec root) ((l.sets.get root).getD []).length 1 (l.vecs root) with ⟨room, g, h⟩ | ⟨_, g, h⟩
  · refine .inl ⟨room, g, ?_⟩
    simp only [Local.push]
    rw [h]
  · refine .inr ⟨?_, .inr ⟨_, _, _, _, g⟩⟩
    simp only [Local.push]
    rw [h]

omit [DecidableEq T] in
theorem insert_same (m : HMap Nat (List T)) (root : Nat) (u v : List T) :
    (m.insert root u).get root = some u ∧ ((m.insert root u).get root).getD v = u := by
  rw [HMap.get_insert, if_pos rfl]; exact ⟨rfl, rfl⟩

omit [DecidableEq T] in
theorem add_cases (root : Nat) (key : T) (l : Local T) :
    (∃ l', l.add std root key = .ok l' ∧ Added std root key l l') ∨
    l.add std root key = .error .capacityOverflow ∧ std.Refuses := by
  cases hg : l.sets.get root with
  | some g =>
    have he : l.entry std root = .ok l := by simp only [Local.entry, hg]
    have ha : l.add std root key = l.push std root key := by simp only [Local.add, he]
    rw [ha]
    rcases push_cases (std := std) root key l with ⟨room, g1, h⟩ | h
    · refine .inl ⟨_, h, ?_, ?_, ?_, fun r hr => if_neg hr⟩
      · simp only [plainAdd, HMap.orInsert, hg, Option.getD_some]
      · rw [hg]
      · simp only; exact g1
    · exact .inr h
  | none =>
    rcases got_or std.map l.sets.len 1 l.map with ⟨room, g, h⟩ | ⟨_, g, h⟩
    · have he : l.entry std root = .ok { l with sets := l.sets.insert root [], map := room } := by
        simp only [Local.entry, hg, h]
      have ha : l.add std root key =
          ({ l with sets := l.sets.insert root [], map := room } : Local T).push std root key := by
        simp only [Local.add, he]
      rw [ha]
      rcases push_cases (std := std) root key { l with sets := l.sets.insert root [], map := room } with
        ⟨room', g1, h1⟩ | h1
      · simp only [(insert_same l.sets root [] []).2] at g1 h1
        refine .inl ⟨_, h1, ?_, ?_, ?_, fun r hr => if_neg hr⟩
        · simp only [plainAdd, HMap.orInsert, hg]
        · rw [hg]; exact g
        · simp only [hg, Option.getD_none]; exact g1
      · exact .inr h1
    · refine .inr ⟨?_, .inl ⟨_, _, _, g⟩⟩
      simp only [Local.add, Local.entry, hg, h]

omit [DecidableEq T] in
/-- The loop with memory does what the loop without memory does, unless it is refused memory: then the searches up to that
element were made. -/
theorem loop_cases (stack : Nat) (es : List (T × Nat)) (l : Local T) (s : DSet T) :
    (∃ l' s', buildLoop std stack es l s = (.ok l', s') ∧ DSet.buildLoop stack es l.sets s = (.ok l'.sets, s')) ∨
    (∃ e s', buildLoop std stack es l s = (.error e, s') ∧ DSet.buildLoop stack es l.sets s = (.error e, s')) ∨
    std.Refuses ∧ ∃ n s', n < es.length ∧ buildLoop std stack es l s = (.error .capacityOverflow, s') ∧
      s' = (DSet.buildLoop stack (es.take (n + 1)) l.sets s).2 := by
  induction es generalizing l s with
  | nil => exact .inl ⟨l, s, rfl, rfl⟩
  | cons e es ih =>
    obtain ⟨key, val⟩ := e
    have ht : ∀ n, ((key, val) :: es).take (n + 1) = (key, val) :: es.take n := fun n => rfl
    simp only [ht, buildLoop_cons, plainLoop_cons]
    rcases (DSet.onData (find stack val) : M (DSet T) Nat) s with ⟨q, s1⟩
    cases q with
    | error e => exact .inr (.inl ⟨e, s1, rfl, rfl⟩)
    | ok root =>
      rcases add_cases (std := std) root key l with ⟨l1, h1, h2⟩ | ⟨h1, h2⟩
      · simp only [h1]
        rcases ih l1 s1 with h | h | ⟨hr, n, s', k1, k2, k3⟩
        · rw [h2.sets] at h; exact .inl h
        · rw [h2.sets] at h; exact .inr (.inl h)
        · refine .inr (.inr ⟨hr, n + 1, s', Nat.succ_lt_succ k1, k2, ?_⟩)
          rw [h2.sets] at k3; exact k3
      · simp only [h1]
        exact .inr (.inr ⟨h2, 0, s1, Nat.succ_pos _, rfl, rfl⟩)

omit [DecidableEq T] in
/-- what every granted round keeps holds after the loop -/
theorem loop_keeps {P : Local T → Prop} (hp : ∀ root key l l', P l → Added std root key l l' → P l') {stack : Nat}
    {es : List (T × Nat)} {l l' : Local T} {s s' : DSet T} (h : P l) (hl : buildLoop std stack es l s = (.ok l', s')) :
    P l' := by
  induction es generalizing l s with
  | nil => cases hl; exact h
  | cons e es ih =>
    obtain ⟨key, val⟩ := e
    rw [buildLoop_cons] at hl
    rcases hq : (DSet.onData (find stack val) : M (DSet T) Nat) s with ⟨q, s1⟩
    rw [hq] at hl
    cases q with
    | error e => cases hl
    | ok root =>
      simp only at hl
      rcases add_cases (std := std) root key l with ⟨l1, h1, h2⟩ | ⟨h1, h2⟩
      · rw [h1] at hl; exact ih (hp _ _ _ _ h h2) hl
      · rw [h1] at hl; cases hl

/-! ## the vectors -/

omit [DecidableEq T] in
theorem plainAdd_get (root : Nat) (key : T) (m : HMap Nat (List T)) (r : Nat) :
    (plainAdd root key m).get r = if r = root then some ((m.get root).getD [] ++ [key]) else m.get r :=
  putIn_get (fun _ => root) m (key, 0) r

omit [DecidableEq T] in
theorem plainAdd_valid (root : Nat) (key : T) {m : HMap Nat (List T)} (h : m.Valid) : (plainAdd root key m).Valid :=
  putIn_valid (fun _ => root) h (key, 0)

omit [DecidableEq T] in
theorem plainAdd_len (root : Nat) (key : T) (m : HMap Nat (List T)) :
    (plainAdd root key m).len = if (m.get root).isSome then m.len else m.len + 1 := by
  unfold plainAdd HMap.orInsert
  cases hg : m.get root with
  | some g => simp only [HMap.len_insert, hg, Option.isSome_some, if_true]
  | none => simp [HMap.len_insert, hg, HMap.get_insert]

/-- the keys differ, and a root without a vector has no memory -/
structure Tidy (l : Local T) : Prop where
  valid : l.sets.Valid
  none : ∀ r, l.sets.get r = none → l.vecs r = {}

omit [DecidableEq T] in
theorem tidy_added {root : Nat} {key : T} {l l' : Local T} (h : Tidy l) (ha : Added std root key l l') : Tidy l' := by
  refine ⟨by rw [ha.sets]; exact plainAdd_valid root key h.valid, fun r hr => ?_⟩
  rw [ha.sets, plainAdd_get] at hr
  by_cases he : r = root
  · rw [if_pos he] at hr; cases hr
  · rw [if_neg he] at hr; rw [ha.others r he]; exact h.none r hr

/-- the memory is bounded by what is inside -/
structure Bounded (a b : Nat) (l : Local T) : Prop where
  map : l.map.slots ≤ a * l.sets.len + b
  vec : ∀ r g, l.sets.get r = some g → (l.vecs r).slots ≤ a * g.length + b

theorem got_slots {std : Std} {a b : Nat} (hm : std.Modest a b) {len : Nat} {r r' : Room}
    (h : r.slots ≤ a * len + b) (hg : Got std len 1 r r') : r'.slots ≤ a * (len + 1) + b := by
  have hl : a * (len + 1) = a * len + a := Nat.mul_succ _ _
  rcases hg with ⟨_, rfl⟩ | ⟨_, n, hn, rfl⟩
  · omega
  · have := hm hn
    show n ≤ _
    omega

omit [DecidableEq T] in
theorem bounded_added {a b : Nat} (hm : std.map.Modest a b) (hv : ∀ r, (std.vec r).Modest a b) {root : Nat} {key : T}
    {l l' : Local T} (ht : Tidy l) (h : Bounded a b l) (ha : Added std root key l l') : Bounded a b l' := by
  have h1 := ha.map
  have h2 := ha.vec
  constructor
  · rw [ha.sets, plainAdd_len]
    cases hg : l.sets.get root with
    | some g => rw [hg] at h1; simp only at h1; rw [h1]; exact h.map
    | none => rw [hg] at h1; exact got_slots hm h.map h1
  · intro r g hr
    rw [ha.sets, plainAdd_get] at hr
    by_cases he : r = root
    · subst he
      rw [if_pos rfl] at hr; cases hr
      rw [List.length_append]
      refine got_slots (hv r) ?_ h2
      cases hg : l.sets.get r with
      | some g => exact h.vec r g hg
      | none => rw [ht.none r hg]; exact Nat.zero_le _
    · rw [if_neg he] at hr; rw [ha.others r he]; exact h.vec r g hr

/-- there is room for what is inside -/
structure Holds (l : Local T) : Prop where
  map : l.map.Fit l.sets.len
  vec : ∀ r g, l.sets.get r = some g → (l.vecs r).Fit g.length

omit [DecidableEq T] in
theorem holds_added {root : Nat} {key : T} {l l' : Local T} (ht : Tidy l) (h : Holds l) (ha : Added std root key l l') :
    Holds l' := by
  have h1 := ha.map
  have h2 := ha.vec
  constructor
  · rw [ha.sets, plainAdd_len]
    cases hg : l.sets.get root with
    | some g => rw [hg] at h1; simp only at h1; rw [h1]; exact h.map
    | none => rw [hg] at h1; exact ⟨h1.cap, h1.cap_slots h.map.2⟩
  · intro r g hr
    rw [ha.sets, plainAdd_get] at hr
    by_cases he : r = root
    · subst he
      rw [if_pos rfl] at hr; cases hr
      rw [List.length_append]
      refine ⟨h2.cap, h2.cap_slots ?_⟩
      cases hg : l.sets.get r with
      | some g => exact (h.vec r g hg).2
      | none => rw [ht.none r hg]
    · rw [if_neg he] at hr; rw [ha.others r he]; exact h.vec r g hr

/-- the moves are paid for -/
structure PaidL (l : Local T) : Prop where
  map : l.map.Paid l.sets.len 0
  vec : ∀ r g, l.sets.get r = some g → (l.vecs r).Paid g.length 0

theorem got_pays {std : Std} (hd : std.Doubles) {len : Nat} {r r' : Room} (h : r.Paid len 0) (hg : Got std len 1 r r') :
    r'.Paid (len + 1) 0 := by
  rcases hg with ⟨h1, rfl⟩ | ⟨h1, m, h2, rfl⟩
  · exact h.more h1
  · exact h.grown hd h1 h2

omit [DecidableEq T] in
theorem paidL_added (hm : std.map.Doubles) (hv : ∀ r, (std.vec r).Doubles) {root : Nat} {key : T} {l l' : Local T}
    (ht : Tidy l) (h : PaidL l) (ha : Added std root key l l') : PaidL l' := by
  have h1 := ha.map
  have h2 := ha.vec
  constructor
  · rw [ha.sets, plainAdd_len]
    cases hg : l.sets.get root with
    | some g => rw [hg] at h1; simp only at h1; rw [h1]; exact h.map
    | none => rw [hg] at h1; exact got_pays hm h.map h1
  · intro r g hr
    rw [ha.sets, plainAdd_get] at hr
    by_cases he : r = root
    · subst he
      rw [if_pos rfl] at hr; cases hr
      rw [List.length_append]
      refine got_pays (hv r) ?_ h2
      cases hg : l.sets.get r with
      | some g => exact h.vec r g hg
      | none => rw [ht.none r hg]; exact Room.paid_empty
    · rw [if_neg he] at hr; rw [ha.others r he]; exact h.vec r g hr

/-! ## how many elements are in the vectors -/

/-- the number of elements in a map of vectors -/
def total (es : List (Nat × List T)) : Nat := (es.map fun e => e.2.length).sum

omit [DecidableEq T] in
theorem total_update (k : Nat) (v : List T) (es : List (Nat × List T)) (h : (es.map (·.1)).Nodup) {u : List T}
    (hu : HMap.lookup k es = some u) : total (HMap.update k v es) + u.length = total es + v.length := by
  induction es with
  | nil => cases hu
  | cons e es ih =>
    obtain ⟨k', v'⟩ := e
    rw [List.map_cons, List.nodup_cons] at h
    rw [HMap.lookup] at hu
    rw [HMap.update]
    by_cases hk : k' = k
    · rw [if_pos hk] at hu ⊢
      cases hu
      simp only [total, List.map_cons, List.sum_cons]
      omega
    · rw [if_neg hk] at hu ⊢
      have := ih h.2 hu
      simp only [total, List.map_cons, List.sum_cons] at this ⊢
      omega

omit [DecidableEq T] in
theorem total_insert {m : HMap Nat (List T)} (h : m.Valid) (k : Nat) (v : List T) :
    total (m.insert k v).entries + ((m.get k).getD []).length = total m.entries + v.length := by
  unfold HMap.insert HMap.get
  cases hg : HMap.lookup k m.entries with
  | none =>
    simp [total, Nat.add_comm]
  | some u =>
    exact total_update k v m.entries h hg

omit [DecidableEq T] in
theorem total_add {m : HMap Nat (List T)} (h : m.Valid) (root : Nat) (key : T) :
    total (plainAdd root key m).entries = total m.entries + 1 := by
  unfold plainAdd HMap.orInsert
  cases hg : m.get root with
  | some g =>
    have := total_insert h root (g ++ [key])
    simp only [hg, Option.getD_some, List.length_append, List.length_singleton] at this ⊢
    omega
  | none =>
    have h1 := total_insert h root ([] : List T)
    have h2 := total_insert (HMap.valid_insert h (k := root) (v := [])) root ([] ++ [key])
    simp only [hg, (insert_same m root [] []).2, Option.getD_none, List.length_nil, List.length_append,
      List.length_singleton] at h1 h2 ⊢
    omega

omit [DecidableEq T] in
theorem total_loop {stack : Nat} {es : List (T × Nat)} {m m' : HMap Nat (List T)} {s s' : DSet T} (h : m.Valid)
    (hl : DSet.buildLoop stack es m s = (.ok m', s')) : total m'.entries = total m.entries + es.length := by
  induction es generalizing m s with
  | nil => cases hl; rfl
  | cons e es ih =>
    obtain ⟨key, val⟩ := e
    rw [plainLoop_cons] at hl
    rcases hq : (DSet.onData (find stack val) : M (DSet T) Nat) s with ⟨q, s1⟩
    rw [hq] at hl
    cases q with
    | error e => cases hl
    | ok root =>
      rw [ih (plainAdd_valid root key h) hl, total_add h, List.length_cons]
      omega

/-- a sum over the vectors that is bounded for each of them -/
theorem sum_vecs {T : Type} (f : Nat × List T → Nat) (a b : Nat) (es : List (Nat × List T))
    (h : ∀ e ∈ es, f e ≤ a * e.2.length + b) : (es.map f).sum ≤ a * total es + b * es.length := by
  induction es with
  | nil => exact Nat.zero_le _
  | cons e es ih =>
    have h1 := h e List.mem_cons_self
    have h2 := ih fun e he => h e (List.mem_cons_of_mem _ he)
    simp only [total, List.map_cons, List.sum_cons, List.length_cons, Nat.mul_add, Nat.mul_one] at h2 ⊢
    omega

theorem sum_mono {α : Type} {f g : α → Nat} {es : List α} (h : ∀ e ∈ es, f e ≤ g e) :
    (es.map f).sum ≤ (es.map g).sum := by
  induction es with
  | nil => exact Nat.le_refl _
  | cons e es ih =>
    exact Nat.add_le_add (h e List.mem_cons_self) (ih fun e he => h e (List.mem_cons_of_mem _ he))

/-! ## the searches -/

/-- `in_union(x, x)` is a search from `x` -/
theorem inUnion_self {stack : Nat} (hk : 2 ≤ stack) {s : DSet T} {b : Abs T} (r : Rel s b) (hs : s.ids.len < 2 ^ stack)
    {x : T} {i : Nat} (hx : s.ids.get x = some i) :
    ∃ q s', (DSet.onData (find stack i) : M (DSet T) Nat) s = (.ok q, s') ∧
      DSet.inUnion stack x x false false s = (.ok true, s') ∧ Twin s s' := by
  obtain ⟨q, hq⟩ := Root.total r.good.forest i
  obtain ⟨d', f, sm, p, c⟩ := find_shape r.good (by rw [r.len]; exact hs) (r.lt x i hx) hq
  have hon : (DSet.onData (find stack i) : M (DSet T) Nat) s = (.ok q, { s with dataById := d' }) := by
    rw [DSet.onData]; simp only [f]
  have tw : Twin s { s with dataById := d' } := ⟨rfl, sm⟩
  refine ⟨q, _, hon, ?_, tw⟩
  have hl : DSet.lookup x false s = (.ok (s.ids.get x), s) := rfl
  have h2 := findOn_flat hk (tw.rel r) (i := i) (by show i < d'.length; rw [sm.len]; exact r.lt x i hx)
    (by show par d' (par d' i) = par d' i; rw [p]; exact (sm.isRoot q).mpr hq.is_root)
  rw [DSet.inUnion, M.bind_ok hl, hx]
  simp only
  rw [M.bind_ok hl, hx]
  simp only
  rw [M.bind_ok hon, M.bind_ok h2, M.pure_run]
  have : par d' i = q := p
  simp [this]

/-- The grouping loop leaves the set as the queries `in_union(x, x)` for its elements do. -/
theorem loop_queries [Cfg] {stack : Nat} (hk : 2 ≤ stack) (es : List (T × Nat)) (m : HMap Nat (List T)) {s : DSet T}
    {b : Abs T} (r : Rel s b) (hs : s.ids.len < 2 ^ stack) (he : ∀ e ∈ es, s.ids.get e.1 = some e.2) :
    (DSet.buildLoop stack es m s).2 = (run stack (es.map fun e => .inUnion e.1 e.1 false false) s).2 := by
  induction es generalizing m s with
  | nil => rfl
  | cons e es ih =>
    obtain ⟨key, val⟩ := e
    obtain ⟨q, s1, h1, h2, t⟩ := inUnion_self hk r hs (he _ List.mem_cons_self)
    rw [plainLoop_cons, h1]
    simp only [List.map_cons, run, step, wrap]
    rw [h2]
    simp only
    exact ih _ (t.rel r) (by rw [t.ids]; exact hs)
      fun e h => by rw [t.ids]; exact he e (List.mem_cons_of_mem _ h)

/-- two forests with the same roots and ranks whose nodes point to their roots are the same -/
theorem flat_unique {d e : List Data} (h : Sim d e) (hd : AllFlat d) (he : AllFlat e) : e = d := by
  have hr : ∀ {f : List Data}, AllFlat f → ∀ i, Root f i (par f i) := fun {f} hf i => by
    by_cases hi : par f i = i
    · rw [hi]; exact .root hi
    · exact .step hi (.root (hf i))
  have hp : ∀ i, par e i = par d i := fun i => ((h.root i _).mp (hr he i)).functional (hr hd i)
  refine List.ext_getElem h.len fun i h1 h2 => ?_
  have p := hp i
  have q := h.rank i
  rw [par, par, List.getElem?_eq_getElem h1, List.getElem?_eq_getElem h2] at p
  rw [rk, rk, List.getElem?_eq_getElem h1, List.getElem?_eq_getElem h2] at q
  simp only at p q
  generalize e[i] = x at p q
  generalize d[i] = y at p q
  cases x; cases y
  simp only at p q
  rw [p, q]

/-- iteration does not depend on the searches made before -/
theorem iterate_twin {stack : Nat} {s t : DSet T} {b : Abs T} (r : Rel s b) (hs : s.ids.len < 2 ^ stack) (h : Twin s t)
    (o : Shuffle (T × Nat)) (o' : Shuffle (Nat × List T)) :
    DSet.iterate stack o.f o'.f t = DSet.iterate stack o.f o'.f s := by
  have ht : t.ids.len < 2 ^ stack := by rw [h.ids]; exact hs
  obtain ⟨s1, h1, t1⟩ := iterate_ok (stack := stack) r hs o o'
  obtain ⟨s2, h2, t2⟩ := iterate_ok (stack := stack) (h.rel r) ht o o'
  have f1 := iterate_flattens (stack := stack) r hs o o'
  have f2 := iterate_flattens (stack := stack) (h.rel r) ht o o'
  rw [h1] at f1 ⊢
  rw [h2] at f2 ⊢
  have hu := flat_unique ((t1.sim.symm r.good.forest).trans (h.sim.trans t2.sim)) f1 f2
  have hi : s2.ids = s1.ids := by rw [t2.ids, h.ids, t1.ids]
  have he : s2 = s1 := by
    cases s1; cases s2
    simp only at hu hi
    rw [hu, hi]
  rw [groups_twin r h, he]

end
end DS.Mem
