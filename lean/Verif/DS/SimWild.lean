import Verif.DS.ModelWild
import Verif.DS.SimKey
/-!
# What is expected of disjoint sets of elements with a wrong `Hash` or `Eq`, and lemmas
-/

open Rust
namespace DS.Wild

variable {T : Type}

/-- The public calls. Every value comes with what the table finds for it, see `DS/ModelWild.lean`. -/
inductive Op (T : Type)
  | makeSet (x : T) (c : Option Nat) (kp : Bool)
  | union (a b : T) (ac bc : Option Nat) (ap bp : Bool)
  | inUnion (a b : T) (ac bc : Option Nat) (ap bp : Bool)
  | contains (x : T) (c : Option Nat) (kp : Bool)
  | len
  | isEmpty
  | clear
  | reserve (n : Nat) (cp : Bool)
  | extend (hint : Nat) (cp : Bool) (items : List (T × Option Nat)) (p : Bool)
  | extendRef (hint : Nat) (cp : Bool) (items : List (T × Option Nat)) (p : Bool)
  | iterate (order : Shuffle (T × Nat)) (order' : Shuffle (Nat × List T))

/-- One call on the model. -/
def step [Cfg] (stack : Nat) : Op T → M (DSet T) (Out T)
  | .makeSet x c kp => wrap (fun _ => .unit) (makeSet x c kp)
  | .union a b ac bc ap bp => wrap (fun _ => .unit) (union stack a b ac bc ap bp)
  | .inUnion _ _ ac bc ap bp => wrap .bool (inUnion stack ac bc ap bp)
  | .contains _ c kp => wrap .bool (contains c kp)
  | .len => fun s => (.ok (.nat s.len), s)
  | .isEmpty => fun s => (.ok (.bool s.isEmpty), s)
  | .clear => wrap (fun _ => .unit) (DSet.clear false)
  | .reserve n cp => wrap (fun _ => .unit) (DSet.reserve n cp)
  | .extend hint cp items p => wrap (fun _ => .unit) (extend hint cp items p)
  | .extendRef hint cp items p => wrap (fun _ => .unit) (extendRef hint cp items p)
  | .iterate o o' => wrap .groups (DSet.iterate stack o.f o'.f)

/-- A history of calls, panics being caught. -/
def run [Cfg] (stack : Nat) : List (Op T) → DSet T → List (Except Fault (Out T)) × DSet T
  | [], s => ([], s)
  | op :: ops, s =>
    let (r, s') := step stack op s
    let (rs, s'') := run stack ops s'
    (r :: rs, s'')

/-- What a history means: the values for which nothing was found when they were added, in the order of their
addition, and the unions, between the numbers of the values found or added. -/
structure Pile (T : Type) where
  stored : List T
  unions : List (Nat × Nat)

namespace Pile

/-- nothing added -/
def new : Pile T := ⟨[], []⟩

/-- the number of the value that is found -/
def found (p : Pile T) (c : Option Nat) : Option Nat := c.filter fun i => decide (i < p.stored.length)

/-- adds the value if nothing is found; the number of the value found or added -/
def put (p : Pile T) (x : T) (c : Option Nat) : Nat × Pile T :=
  match p.found c with
  | some i => (i, p)
  | none => (p.stored.length, { p with stored := p.stored ++ [x] })

/-- what a call does -/
def step (p : Pile T) : Op T → Pile T
  | .makeSet x c kp => if kp then p else (p.put x c).2
  | .union a b ac bc ap bp =>
    if ap then p
    else if bp then (p.put a ac).2
    else
      let (i, p) := p.put a ac
      let (j, p) := p.put b bc
      { p with unions := (i, j) :: p.unions }
  | .clear => new
  | .extend _ cp items _ => if cp then p else items.foldl (fun p e => (p.put e.1 e.2).2) p
  | .extendRef _ cp items _ => if cp then p else items.foldl (fun p e => (p.put e.1 e.2).2) p
  | .inUnion .. | .contains .. | .len | .isEmpty | .reserve .. | .iterate .. => p

/-- what a history does -/
def run (p : Pile T) (ops : List (Op T)) : Pile T := ops.foldl step p

/-- groups of values with their numbers: no group is empty, every stored value is shown once, and two values share a
group iff unions connect them -/
def IsPartition (p : Pile T) (gs : List (List (T × Nat))) : Prop :=
  (∀ g ∈ gs, g ≠ []) ∧ gs.flatten.Perm p.stored.zipIdx ∧
  ∀ i j, (∃ g ∈ gs, i ∈ g.map (·.2) ∧ j ∈ g.map (·.2)) ↔
    i < p.stored.length ∧ j < p.stored.length ∧ Conn p.unions i j

/-- the answer expected from a call -/
def Answer (p : Pile T) : Op T → Except Fault (Out T) → Prop
  | .makeSet _ _ kp, r => r = if kp then .error .user else .ok .unit
  | .union _ _ _ _ ap bp, r => r = if ap || bp then .error .user else .ok .unit
  | .inUnion _ _ ac bc ap bp, r =>
    if ap then r = .error .user
    else match p.found ac with
      | none => r = .ok (.bool false)
      | some i =>
        if bp then r = .error .user
        else match p.found bc with
          | none => r = .ok (.bool false)
          | some j => ∃ b, r = .ok (.bool b) ∧ (b = true ↔ Conn p.unions i j)
  | .contains _ c kp, r => r = if kp then .error .user else .ok (.bool (p.found c).isSome)
  | .len, r => r = .ok (.nat p.stored.length)
  | .isEmpty, r => r = .ok (.bool p.stored.isEmpty)
  | .clear, r => r = .ok .unit
  | .reserve _ cp, r => r = if cp then .error .capacityOverflow else .ok .unit
  | .extend _ cp _ pp, r => r = if cp then .error .capacityOverflow else if pp then .error .user else .ok .unit
  | .extendRef _ cp _ pp, r => r = if cp then .error .capacityOverflow else if pp then .error .user else .ok .unit
  | .iterate _ _, r => ∃ gs, r = .ok (.groups (gs.map (·.map (·.1)))) ∧ p.IsPartition gs

/-- the answers expected from a history -/
def Answers (p : Pile T) : List (Op T) → List (Except Fault (Out T)) → Prop
  | [], rs => rs = []
  | op :: ops, rs => ∃ r rs', rs = r :: rs' ∧ p.Answer op r ∧ (p.step op).Answers ops rs'

end Pile

/-! ## The set of numbers -/

/-- the numbers in place of the values -/
def lbl (w : DSet T) : DSet Nat := ⟨⟨w.ids.entries.map fun e => (e.2, e.2)⟩, w.dataById⟩

/-- the values are numbered in the order of their addition -/
def Numbered (w : DSet T) (xs : List T) : Prop := w.ids.entries.reverse = xs.zipIdx

theorem Numbered.len {w : DSet T} {xs : List T} (h : Numbered w xs) : w.ids.len = xs.length := by
  have := congrArg List.length h
  rw [List.length_reverse, List.length_zipIdx] at this
  exact this

theorem Numbered.search {w : DSet T} {xs : List T} (h : Numbered w xs) (c : Option Nat) :
    search c w = c.filter fun i => decide (i < xs.length) := by
  cases c with
  | none => rfl
  | some i =>
    show (w.ids.entries.reverse[i]?).map (·.2) = _
    rw [h, List.getElem?_zipIdx]
    by_cases hi : i < xs.length
    · simp [hi, Option.filter]
    · simp [hi, Option.filter]

theorem lookup_lbl (es : List (T × Nat)) (i : Nat) :
    HMap.lookup i (es.map fun e => (e.2, e.2)) = if i ∈ es.map (·.2) then some i else none := by
  induction es with
  | nil => rfl
  | cons e es ih =>
    show (if e.2 = i then some e.2 else HMap.lookup i (es.map fun e => (e.2, e.2))) = _
    by_cases h : e.2 = i
    · simp [h]
    · rw [if_neg h, ih]
      have h' : i ∈ (e :: es).map (·.2) ↔ i ∈ es.map (·.2) := by
        rw [List.map_cons, List.mem_cons]
        exact ⟨fun x => x.resolve_left fun y => h y.symm, .inr⟩
      simp only [h']

theorem Numbered.get {w : DSet T} {xs : List T} (h : Numbered w xs) (i : Nat) :
    (lbl w).ids.get i = if i < xs.length then some i else none := by
  show HMap.lookup i (w.ids.entries.map fun e => (e.2, e.2)) = _
  rw [lookup_lbl]
  have : i ∈ w.ids.entries.map (·.2) ↔ i < xs.length := by
    rw [← List.mem_reverse, ← List.map_reverse, h, List.zipIdx_map_snd]
    simp
  simp only [this]

/-- the number handed to the set of numbers in place of a value -/
def num (xs : List T) (c : Option Nat) : Nat := (c.filter fun i => decide (i < xs.length)).getD xs.length

/-- the values stored after a value was added -/
def grow (xs : List T) (x : T) (c : Option Nat) : List T :=
  if (c.filter fun i => decide (i < xs.length)).isSome then xs else xs ++ [x]

theorem num_get {w : DSet T} {xs : List T} (h : Numbered w xs) (c : Option Nat) :
    (lbl w).ids.get (num xs c) = c.filter fun i => decide (i < xs.length) := by
  rw [h.get, num]
  cases hc : c.filter fun i => decide (i < xs.length) with
  | none => simp
  | some i =>
    have : i < xs.length := by
      rw [Option.filter_eq_some_iff] at hc; simpa using hc.2
    simp [this]

theorem makeOrGetSet_lbl {w : DSet T} {xs : List T} (h : Numbered w xs) (x : T) (c : Option Nat) :
    ∃ w', makeOrGetSet x c false w = (.ok (num xs c), w') ∧
      DSet.makeOrGetSet (num xs c) false (lbl w) = (.ok (num xs c), lbl w') ∧ Numbered w' (grow xs x c) := by
  have hg := num_get h c
  have hlen : (lbl w).ids.len = xs.length := (List.length_map _).trans h.len
  unfold makeOrGetSet DSet.makeOrGetSet
  simp only [Bool.false_eq_true, if_false, hg, h.search]
  cases hc : c.filter fun i => decide (i < xs.length) with
  | some i =>
    refine ⟨w, ?_, ?_, ?_⟩
    · simp [num, hc]
    · simp [num, hc]
    · simpa [grow, hc] using h
  | none =>
    rw [hc] at hg
    have hn : num xs c = xs.length := by simp [num, hc]
    refine ⟨⟨⟨(x, xs.length) :: w.ids.entries⟩, w.dataById ++ [Data.new xs.length]⟩, ?_, ?_, ?_⟩
    · simp only [h.len, hn]
    · simp only [hlen, hn]
      congr 1
      rw [hn] at hg
      unfold HMap.insert
      rw [hg]
      rfl
    · show ((x, xs.length) :: w.ids.entries).reverse = (grow xs x c).zipIdx
      rw [List.reverse_cons, h]
      simp [grow, hc, List.zipIdx_append]

theorem put_eq (p : Pile T) (x : T) (c : Option Nat) :
    p.put x c = (num p.stored c, { p with stored := grow p.stored x c }) := by
  unfold Pile.put Pile.found num grow
  cases c.filter fun i => decide (i < p.stored.length) <;> rfl

theorem makeSet_lbl {w : DSet T} {xs : List T} (h : Numbered w xs) (x : T) (c : Option Nat) :
    ∃ w', makeSet x c false w = (.ok (), w') ∧ DSet.makeSet (num xs c) false (lbl w) = (.ok (), lbl w') ∧
      Numbered w' (grow xs x c) := by
  obtain ⟨w', h1, h2, h3⟩ := makeOrGetSet_lbl h x c
  exact ⟨w', M.bind_ok h1, M.bind_ok h2, h3⟩

/-- the numbers handed over by `extend` -/
def nums (xs : List T) : List (T × Option Nat) → List Nat
  | [] => []
  | (x, c) :: rest => num xs c :: nums (grow xs x c) rest

/-- the values stored after `extend` -/
def grows (xs : List T) (items : List (T × Option Nat)) : List T := items.foldl (fun xs e => grow xs e.1 e.2) xs

theorem extendLoop_lbl (items : List (T × Option Nat)) (p : Bool) : ∀ {w : DSet T} {xs : List T}, Numbered w xs →
    ∃ w', extendLoop items p w = (if p then .error .user else .ok (), w') ∧
      DSet.extendLoop (nums xs items) p (lbl w) = (if p then .error .user else .ok (), lbl w') ∧
      Numbered w' (grows xs items) := by
  induction items with
  | nil => intro w xs h; cases p <;> exact ⟨w, rfl, rfl, h⟩
  | cons e items ih =>
    intro w xs h
    obtain ⟨x, c⟩ := e
    obtain ⟨w1, h1, h2, h3⟩ := makeSet_lbl h x c
    obtain ⟨w2, g1, g2, g3⟩ := ih h3
    exact ⟨w2, (M.bind_ok h1).trans g1, (M.bind_ok h2).trans g2, g3⟩

theorem extendRefLoop_eq (items : List (T × Option Nat)) (p : Bool) : extendRefLoop items p = extendLoop items p := by
  induction items with
  | nil => rfl
  | cons e items ih =>
    obtain ⟨x, c⟩ := e
    show (makeSet x c false >>= fun _ => extendRefLoop items p) = (makeSet x c false >>= fun _ => extendLoop items p)
    rw [ih]

theorem put_foldl (items : List (T × Option Nat)) (p : Pile T) :
    items.foldl (fun p e => (p.put e.1 e.2).2) p = { p with stored := grows p.stored items } := by
  induction items generalizing p with
  | nil => rfl
  | cons e items ih =>
    rw [List.foldl_cons, ih, put_eq]; rfl

theorem onData_lbl {α : Type} (m : M (List Data) α) (w : DSet T) :
    DSet.onData m (lbl w) = ((DSet.onData m w).1, lbl (DSet.onData m w).2) := rfl

theorem onData_numbered {α : Type} (m : M (List Data) α) {w : DSet T} {xs : List T} (h : Numbered w xs) :
    Numbered (DSet.onData m w).2 xs := h

theorem lookup_num {w : DSet T} {xs : List T} (h : Numbered w xs) (c : Option Nat) (kp : Bool) :
    (∃ e, kp = true ∧ e = Fault.user ∧ lookup c kp w = (.error e, w) ∧
      DSet.lookup (num xs c) kp (lbl w) = (.error e, lbl w)) ∨
    (kp = false ∧ lookup c kp w = (.ok (c.filter fun i => decide (i < xs.length)), w) ∧
      DSet.lookup (num xs c) kp (lbl w) = (.ok (c.filter fun i => decide (i < xs.length)), lbl w)) := by
  cases kp with
  | true => exact .inl ⟨_, rfl, rfl, rfl, rfl⟩
  | false =>
    refine .inr ⟨rfl, ?_, ?_⟩
    · simp [lookup, h.search]
    · simp [DSet.lookup, num_get h]

theorem inUnion_lbl {w : DSet T} {xs : List T} (h : Numbered w xs) (k : Nat) (ac bc : Option Nat) (ap bp : Bool) :
    ∃ r w', inUnion k ac bc ap bp w = (r, w') ∧
      DSet.inUnion k (num xs ac) (num xs bc) ap bp (lbl w) = (r, lbl w') ∧ Numbered w' xs := by
  unfold inUnion DSet.inUnion
  rcases lookup_num h ac ap with ⟨e, -, -, h1, h2⟩ | ⟨-, h1, h2⟩
  · exact ⟨_, w, M.bind_error h1, M.bind_error h2, h⟩
  · rw [M.bind_ok h1, M.bind_ok h2]
    cases ac.filter fun i => decide (i < xs.length) with
    | none => exact ⟨_, w, rfl, rfl, h⟩
    | some i =>
      dsimp only
      rcases lookup_num h bc bp with ⟨e, -, -, h1, h2⟩ | ⟨-, h1, h2⟩
      · exact ⟨_, w, M.bind_error h1, M.bind_error h2, h⟩
      · rw [M.bind_ok h1, M.bind_ok h2]
        cases bc.filter fun i => decide (i < xs.length) with
        | none => exact ⟨_, w, rfl, rfl, h⟩
        | some j =>
          dsimp only
          rw [M.bind_run, M.bind_run, onData_lbl]
          have hn := onData_numbered (find k i) h
          generalize DSet.onData (find k i) w = q at hn ⊢
          obtain ⟨r, w1⟩ := q
          cases r with
          | error e => exact ⟨_, w1, rfl, rfl, hn⟩
          | ok x =>
            dsimp only
            rw [M.bind_run, M.bind_run, onData_lbl]
            have hn' := onData_numbered (find k j) hn
            generalize DSet.onData (find k j) w1 = q at hn' ⊢
            obtain ⟨r, w2⟩ := q
            cases r with
            | error e => exact ⟨_, w2, rfl, rfl, hn'⟩
            | ok y => exact ⟨_, w2, rfl, rfl, hn'⟩

theorem union_lbl [Cfg] {w : DSet T} {xs : List T} (h : Numbered w xs) (k : Nat) (a b : T) (ac bc : Option Nat)
    (ap bp : Bool) :
    ∃ r w', union k a b ac bc ap bp w = (r, w') ∧
      DSet.union k (num xs ac) (num (grow xs a ac) bc) ap bp (lbl w) = (r, lbl w') ∧
      Numbered w' (if ap then xs else if bp then grow xs a ac else grow (grow xs a ac) b bc) := by
  unfold union DSet.union
  cases ap with
  | true => exact ⟨_, w, rfl, rfl, h⟩
  | false =>
    obtain ⟨w1, h1, h2, h3⟩ := makeOrGetSet_lbl h a ac
    rw [M.bind_ok h1, M.bind_ok h2]
    cases bp with
    | true => exact ⟨_, w1, rfl, rfl, h3⟩
    | false =>
      obtain ⟨w2, g1, g2, g3⟩ := makeOrGetSet_lbl h3 b bc
      rw [M.bind_ok g1, M.bind_ok g2, onData_lbl]
      exact ⟨_, _, rfl, rfl, g3⟩

/-! ## iteration -/

/-- a permutation of an image is the image of a permutation -/
theorem perm_map {α β : Type} (f : α → β) : ∀ {l' : List β} {l : List α}, l'.Perm (l.map f) →
    ∃ l'' : List α, l''.Perm l ∧ l''.map f = l' := by
  intro l'
  induction l' with
  | nil => intro l h; exact ⟨l, .refl _, List.nil_perm.mp h⟩
  | cons b l' ih =>
    intro l h
    have hb : b ∈ l.map f := h.mem_iff.mp List.mem_cons_self
    obtain ⟨a, ha, rfl⟩ := List.mem_map.mp hb
    obtain ⟨s, t, rfl⟩ := List.append_of_mem ha
    have : l'.Perm ((s ++ t).map f) := by
      refine List.Perm.cons_inv (a := f a) (h.trans ?_)
      rw [List.map_append, List.map_append, List.map_cons]
      exact List.perm_middle
    obtain ⟨l'', h1, h2⟩ := ih this
    exact ⟨a :: l'', (h1.cons a).trans List.perm_middle.symm, by rw [List.map_cons, h2]⟩

/-- Iteration shows the values with their numbers; showing the numbers only, it is an iteration of the set of
numbers. -/
theorem iterate_lbl (k : Nat) (o : Shuffle (T × Nat)) (o' : Shuffle (Nat × List T)) (w : DSet T) :
    ∃ (gs : Except Fault (List (List (T × Nat)))) (w' : DSet T) (p : Shuffle (Nat × Nat))
      (p' : Shuffle (Nat × List Nat)),
      DSet.iterate k o.f o'.f w = (gs.map (·.map (·.map (·.1))), w') ∧
      DSet.iterate k p.f p'.f (lbl w) = (gs.map (·.map (·.map (·.2))), lbl w') ∧
      w'.ids = w.ids ∧ ∀ l, gs = .ok l → l.flatten.Perm w.ids.entries := by
  -- the values together with their numbers
  let es : List ((T × Nat) × Nat) := (o.f w.ids.entries).map fun e => (e, e.2)
  let z : DSet (T × Nat) := ⟨⟨w.ids.entries.map fun e => (e, e.2)⟩, w.dataById⟩
  have hz1 : Key.keys Prod.fst z = w := by
    show (⟨⟨(w.ids.entries.map fun e => (e, e.2)).map fun e => (e.1.1, e.2)⟩, w.dataById⟩ : DSet T) = w
    rw [List.map_map]
    obtain ⟨⟨es⟩, d⟩ := w
    congr 2
    exact List.map_id _
  have hz2 : Key.keys Prod.snd z = lbl w := by
    show (⟨⟨(w.ids.entries.map fun e => (e, e.2)).map fun e => (e.1.2, e.2)⟩, w.dataById⟩ : DSet Nat) = lbl w
    rw [List.map_map]; rfl
  have he1 : KMap.pairs Prod.fst es = o.f w.ids.entries := by
    show ((o.f w.ids.entries).map fun e => (e, e.2)).map (fun e => (e.1.1, e.2)) = _
    rw [List.map_map]; exact List.map_id _
  have hp2 : (KMap.pairs Prod.snd es).Perm (lbl w).ids.entries := by
    show (((o.f w.ids.entries).map fun e => (e, e.2)).map fun e => (e.1.2, e.2)).Perm
      (w.ids.entries.map fun e => (e.2, e.2))
    rw [List.map_map]; exact (o.perm _).map _
  have b1 := Key.buildLoop_sim (key := Prod.fst) k es HMap.empty z
  have b2 := Key.buildLoop_sim (key := Prod.snd) k es HMap.empty z
  rw [hz1, he1, show Key.gkeys Prod.fst (HMap.empty : HMap Nat (List (T × Nat))) = HMap.empty from rfl] at b1
  rw [hz2, show Key.gkeys Prod.snd (HMap.empty : HMap Nat (List (T × Nat))) = HMap.empty from rfl] at b2
  have hids := Key.buildLoop_ids k es HMap.empty z
  have hflat := fun m' s' => Key.buildLoop_flat' k es HMap.empty m' z s'
  generalize Key.buildLoop k es HMap.empty z = q at b1 b2 hids hflat
  obtain ⟨r, z'⟩ := q
  have hids : z'.ids = z.ids := hids
  have hw' : (Key.keys Prod.fst z').ids = w.ids := by
    show KMap.keys Prod.fst z'.ids = _
    rw [hids]; exact congrArg DSet.ids hz1
  have hl' : Key.keys Prod.snd z' = lbl (Key.keys Prod.fst z') := by
    have : (Key.keys Prod.snd z').ids = (Key.keys Prod.snd z).ids := by
      show KMap.keys Prod.snd z'.ids = KMap.keys Prod.snd z.ids
      rw [hids]
    have e2 : (lbl (Key.keys Prod.fst z')).ids = (lbl w).ids := by
      show (⟨(Key.keys Prod.fst z').ids.entries.map fun e => (e.2, e.2)⟩ : HMap Nat Nat) = _
      rw [hw']; rfl
    have e1 : (Key.keys Prod.snd z').ids = (lbl (Key.keys Prod.fst z')).ids := by rw [this, hz2, e2]
    calc Key.keys Prod.snd z' = ⟨(Key.keys Prod.snd z').ids, z'.dataById⟩ := rfl
      _ = ⟨(lbl (Key.keys Prod.fst z')).ids, z'.dataById⟩ := by rw [e1]
      _ = _ := rfl
  cases r with
  | error e =>
    refine ⟨.error e, Key.keys Prod.fst z', Key.sending _ _ hp2, ⟨id, fun _ => .refl _⟩, ?_, ?_, hw', fun _ h => nomatch h⟩
    · rw [Key.iterate_eq', b1]; rfl
    · rw [Key.iterate_eq', Key.sending_self, b2, ← hl']; rfl
  | ok m =>
    obtain ⟨L, hL, hLm⟩ := perm_map (fun e : Nat × List (T × Nat) => (e.1, e.2.map Prod.fst))
      (o'.perm (Key.gkeys Prod.fst m).entries)
    have hperm : (L.map fun e => (e.1, e.2.map Prod.snd)).Perm (Key.gkeys Prod.snd m).entries := hL.map _
    refine ⟨.ok (L.map (·.2)), Key.keys Prod.fst z', Key.sending _ _ hp2, Key.sending _ _ hperm, ?_, ?_, hw', ?_⟩
    · rw [Key.iterate_eq', b1]
      show (Except.ok ((o'.f (Key.gkeys Prod.fst m).entries).map (·.2)), _) = _
      rw [← hLm, List.map_map]
      simp [Except.map, Function.comp_def]
    · rw [Key.iterate_eq', Key.sending_self, b2, ← hl']
      show (Except.ok (((Key.sending _ _ hperm).f (Key.gkeys Prod.snd m).entries).map (·.2)), _) = _
      rw [Key.sending_self, List.map_map]
      simp [Except.map, Function.comp_def]
    · intro l hl
      cases hl
      have h1 := hflat m z' rfl
      have h2 : (L.map (·.2)).flatten.Perm (Key.flat m.entries) := (hL.map _).flatten
      refine (h2.trans h1).trans ?_
      show (([] : List (T × Nat)) ++ ((o.f w.ids.entries).map fun e => (e, e.2)).map (·.1)).Perm _
      rw [List.nil_append, List.map_map]
      exact (List.map_id (o.f w.ids.entries)).symm ▸ o.perm _

/-! ## calls and histories -/

/-- the call on the set of numbers (iteration is treated apart) -/
def lop (xs : List T) : Op T → DS.Op Nat
  | .makeSet _ c kp => .makeSet (num xs c) kp
  | .union a _ ac bc ap bp => .union (num xs ac) (num (grow xs a ac) bc) ap bp
  | .inUnion _ _ ac bc ap bp => .inUnion (num xs ac) (num xs bc) ap bp
  | .contains _ c kp => .contains (num xs c) kp
  | .len => .len
  | .isEmpty => .isEmpty
  | .clear => .clear
  | .reserve n cp => .reserve n cp
  | .extend hint cp items p => .extend hint cp (nums xs items) p
  | .extendRef hint cp items p => .extendRef hint cp (nums xs items) p
  | .iterate _ _ => .len

/-- the meaning of the set of numbers -/
structure Means (p : Pile T) (a : Abs Nat) : Prop where
  elems : ∀ i, i ∈ a.elems ↔ i < p.stored.length
  pairs : a.pairs = p.unions

theorem mem_num {xs : List T} {l : List Nat} (h : ∀ i, i ∈ l ↔ i < xs.length) (x : T) (c : Option Nat) (i : Nat) :
    i ∈ num xs c :: l ↔ i < (grow xs x c).length := by
  rw [List.mem_cons, h, num, grow]
  cases hc : c.filter fun i => decide (i < xs.length) with
  | none => simp only [Option.getD_none, Option.isSome_none, Bool.false_eq_true, if_false, List.length_append, List.length_singleton]; omega
  | some j =>
    have hj : j < xs.length := by rw [Option.filter_eq_some_iff] at hc; simpa using hc.2
    simp only [Option.getD_some, Option.isSome_some, if_true]
    omega

theorem mem_nums (items : List (T × Option Nat)) : ∀ {xs : List T} {l : List Nat}, (∀ i, i ∈ l ↔ i < xs.length) →
    ∀ i, i ∈ (nums xs items).reverse ++ l ↔ i < (grows xs items).length := by
  induction items with
  | nil => intro xs l h i; exact h i
  | cons e items ih =>
    intro xs l h i
    obtain ⟨x, c⟩ := e
    have := ih (mem_num h x c) i
    rw [nums, List.reverse_cons, List.append_assoc]
    exact this

theorem Means.step {p : Pile T} {a : Abs Nat} (h : Means p a) (op : Op T) : Means (p.step op) (a.step (lop p.stored op)) := by
  cases op with
  | makeSet x c kp =>
    cases kp with
    | true => exact h
    | false =>
      refine ⟨fun i => ?_, ?_⟩
      · show i ∈ num p.stored c :: a.elems ↔ i < (p.put x c).2.stored.length
        rw [put_eq]; exact mem_num h.elems x c i
      · show a.pairs = (p.put x c).2.unions
        rw [put_eq]; exact h.pairs
  | union x y xc yc xp yp =>
    cases xp with
    | true => exact ⟨h.elems, h.pairs⟩
    | false =>
      cases yp with
      | true =>
        refine ⟨fun i => ?_, ?_⟩
        · show i ∈ num p.stored xc :: a.elems ↔ i < (p.put x xc).2.stored.length
          rw [put_eq]; exact mem_num h.elems x xc i
        · show a.pairs = (p.put x xc).2.unions
          rw [put_eq]; exact h.pairs
      | false =>
        refine ⟨fun i => ?_, ?_⟩
        · show i ∈ num (grow p.stored x xc) yc :: num p.stored xc :: a.elems ↔
            i < ((p.put x xc).2.put y yc).2.stored.length
          rw [put_eq, put_eq]
          exact mem_num (mem_num h.elems x xc) y yc i
        · show (num p.stored xc, num (grow p.stored x xc) yc) :: a.pairs =
            ((p.put x xc).1, ((p.put x xc).2.put y yc).1) :: ((p.put x xc).2.put y yc).2.unions
          rw [put_eq, put_eq, h.pairs]
  | clear => exact ⟨fun i => by simp [Pile.step, Pile.new, lop, Abs.step, Abs.new], rfl⟩
  | extend hint cp items pp =>
    cases cp with
    | true => exact h
    | false =>
      refine ⟨fun i => ?_, ?_⟩
      · show i ∈ (nums p.stored items).reverse ++ a.elems ↔
          i < (items.foldl (fun p e => (p.put e.1 e.2).2) p).stored.length
        rw [put_foldl]; exact mem_nums items h.elems i
      · show a.pairs = (items.foldl (fun p e => (p.put e.1 e.2).2) p).unions
        rw [put_foldl]; exact h.pairs
  | extendRef hint cp items pp =>
    cases cp with
    | true => exact h
    | false =>
      refine ⟨fun i => ?_, ?_⟩
      · show i ∈ (nums p.stored items).reverse ++ a.elems ↔
          i < (items.foldl (fun p e => (p.put e.1 e.2).2) p).stored.length
        rw [put_foldl]; exact mem_nums items h.elems i
      · show a.pairs = (items.foldl (fun p e => (p.put e.1 e.2).2) p).unions
        rw [put_foldl]; exact h.pairs
  | inUnion _ _ _ _ _ _ | contains _ _ _ | len | isEmpty | reserve _ _ | iterate _ _ => exact h

theorem Means.card {p : Pile T} {a : Abs Nat} (h : Means p a) : a.card = p.stored.length := by
  have : a.elems.dedup.Perm (List.range p.stored.length) :=
    (List.perm_ext_iff_of_nodup (List.nodup_dedup _) List.nodup_range).mpr fun i => by
      rw [List.mem_dedup, h.elems, List.mem_range]
  rw [Abs.card, this.length_eq, List.length_range]

theorem found_mem {p : Pile T} {a : Abs Nat} (h : Means p a) (c : Option Nat) :
    num p.stored c ∈ a.elems ↔ (p.found c).isSome := by
  rw [h.elems, num, Pile.found]
  cases hc : c.filter fun i => decide (i < p.stored.length) with
  | none => simp
  | some j =>
    have hj : j < p.stored.length := by rw [Option.filter_eq_some_iff] at hc; simpa using hc.2
    simp [hj]

theorem found_num {p : Pile T} {c : Option Nat} {i : Nat} (h : p.found c = some i) : num p.stored c = i := by
  rw [num]; unfold Pile.found at h; rw [h]; rfl

/-- a result without groups -/
def plain : Out T → Out Nat
  | .unit => .unit
  | .bool b => .bool b
  | .nat n => .nat n
  | .groups _ => .groups []

theorem wrap_eq {α U : Type} (f : α → Out U) {m : M (DSet U) α} {s s' : DSet U} {r : Except Fault α}
    (h : m s = (r, s')) : wrap f m s = (r.map f, s') := by
  unfold wrap; rw [h]; cases r <;> rfl

theorem step_plain [Cfg] (k : Nat) (op : Op T) (hop : ∀ o o', op ≠ .iterate o o') {w : DSet T} {p : Pile T}
    (h : Numbered w p.stored) :
    ∃ r w', step k op w = (r, w') ∧ DS.step k (lop p.stored op) (lbl w) = (r.map plain, lbl w') ∧
      Numbered w' (p.step op).stored ∧ ∀ gs, r ≠ .ok (.groups gs) := by
  cases op with
  | makeSet x c kp =>
    cases kp with
    | true => exact ⟨_, w, rfl, rfl, h, fun _ h => nomatch h⟩
    | false =>
      obtain ⟨w', h1, h2, h3⟩ := makeSet_lbl h x c
      refine ⟨_, w', wrap_ok h1, wrap_ok h2, ?_, fun _ h => nomatch h⟩
      show Numbered w' (p.put x c).2.stored
      rw [put_eq]; exact h3
  | union a b ac bc ap bp =>
    obtain ⟨r, w', h1, h2, h3⟩ := union_lbl h k a b ac bc ap bp
    refine ⟨_, w', wrap_eq _ h1, ?_, ?_, ?_⟩
    · exact (wrap_eq _ h2).trans (by cases r <;> rfl)
    · cases ap with
      | true => exact h3
      | false =>
        cases bp with
        | true =>
          show Numbered w' (p.put a ac).2.stored
          rw [put_eq]; exact h3
        | false =>
          show Numbered w' ((p.put a ac).2.put b bc).2.stored
          rw [put_eq, put_eq]; exact h3
    · intro gs; cases r <;> simp [Except.map]
  | inUnion _ _ ac bc ap bp =>
    obtain ⟨r, w', h1, h2, h3⟩ := inUnion_lbl h k ac bc ap bp
    refine ⟨_, w', wrap_eq _ h1, (wrap_eq _ h2).trans (by cases r <;> rfl), h3, ?_⟩
    intro gs; cases r <;> simp [Except.map]
  | contains _ c kp =>
    cases kp with
    | true => exact ⟨_, w, rfl, rfl, h, fun _ h => nomatch h⟩
    | false =>
      refine ⟨.ok (.bool (search c w).isSome), w, rfl, ?_, h, fun _ h => nomatch h⟩
      show (Except.ok (Out.bool ((lbl w).ids.get (num p.stored c)).isSome), lbl w) = _
      rw [num_get h, h.search]; rfl
  | len =>
    refine ⟨.ok (.nat w.ids.len), w, rfl, ?_, h, fun _ h => nomatch h⟩
    show (Except.ok (Out.nat (w.ids.entries.map _).length), lbl w) = _
    rw [List.length_map]; rfl
  | isEmpty =>
    refine ⟨.ok (.bool w.ids.isEmpty), w, rfl, ?_, h, fun _ h => nomatch h⟩
    show (Except.ok (Out.bool (w.ids.entries.map _).isEmpty), lbl w) = _
    rw [List.isEmpty_map]; rfl
  | clear => exact ⟨_, _, rfl, rfl, rfl, fun _ h => nomatch h⟩
  | reserve n cp => cases cp <;> exact ⟨_, w, rfl, rfl, h, fun _ h => nomatch h⟩
  | extend hint cp items pp =>
    cases cp with
    | true => exact ⟨_, w, rfl, rfl, h, fun _ h => nomatch h⟩
    | false =>
      obtain ⟨w', h1, h2, h3⟩ := extendLoop_lbl items pp h
      refine ⟨_, w', wrap_eq _ (m := extend hint false items pp) h1,
        (wrap_eq _ (m := DSet.extend hint false (nums p.stored items) pp) h2).trans (by cases pp <;> rfl), ?_, ?_⟩
      · show Numbered w' (items.foldl (fun p e => (p.put e.1 e.2).2) p).stored
        rw [put_foldl]; exact h3
      · intro gs; cases pp <;> simp [Except.map]
  | extendRef hint cp items pp =>
    cases cp with
    | true => exact ⟨_, w, rfl, rfl, h, fun _ h => nomatch h⟩
    | false =>
      obtain ⟨w', h1, h2, h3⟩ := extendLoop_lbl items pp h
      rw [← extendRefLoop_eq] at h1
      rw [← DS.extendRefLoop_eq] at h2
      refine ⟨_, w', wrap_eq _ (m := extendRef hint false items pp) h1,
        (wrap_eq _ (m := DSet.extendRef hint false (nums p.stored items) pp) h2).trans (by cases pp <;> rfl), ?_, ?_⟩
      · show Numbered w' (items.foldl (fun p e => (p.put e.1 e.2).2) p).stored
        rw [put_foldl]; exact h3
      · intro gs; cases pp <;> simp [Except.map]
  | iterate o o' => exact absurd rfl (hop o o')

/-- the states of the set and of the set of numbers, and what they mean -/
structure Stand (w : DSet T) (p : Pile T) (a : Abs Nat) : Prop where
  numbered : Numbered w p.stored
  rel : Rel (lbl w) a
  means : Means p a

theorem stand_new : Stand (DSet.new : DSet T) Pile.new Abs.new :=
  ⟨rfl, rel_new, ⟨fun i => by simp [Pile.new, Abs.new], rfl⟩⟩

theorem plain_answer {p : Pile T} {a : Abs Nat} (h : Means p a) (op : Op T) (hop : ∀ o o', op ≠ .iterate o o')
    {r : Except Fault (Out T)} (hr : ∀ gs, r ≠ .ok (.groups gs)) (ha : a.Answer (lop p.stored op) (r.map plain)) :
    p.Answer op r := by
  have hplain : ∀ r' : Except Fault (Out Nat), (∀ gs, r' ≠ .ok (.groups gs)) → r.map plain = r' →
      r = r'.map (fun | .unit => .unit | .bool b => .bool b | .nat n => .nat n | .groups _ => .unit) := by
    intro r' hr' e
    subst e
    cases r with
    | error e => rfl
    | ok o => cases o <;> first | rfl | exact absurd rfl (hr _)
  cases op with
  | makeSet x c kp => cases kp <;> exact hplain _ (by simp) ha
  | union x y xc yc xp yp => cases xp <;> cases yp <;> exact hplain _ (by simp) ha
  | inUnion _ _ xc yc xp yp =>
    unfold Pile.Answer
    unfold lop Abs.Answer at ha
    cases xp with
    | true => exact hplain _ (by simp) ha
    | false =>
      simp only [Bool.false_eq_true, if_false] at ha ⊢
      cases hx : p.found xc with
      | none =>
        have hn : num p.stored xc ∉ a.elems := by rw [found_mem h, hx]; simp
        cases yp with
        | true => exact hplain _ (by simp) (ha.2 hn)
        | false =>
          obtain ⟨b, h1, h2⟩ := ha
          have : b = false := by
            cases b with
            | false => rfl
            | true => exact absurd (h2.mp rfl).1 hn
          subst this
          exact hplain _ (by simp) h1
      | some i =>
        have hm : num p.stored xc ∈ a.elems := by rw [found_mem h, hx]; rfl
        cases yp with
        | true => exact hplain _ (by simp) (ha.1 hm)
        | false =>
          obtain ⟨b, h1, h2⟩ := ha
          have h1 := hplain _ (by simp) h1
          dsimp only
          simp only [Bool.false_eq_true, if_false]
          cases hy : p.found yc with
          | none =>
            have hn : num p.stored yc ∉ a.elems := by rw [found_mem h, hy]; simp
            have : b = false := by
              cases b with
              | false => rfl
              | true => exact absurd (h2.mp rfl).2.1 hn
            subst this
            exact h1
          | some j =>
            have hm' : num p.stored yc ∈ a.elems := by rw [found_mem h, hy]; rfl
            refine ⟨b, h1, h2.trans ?_⟩
            rw [← h.pairs, ← found_num hx, ← found_num hy]
            exact ⟨fun h => h.2.2, fun h => ⟨hm, hm', h⟩⟩
  | contains _ c kp =>
    unfold Pile.Answer
    unfold lop Abs.Answer at ha
    cases kp with
    | true => exact hplain _ (by simp) ha
    | false =>
      obtain ⟨b, h1, h2⟩ := ha
      rw [found_mem h, ← Bool.eq_iff_iff] at h2
      subst h2
      exact hplain _ (by simp) h1
  | len =>
    have ha : r.map plain = .ok (.nat a.card) := ha
    rw [h.card] at ha
    exact hplain _ (by simp) ha
  | isEmpty =>
    obtain ⟨b, h1, h2⟩ := ha
    have : b = p.stored.isEmpty := by
      rw [Bool.eq_iff_iff, h2, List.isEmpty_iff]
      constructor
      · intro e
        by_contra hne
        have := (h.elems 0).mpr (List.length_pos_iff.mpr hne)
        rw [e] at this; cases this
      · intro e
        apply List.eq_nil_iff_forall_not_mem.mpr
        intro i hi
        have := (h.elems i).mp hi
        rw [e] at this; cases this
    subst this
    exact hplain _ (by simp) h1
  | clear => exact hplain _ (by simp) ha
  | reserve n cp => cases cp <;> exact hplain _ (by simp) ha
  | extendRef hint cp items pp => cases cp <;> cases pp <;> exact hplain _ (by simp) ha
  | extend hint cp items pp => cases cp <;> cases pp <;> exact hplain _ (by simp) ha
  | iterate o o' => exact absurd rfl (hop o o')

theorem step_wild [Cfg] {k : Nat} (hk : 64 ≤ k) {w : DSet T} {p : Pile T} {a : Abs Nat} (h : Stand w p a) (op : Op T)
    (hm : (p.step op).stored.length ≤ usizeMax) :
    ∃ r w' a', step k op w = (r, w') ∧ Stand w' (p.step op) a' ∧ p.Answer op r := by
  have hmeans := h.means.step op
  have hcard := hmeans.card
  by_cases hop : ∀ o o', op ≠ .iterate o o'
  · obtain ⟨r, w', h1, h2, h3, h4⟩ := step_plain k op hop h.numbered
    obtain ⟨out, s', g1, g2, g3⟩ := step_ok (stack := k) h.rel (lop p.stored op) (by rw [hcard]; exact hm)
      (by rw [hcard]; exact lt_two_pow hm hk)
    rw [h2] at g1
    cases g1
    exact ⟨r, w', _, h1, ⟨h3, g2, hmeans⟩, plain_answer h.means op hop h4 g3⟩
  · simp only [ne_eq, not_forall, not_not] at hop
    obtain ⟨o, o', rfl⟩ := hop
    obtain ⟨gs, w', q, q', h1, h2, h3, h4⟩ := iterate_lbl k o o' w
    have hm' : (a.step (.iterate q q')).card ≤ usizeMax := by
      show a.card ≤ _
      rw [h.means.card]; exact hm
    obtain ⟨out, s', g1, g2, g3⟩ := step_ok (stack := k) h.rel (.iterate q q') hm' (lt_two_pow hm' hk)
    have g1' : wrap .groups (DSet.iterate k q.f q'.f) (lbl w) = (out, s') := g1
    rw [wrap_eq _ h2] at g1'
    cases g1'
    obtain ⟨l, e, hpart, -⟩ := g3
    cases gs with
    | error e => cases e
    | ok gs =>
      cases e
      refine ⟨_, w', a, wrap_eq _ h1, ⟨?_, g2, h.means⟩, gs, rfl, ?_, ?_, ?_⟩
      · show w'.ids.entries.reverse = _
        rw [h3]; exact h.numbered
      · intro g hg e
        exact hpart.1 _ (List.mem_map.mpr ⟨g, hg, rfl⟩) (by rw [e]; rfl)
      · refine (h4 gs rfl).trans ?_
        rw [← h.numbered]
        exact (List.reverse_perm _).symm
      · intro i j
        have := hpart.2.2.2 i j
        rw [Abs.Same, h.means.elems, h.means.elems, h.means.pairs] at this
        rw [← this]
        constructor
        · rintro ⟨g, hg, hi, hj⟩; exact ⟨_, List.mem_map.mpr ⟨g, hg, rfl⟩, hi, hj⟩
        · rintro ⟨g', hg', hi, hj⟩
          obtain ⟨g, hg, rfl⟩ := List.mem_map.mp hg'
          exact ⟨g, hg, hi, hj⟩

theorem run_wild [Cfg] {k : Nat} (hk : 64 ≤ k) (ops : List (Op T)) : ∀ {w : DSet T} {p : Pile T} {a : Abs Nat},
    Stand w p a → (∀ pre, pre <+: ops → (p.run pre).stored.length ≤ usizeMax) →
    p.Answers ops (run k ops w).1 ∧ ∃ a', Stand (run k ops w).2 (p.run ops) a' := by
  induction ops with
  | nil => intro w p a h _; exact ⟨rfl, a, h⟩
  | cons op ops ih =>
    intro w p a h hm
    obtain ⟨r, w', a', h1, h2, h3⟩ := step_wild hk h op (hm [op] ⟨ops, rfl⟩)
    obtain ⟨g1, g2⟩ := ih h2 fun pre hp => hm (op :: pre) (List.cons_prefix_cons.mpr ⟨rfl, hp⟩)
    have e : run k (op :: ops) w = (r :: (run k ops w').1, (run k ops w').2) := by
      show (let (r, s') := step k op w; let (rs, s'') := run k ops s'; (r :: rs, s'')) = _
      rw [h1]
    rw [e]
    exact ⟨⟨r, _, rfl, h3, g1⟩, g2⟩

/-! ## a proper `Hash` and `Eq` -/

/-- the call without what the table finds -/
def Op.forget : Op T → DS.Op T
  | .makeSet x _ kp => .makeSet x kp
  | .union a b _ _ ap bp => .union a b ap bp
  | .inUnion a b _ _ ap bp => .inUnion a b ap bp
  | .contains x _ kp => .contains x kp
  | .len => .len
  | .isEmpty => .isEmpty
  | .clear => .clear
  | .reserve n cp => .reserve n cp
  | .extend hint cp items p => .extend hint cp (items.map (·.1)) p
  | .extendRef hint cp items p => .extendRef hint cp (items.map (·.1)) p
  | .iterate o o' => .iterate o o'

variable [DecidableEq T]

theorem search_get (s : DSet T) (x : T) : ∃ c, search c s = s.ids.get x := by
  cases h : s.ids.get x with
  | none => exact ⟨none, rfl⟩
  | some id =>
    have hm : ∀ es : List (T × Nat), HMap.lookup x es = some id → (x, id) ∈ es := by
      intro es
      induction es with
      | nil => intro h; cases h
      | cons e es ih =>
        intro h
        unfold HMap.lookup at h
        split at h
        · rename_i he; cases h; cases he; exact List.mem_cons_self
        · exact List.mem_cons_of_mem _ (ih h)
    obtain ⟨i, hi⟩ := List.mem_iff_getElem?.mp (List.mem_reverse.mpr (hm _ h))
    exact ⟨some i, by show (s.ids.entries.reverse[i]?).map (·.2) = _; rw [hi]; rfl⟩

theorem makeOrGetSet_lawful (s : DSet T) (x : T) (kp : Bool) :
    ∃ c, makeOrGetSet x c kp s = DSet.makeOrGetSet x kp s := by
  obtain ⟨c, hc⟩ := search_get s x
  refine ⟨c, ?_⟩
  unfold makeOrGetSet DSet.makeOrGetSet HMap.insert
  rw [hc]
  cases kp with
  | true => rfl
  | false => cases s.ids.get x <;> rfl

theorem extendLoop_lawful (items : List T) (p : Bool) : ∀ s : DSet T, ∃ its : List (T × Option Nat),
    its.map (·.1) = items ∧ extendLoop its p s = DSet.extendLoop items p s := by
  induction items with
  | nil => intro s; exact ⟨[], rfl, rfl⟩
  | cons x items ih =>
    intro s
    obtain ⟨c, hc⟩ := makeOrGetSet_lawful s x false
    have hc : makeSet x c false s = DSet.makeSet x false s := by
      unfold makeSet DSet.makeSet; rw [M.bind_run, M.bind_run, hc]
    obtain ⟨its, h1, h2⟩ := ih (DSet.makeSet x false s).2
    refine ⟨(x, c) :: its, by rw [List.map_cons, h1], ?_⟩
    show (makeSet x c false >>= fun _ => extendLoop its p) s = (DSet.makeSet x false >>= fun _ => DSet.extendLoop items p) s
    rw [M.bind_run, M.bind_run, hc]
    generalize DSet.makeSet x false s = q at h2
    obtain ⟨r, s'⟩ := q
    cases r with
    | error e => rfl
    | ok _ => exact h2

end DS.Wild
