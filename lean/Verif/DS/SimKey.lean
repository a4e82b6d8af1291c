import Verif.DS.ModelKey
import Verif.DS.Props
/-!
# Vocabulary and lemmas for C91
-/

open Rust
namespace DS.Key

/-! ## vocabulary -/
section
variable {T K : Type} [DecidableEq K] (key : T → K) (clone : T → T)

/-- the stored value with key `k` -/
def kept (s : DSet T) (k : K) : Option T := KMap.stored key s.ids k

/-- `Clone` returns a value that compares equal. -/
def Faithful : Prop := ∀ x, key (clone x) = key x

/-- the first value with key `k` -/
def first (k : K) (xs : List T) : Option T := xs.find? fun x => decide (key x = k)

/-- runs a method and wraps what it returns -/
def wrap {α : Type} (f : α → Out T) (m : M (DSet T) α) : M (DSet T) (Out T) := fun s =>
  match m s with
  | (.ok a, s') => (.ok (f a), s')
  | (.error e, s') => (.error e, s')

/-- one call -/
def step [Cfg] (stack : Nat) : Op T → M (DSet T) (Out T)
  | .makeSet x kp => wrap (fun _ => .unit) (makeSet key x kp)
  | .union a b ap bp => wrap (fun _ => .unit) (union key stack a b ap bp)
  | .inUnion a b ap bp => wrap .bool (inUnion key stack a b ap bp)
  | .contains x kp => wrap .bool (contains key x kp)
  | .len => fun s => (.ok (.nat (len s)), s)
  | .isEmpty => fun s => (.ok (.bool (isEmpty s)), s)
  | .clear => wrap (fun _ => .unit) clear
  | .reserve n cp => wrap (fun _ => .unit) (reserve n cp)
  | .extend hint cp items p => wrap (fun _ => .unit) (extend key hint cp items p)
  | .extendRef hint cp items p => wrap (fun _ => .unit) (extendRef key clone hint cp items p)
  | .iterate o o' => wrap .groups (iterate stack o.f o'.f)

/-- a history of calls, panics being caught -/
def run [Cfg] (stack : Nat) : List (Op T) → DSet T → List (Except Fault (Out T)) × DSet T
  | [], s => ([], s)
  | op :: ops, s =>
    let (r, s') := step key clone stack op s
    let (rs, s'') := run stack ops s'
    (r :: rs, s'')

/-- the constructors -/
def make : Start T → Except Fault (DSet T)
  | .new => .ok new
  | .fromIter items => fromIter key items false
  | .fromIterRef items => fromIterRef key clone items false

/-- a constructor with keys in place of values -/
def startKeys : Start T → Start K
  | .new => .new
  | .fromIter items => .fromIter (items.map key)
  | .fromIterRef items => .fromIterRef (items.map key)

/-- a call with keys in place of values; iteration orders are immaterial for what C56 expects of a call -/
def opKeys : Op T → Op K
  | .makeSet x kp => .makeSet (key x) kp
  | .union a b ap bp => .union (key a) (key b) ap bp
  | .inUnion a b ap bp => .inUnion (key a) (key b) ap bp
  | .contains x kp => .contains (key x) kp
  | .len => .len
  | .isEmpty => .isEmpty
  | .clear => .clear
  | .reserve n cp => .reserve n cp
  | .extend hint cp items p => .extend hint cp (items.map key) p
  | .extendRef hint cp items p => .extendRef hint cp (items.map key) p
  | .iterate _ _ => .iterate ⟨id, fun _ => List.Perm.refl _⟩ ⟨id, fun _ => List.Perm.refl _⟩

/-- what a call returned, with keys in place of values -/
def outKeys : Out T → Out K
  | .unit => .unit
  | .bool b => .bool b
  | .nat n => .nat n
  | .groups gs => .groups (gs.map (·.map key))

/-- the values a call offers to be stored, in order, after those in `xs` -/
def offers (xs : List T) : Op T → List T
  | .makeSet x kp => if kp then xs else xs ++ [x]
  | .union a b ap bp => if ap then xs else if bp then xs ++ [a] else xs ++ [a, b]
  | .clear => []
  | .extend _ cp items _ => if cp then xs else xs ++ items
  | .extendRef _ cp items _ => if cp then xs else xs ++ items.map clone
  | .inUnion .. | .contains .. | .len | .isEmpty | .reserve .. | .iterate .. => xs

/-- the call is `clear` -/
def _root_.DS.Op.isClear : Op T → Bool
  | .clear => true
  | _ => false

/-- the values a constructor is given -/
def startOffers : Start T → List T
  | .new => []
  | .fromIter items => items
  | .fromIterRef items => items.map clone

/-! ## helper lemmas -/

/-- the set of keys -/
def keys (s : DSet T) : DSet K := ⟨KMap.keys key s.ids, s.dataById⟩

variable {key clone}

/-- a method and its counterpart on keys -/
def Sim {α : Type} (m : M (DSet T) α) (m' : M (DSet K) α) : Prop :=
  ∀ s, m' (keys key s) = ((m s).1, keys key (m s).2)

omit [DecidableEq K] in
theorem Sim.bind {α β : Type} {m : M (DSet T) α} {m' : M (DSet K) α} {f : α → M (DSet T) β}
    {f' : α → M (DSet K) β} (h : Sim (key := key) m m') (hf : ∀ a, Sim (key := key) (f a) (f' a)) :
    Sim (key := key) (m >>= f) (m' >>= f') := by
  intro c
  rw [M.bind_run, M.bind_run, h c]
  generalize m c = q
  obtain ⟨r, c'⟩ := q
  cases r with
  | ok a => exact hf a c'
  | error e => rfl

omit [DecidableEq K] in
theorem Sim.pure {α : Type} (a : α) : Sim (key := key) (pure a : M (DSet T) α) (Pure.pure a) := fun _ => rfl

omit [DecidableEq K] in
theorem Sim.throw {α : Type} (e : Fault) : Sim (key := key) (M.throw e : M (DSet T) α) (M.throw e) := fun _ => rfl

omit [DecidableEq K] in
theorem Sim.stop (p : Bool) (e : Fault) :
    Sim (key := key) (if p then M.throw e else Pure.pure () : M (DSet T) Unit) (if p then M.throw e else Pure.pure ()) := by
  intro c; cases p <;> rfl

omit [DecidableEq K] in
theorem onData_sim {α : Type} (m : M (List Data) α) : Sim (key := key) (onData m) (DSet.onData m) := fun _ => rfl

omit [DecidableEq K] in
theorem len_keys (m : HMap T Nat) : (KMap.keys key m).len = m.len := List.length_map _

theorem makeOrGetSet_sim (x : T) (kp : Bool) :
    Sim (key := key) (makeOrGetSet key x kp) (DSet.makeOrGetSet (key x) kp) := by
  intro s
  unfold makeOrGetSet DSet.makeOrGetSet
  cases kp with
  | true => rfl
  | false =>
    simp only [keys, KMap.get_keys, len_keys, Bool.false_eq_true, ↓reduceIte]
    cases KMap.get key s.ids x with
    | none => simp only [KMap.insert_keys]
    | some id => rfl

theorem makeSet_sim (x : T) (kp : Bool) : Sim (key := key) (makeSet key x kp) (DSet.makeSet (key x) kp) :=
  Sim.bind (makeOrGetSet_sim x kp) fun _ => Sim.pure ()

theorem union_sim [Cfg] (k : Nat) (a b : T) (ap bp : Bool) :
    Sim (key := key) (union key k a b ap bp) (DSet.union k (key a) (key b) ap bp) :=
  Sim.bind (makeOrGetSet_sim a ap) fun _ => Sim.bind (makeOrGetSet_sim b bp) fun _ => onData_sim _

theorem contains_sim (x : T) (kp : Bool) : Sim (key := key) (contains key x kp) (DSet.contains (key x) kp) := by
  intro s
  unfold contains DSet.contains
  cases kp with
  | true => rfl
  | false => simp only [keys, HMap.containsKey, KMap.get_keys, Bool.false_eq_true, ↓reduceIte]

theorem lookup_sim (x : T) (kp : Bool) : Sim (key := key) (lookup key x kp) (DSet.lookup (key x) kp) := by
  intro s
  unfold lookup DSet.lookup
  cases kp with
  | true => rfl
  | false => simp only [keys, KMap.get_keys, Bool.false_eq_true, ↓reduceIte]

theorem inUnion_sim (k : Nat) (a b : T) (ap bp : Bool) :
    Sim (key := key) (inUnion key k a b ap bp) (DSet.inUnion k (key a) (key b) ap bp) := by
  refine Sim.bind (lookup_sim a ap) fun o => ?_
  cases o with
  | none => exact Sim.pure _
  | some i =>
    refine Sim.bind (lookup_sim b bp) fun o => ?_
    cases o with
    | none => exact Sim.pure _
    | some j => exact Sim.bind (onData_sim _) fun _ => Sim.bind (onData_sim _) fun _ => Sim.pure _

theorem extendLoop_sim (items : List T) (p : Bool) :
    Sim (key := key) (extendLoop key items p) (DSet.extendLoop (items.map key) p) := by
  induction items with
  | nil => exact Sim.stop p _
  | cons x xs ih => exact Sim.bind (makeSet_sim x false) fun _ => ih

theorem extendRefLoop_sim (hc : Faithful key clone) (items : List T) (p : Bool) :
    Sim (key := key) (extendRefLoop key clone items p) (DSet.extendRefLoop (items.map key) p) := by
  induction items with
  | nil => exact Sim.stop p _
  | cons x xs ih =>
    refine Sim.bind ?_ fun _ => ih
    have := makeSet_sim (key := key) (clone x) false
    rwa [hc] at this

/-! ### iteration -/

/-- the groups with keys in place of values -/
def gkeys (key : T → K) (m : HMap Nat (List T)) : HMap Nat (List K) := ⟨m.entries.map fun e => (e.1, e.2.map key)⟩

omit [DecidableEq K] in
theorem gkeys_lookup (r : Nat) (es : List (Nat × List T)) :
    HMap.lookup r (es.map fun e => (e.1, e.2.map key)) = (HMap.lookup r es).map (·.map key) := by
  induction es with
  | nil => rfl
  | cons e es ih =>
    rw [List.map_cons]
    unfold HMap.lookup
    split
    · rfl
    · exact ih

omit [DecidableEq K] in
theorem gkeys_get (r : Nat) (m : HMap Nat (List T)) : (gkeys key m).get r = (m.get r).map (·.map key) :=
  gkeys_lookup r m.entries

omit [DecidableEq K] in
theorem gkeys_update (r : Nat) (v : List T) (es : List (Nat × List T)) :
    HMap.update r (v.map key) (es.map fun e => (e.1, e.2.map key)) =
      (HMap.update r v es).map fun e => (e.1, e.2.map key) := by
  induction es with
  | nil => rfl
  | cons e es ih =>
    rw [List.map_cons]
    unfold HMap.update
    split
    · rfl
    · rw [List.map_cons, ih]

omit [DecidableEq K] in
theorem gkeys_insert (r : Nat) (v : List T) (m : HMap Nat (List T)) :
    (gkeys key m).insert r (v.map key) = gkeys key (m.insert r v) := by
  unfold HMap.insert
  rw [gkeys_get]
  cases m.get r with
  | none => rfl
  | some w => exact congrArg HMap.mk (gkeys_update r v m.entries)

omit [DecidableEq K] in
theorem gkeys_orInsert (r : Nat) (m : HMap Nat (List T)) :
    (gkeys key m).orInsert r [] = ((m.orInsert r []).1.map key, gkeys key (m.orInsert r []).2) := by
  unfold HMap.orInsert
  rw [gkeys_get]
  cases m.get r with
  | none => exact congrArg (Prod.mk []) (gkeys_insert (key := key) r [] m)
  | some w => rfl

omit [DecidableEq K] in
theorem buildLoop_sim (k : Nat) (es : List (T × Nat)) (m : HMap Nat (List T)) (s : DSet T) :
    DSet.buildLoop k (KMap.pairs key es) (gkeys key m) (keys key s) =
      ((buildLoop k es m s).1.map (gkeys key), keys key (buildLoop k es m s).2) := by
  induction es generalizing m s with
  | nil => rfl
  | cons e es ih =>
    show (DSet.onData (find k e.2) >>= fun root => DSet.buildLoop k (KMap.pairs key es)
        (((gkeys key m).orInsert root []).2.insert root (((gkeys key m).orInsert root []).1 ++ [key e.1])))
        (keys key s) =
      (((onData (find k e.2) >>= fun root => buildLoop k es
        ((m.orInsert root []).2.insert root ((m.orInsert root []).1 ++ [e.1]))) s).1.map (gkeys key),
       keys key ((onData (find k e.2) >>= fun root => buildLoop k es
        ((m.orInsert root []).2.insert root ((m.orInsert root []).1 ++ [e.1]))) s).2)
    rw [M.bind_run, M.bind_run, onData_sim (key := key) (find k e.2) s]
    generalize onData (find k e.2) s = q
    obtain ⟨r, s'⟩ := q
    cases r with
    | error e => rfl
    | ok root =>
      have := ih ((m.orInsert root []).2.insert root ((m.orInsert root []).1 ++ [e.1])) s'
      rw [← gkeys_insert, List.map_append] at this
      simp only [gkeys_orInsert]
      exact this

open Classical in
/-- an order that sends one list to a given permutation of it -/
noncomputable def sending {α : Type} (l l' : List α) (h : l'.Perm l) : Shuffle α :=
  ⟨fun x => if x = l then l' else x, fun x => by
    by_cases hx : x = l
    · simp only [hx, ↓reduceIte]; exact h
    · simp only [hx, ↓reduceIte]; exact List.Perm.refl _⟩

theorem sending_self {α : Type} (l l' : List α) (h : l'.Perm l) : (sending l l' h).f l = l' := by
  simp [sending]

theorem iterate_eq (k : Nat) (o : List (T × Nat) → List (T × Nat)) (o' : List (Nat × List T) → List (Nat × List T))
    (s : DSet T) : iterate k o o' s =
      ((buildLoop k (o s.ids.entries) HMap.empty s).1.map fun m => (o' m.entries).map (·.2),
        (buildLoop k (o s.ids.entries) HMap.empty s).2) := by
  cases h : buildLoop k (o s.ids.entries) HMap.empty s with
  | mk r s' =>
    cases r with
    | ok a => exact M.bind_ok (m := buildSets k o) h
    | error e => exact M.bind_error (m := buildSets k o) h

omit [DecidableEq K] in
theorem iterate_eq' (k : Nat) (o : List (K × Nat) → List (K × Nat)) (o' : List (Nat × List K) → List (Nat × List K))
    (s : DSet K) : DSet.iterate k o o' s =
      ((DSet.buildLoop k (o s.ids.entries) HMap.empty s).1.map fun m => (o' m.entries).map (·.2),
        (DSet.buildLoop k (o s.ids.entries) HMap.empty s).2) := by
  cases h : DSet.buildLoop k (o s.ids.entries) HMap.empty s with
  | mk r s' =>
    cases r with
    | ok a => exact M.bind_ok (m := DSet.buildSets k o) h
    | error e => exact M.bind_error (m := DSet.buildSets k o) h

omit [DecidableEq K] in
theorem iterate_sim (k : Nat) (o : Shuffle (T × Nat)) (o' : Shuffle (Nat × List T)) (s : DSet T) :
    ∃ (p : Shuffle (K × Nat)) (p' : Shuffle (Nat × List K)), DSet.iterate k p.f p'.f (keys key s) =
      ((iterate k o.f o'.f s).1.map (·.map (·.map key)), keys key (iterate k o.f o'.f s).2) := by
  have hb := buildLoop_sim (key := key) k (o.f s.ids.entries) HMap.empty s
  have he : (gkeys key (HMap.empty : HMap Nat (List T))) = HMap.empty := rfl
  rw [he] at hb
  let p := sending (KMap.pairs key s.ids.entries) (KMap.pairs key (o.f s.ids.entries)) ((o.perm _).map _)
  have hp : p.f (keys key s).ids.entries = KMap.pairs key (o.f s.ids.entries) := sending_self _ _ _
  rw [iterate_eq]
  generalize buildLoop k (o.f s.ids.entries) HMap.empty s = q at hb
  obtain ⟨r, s'⟩ := q
  cases r with
  | error e =>
    refine ⟨p, ⟨id, fun _ => List.Perm.refl _⟩, ?_⟩
    rw [iterate_eq', hp, hb]; rfl
  | ok a =>
    have hperm : ((o'.f a.entries).map fun e => (e.1, e.2.map key)).Perm (gkeys key a).entries := (o'.perm _).map _
    refine ⟨p, sending _ _ hperm, ?_⟩
    rw [iterate_eq', hp, hb]
    show (Except.ok (((sending _ _ hperm).f (gkeys key a).entries).map (·.2)), keys key s') =
      (Except.ok (((o'.f a.entries).map (·.2)).map (·.map key)), keys key s')
    rw [sending_self, List.map_map, List.map_map]; rfl

/-! ### calls and histories -/

omit [DecidableEq K] in
theorem wrap_sim {α : Type} {m : M (DSet T) α} {m' : M (DSet K) α} (h : Sim (key := key) m m') (f : α → Out T)
    (f' : α → Out K) (hf : ∀ a, f' a = outKeys key (f a)) (s : DSet T) :
    DS.wrap f' m' (keys key s) = ((wrap f m s).1.map (outKeys key), keys key (wrap f m s).2) := by
  unfold DS.wrap wrap
  rw [h s]
  generalize m s = q
  obtain ⟨r, s'⟩ := q
  cases r with
  | ok a => simp only [hf]; rfl
  | error e => rfl

/-- what C56 expects of a call is the same -/
def SameCall (op op' : Op K) : Prop :=
  (∀ (a : Abs K) r, a.Answer op r ↔ a.Answer op' r) ∧ ∀ a : Abs K, a.step op = a.step op'

theorem SameCall.rfl (op : Op K) : SameCall op op := ⟨fun _ _ => Iff.rfl, fun _ => Eq.refl _⟩

theorem step_sim [Cfg] (hc : Faithful key clone) (k : Nat) (op : Op T) (s : DSet T) :
    ∃ op' : Op K, SameCall op' (opKeys key op) ∧ DS.step k op' (keys key s) =
      ((step key clone k op s).1.map (outKeys key), keys key (step key clone k op s).2) := by
  cases op with
  | makeSet x kp =>
    exact ⟨_, .rfl _, wrap_sim (makeSet_sim x kp) (fun _ => .unit) (fun _ => .unit) (fun _ => Eq.refl _) s⟩
  | union a b ap bp =>
    exact ⟨_, .rfl _, wrap_sim (union_sim k a b ap bp) (fun _ => .unit) (fun _ => .unit) (fun _ => Eq.refl _) s⟩
  | inUnion a b ap bp => exact ⟨_, .rfl _, wrap_sim (inUnion_sim k a b ap bp) .bool .bool (fun _ => Eq.refl _) s⟩
  | contains x kp => exact ⟨_, .rfl _, wrap_sim (contains_sim x kp) .bool .bool (fun _ => Eq.refl _) s⟩
  | len =>
    refine ⟨.len, .rfl _, ?_⟩
    show (Except.ok (Out.nat (KMap.keys key s.ids).len), keys key s) = _
    rw [len_keys]; rfl
  | isEmpty =>
    refine ⟨.isEmpty, .rfl _, ?_⟩
    show (Except.ok (Out.bool (KMap.pairs key s.ids.entries).isEmpty), keys key s) = _
    rw [KMap.pairs, List.isEmpty_map]; rfl
  | clear => exact ⟨_, .rfl _, Eq.refl _⟩
  | reserve n cp => cases cp <;> exact ⟨_, .rfl _, Eq.refl _⟩
  | extend hint cp items p =>
    cases cp with
    | true => exact ⟨_, .rfl _, Eq.refl _⟩
    | false =>
      exact ⟨_, .rfl _, wrap_sim (m := extend key hint false items p) (m' := DSet.extend hint false (items.map key) p)
        (extendLoop_sim items p) (fun _ => .unit) (fun _ => .unit) (fun _ => Eq.refl _) s⟩
  | extendRef hint cp items p =>
    cases cp with
    | true => exact ⟨_, .rfl _, Eq.refl _⟩
    | false =>
      exact ⟨_, .rfl _, wrap_sim (m := extendRef key clone hint false items p)
        (m' := DSet.extendRef hint false (items.map key) p)
        (extendRefLoop_sim hc items p) (fun _ => .unit) (fun _ => .unit) (fun _ => Eq.refl _) s⟩
  | iterate o o' =>
    obtain ⟨p, p', h⟩ := iterate_sim (key := key) k o o' s
    refine ⟨.iterate p p', ⟨fun _ _ => Iff.rfl, fun _ => Eq.refl _⟩, ?_⟩
    show DS.wrap Out.groups (DSet.iterate k p.f p'.f) (keys key s) =
      ((wrap .groups (iterate k o.f o'.f) s).1.map (outKeys key), keys key (wrap .groups (iterate k o.f o'.f) s).2)
    unfold DS.wrap wrap
    rw [h]
    generalize iterate k o.f o'.f s = q
    obtain ⟨r, s'⟩ := q
    cases r <;> rfl

theorem run_sim [Cfg] (hc : Faithful key clone) (k : Nat) (ops : List (Op T)) (s : DSet T) :
    ∃ ops' : List (Op K), List.Forall₂ SameCall ops' (ops.map (opKeys key)) ∧
      DS.run k ops' (keys key s) =
        ((run key clone k ops s).1.map (·.map (outKeys key)), keys key (run key clone k ops s).2) := by
  induction ops generalizing s with
  | nil => exact ⟨[], .nil, rfl⟩
  | cons op ops ih =>
    obtain ⟨op', h1, h2⟩ := step_sim (key := key) hc k op s
    obtain ⟨ops', h3, h4⟩ := ih (step key clone k op s).2
    refine ⟨op' :: ops', .cons h1 h3, ?_⟩
    rw [DS.run, h2]
    simp only [h4]
    rfl

theorem same_run {ops ops' : List (Op K)} (h : List.Forall₂ SameCall ops ops') (a : Abs K) :
    a.run ops = a.run ops' := by
  induction h generalizing a with
  | nil => rfl
  | cons h1 _ ih =>
    show Abs.run (a.step _) _ = Abs.run (a.step _) _
    rw [h1.2, ih]

theorem same_answers {ops ops' : List (Op K)} (h : List.Forall₂ SameCall ops ops') {a : Abs K}
    {rs : List (Except Fault (Out K))} (hr : Answers a ops rs) : Answers a ops' rs := by
  induction h generalizing a rs with
  | nil => exact hr
  | cons h1 _ ih =>
    cases rs with
    | nil => exact hr
    | cons r rs => exact ⟨(h1.1 a r).mp hr.1, h1.2 a ▸ ih hr.2⟩

theorem same_prefix {ops ops' : List (Op K)} (h : List.Forall₂ SameCall ops ops') {pre : List (Op K)}
    (hp : pre <+: ops) : ∃ pre', pre' <+: ops' ∧ List.Forall₂ SameCall pre pre' := by
  induction h generalizing pre with
  | nil => exact ⟨pre, hp, by rw [List.prefix_nil.mp hp]; exact .nil⟩
  | cons h1 _ ih =>
    cases pre with
    | nil => exact ⟨[], List.nil_prefix, .nil⟩
    | cons x pre =>
      obtain ⟨h2, h3⟩ := List.cons_prefix_cons.mp hp
      obtain ⟨pre', h4, h5⟩ := ih h3
      exact ⟨_ :: pre', List.cons_prefix_cons.mpr ⟨Eq.refl _, h4⟩, .cons (h2 ▸ h1) h5⟩

theorem make_sim (hc : Faithful key clone) (st : Start T) :
    (startKeys key st).make = (make key clone st).map (keys key) := by
  cases st with
  | new => rfl
  | fromIter items =>
    show DSet.fromIter (items.map key) false = _
    rw [DSet.fromIter, fromIterLoop_eq]
    have h := extendLoop_sim (key := key) items false new
    have e : keys key (new : DSet T) = DSet.new := rfl
    rw [e] at h
    rw [h, make, fromIter]
    generalize extendLoop key items false new = q
    obtain ⟨r, s'⟩ := q
    cases r <;> rfl
  | fromIterRef items =>
    show DSet.fromIterRef (items.map key) false = _
    rw [DSet.fromIterRef, fromIterRefLoop_eq]
    have h := extendRefLoop_sim (key := key) hc items false new
    have e : keys key (new : DSet T) = DSet.new := rfl
    rw [e, extendRefLoop_eq] at h
    rw [h, make, fromIterRef]
    generalize extendRefLoop key clone items false new = q
    obtain ⟨r, s'⟩ := q
    cases r <;> rfl

/-! ### what is stored -/

theorem first_append (k : K) (xs ys : List T) : first key k (xs ++ ys) = (first key k xs).or (first key k ys) := by
  rw [first, List.find?_append]; rfl

theorem first_one (k : K) (x : T) : first key k [x] = if key x = k then some x else none := by
  by_cases h : key x = k <;> simp [first, h]

/-- `s` keeps of `xs` the first of the values with equal keys -/
structure Keeps (key : T → K) (s : DSet T) (xs : List T) : Prop where
  valid : KMap.Valid key s.ids
  kept : ∀ k, kept key s k = first key k xs

theorem Keeps.ids {s s' : DSet T} {xs : List T} (h : Keeps key s xs) (e : s'.ids = s.ids) : Keeps key s' xs :=
  ⟨e ▸ h.valid, fun k => by rw [← h.kept k, Key.kept, Key.kept, e]⟩

theorem keeps_new : Keeps key (new : DSet T) [] := ⟨List.nodup_nil, fun _ => rfl⟩

theorem valid_insert {m : HMap T Nat} (h : KMap.Valid key m) (x : T) (v : Nat) :
    KMap.Valid key (KMap.insert key m x v) := by
  rw [KMap.valid_keys] at *
  rw [KMap.insert_keys]
  exact HMap.valid_insert h

theorem keeps_makeOrGetSet {s : DSet T} {xs : List T} (h : Keeps key s xs) (x : T) :
    ∃ n s', makeOrGetSet key x false s = (.ok n, s') ∧ Keeps key s' (xs ++ [x]) := by
  unfold makeOrGetSet
  cases hg : KMap.get key s.ids x with
  | none =>
    refine ⟨_, _, rfl, valid_insert h.valid _ _, fun k => ?_⟩
    show KMap.stored key (KMap.insert key s.ids x _) k = _
    rw [KMap.stored_insert, first_append, first_one, ← h.kept]; rfl
  | some id =>
    refine ⟨_, _, rfl, h.valid, fun k => ?_⟩
    rw [first_append, first_one, ← h.kept]
    by_cases hk : key x = k
    · subst hk
      have : (KMap.stored key s.ids (key x)).isSome := by rw [KMap.stored_isSome, hg]; rfl
      cases hs : Key.kept key s (key x) with
      | none => rw [Key.kept] at hs; rw [hs] at this; cases this
      | some y => rfl
    · rw [if_neg hk, Option.or_none]

theorem makeSet_run {s s' : DSet T} {x : T} {n : Nat} (h : makeOrGetSet key x false s = (.ok n, s')) :
    makeSet key x false s = (.ok (), s') := M.bind_ok h

theorem keeps_extendLoop {s : DSet T} {xs : List T} (h : Keeps key s xs) (items : List T) (p : Bool) :
    Keeps key (extendLoop key items p s).2 (xs ++ items) := by
  induction items generalizing s xs with
  | nil => rw [List.append_nil]; cases p <;> exact h
  | cons x items ih =>
    obtain ⟨n, s', h1, h2⟩ := keeps_makeOrGetSet h x
    have e : extendLoop key (x :: items) p s = extendLoop key items p s' := M.bind_ok (makeSet_run h1)
    rw [e]
    have := ih h2
    rwa [List.append_assoc] at this

theorem extendRefLoop_map (items : List T) (p : Bool) :
    extendRefLoop key clone items p = extendLoop key (items.map clone) p := by
  induction items with
  | nil => rfl
  | cons x xs ih => simp only [extendRefLoop, List.map_cons, extendLoop, ih]

omit [DecidableEq K] in
theorem wrap_state {α : Type} (f : α → Out T) (m : M (DSet T) α) (s : DSet T) : (wrap f m s).2 = (m s).2 := by
  unfold wrap
  generalize m s = q
  obtain ⟨r, s'⟩ := q
  cases r <;> rfl

omit [DecidableEq K] in
theorem buildLoop_ids (k : Nat) (es : List (T × Nat)) (m : HMap Nat (List T)) (s : DSet T) :
    (buildLoop k es m s).2.ids = s.ids := by
  induction es generalizing m s with
  | nil => rfl
  | cons e es ih =>
    show ((onData (find k e.2) >>= fun root => buildLoop k es
        ((m.orInsert root []).2.insert root ((m.orInsert root []).1 ++ [e.1]))) s).2.ids = s.ids
    have hd : (onData (T := T) (find k e.2) s).2.ids = s.ids := rfl
    rw [M.bind_run]
    generalize onData (T := T) (find k e.2) s = q at *
    obtain ⟨r, s'⟩ := q
    cases r with
    | error e => exact hd
    | ok root => exact (ih _ s').trans hd

theorem inUnion_ids (k : Nat) (a b : T) (ap bp : Bool) (s : DSet T) : (inUnion key k a b ap bp s).2.ids = s.ids := by
  have hl : ∀ (x : T) (xp : Bool) (s : DSet T), (lookup key x xp s).2 = s := by
    intro x xp s; cases xp <;> rfl
  unfold inUnion
  rw [M.bind_run]
  have h1 := hl a ap s
  generalize lookup key a ap s = q at *
  obtain ⟨r, s1⟩ := q
  obtain rfl : s = s1 := h1.symm
  cases r with
  | error e => rfl
  | ok o =>
    cases o with
    | none => rfl
    | some i =>
      show ((lookup key b bp >>= _) s).2.ids = s.ids
      rw [M.bind_run]
      have h2 := hl b bp s
      generalize lookup key b bp s = q at *
      obtain ⟨r, s2⟩ := q
      obtain rfl : s = s2 := h2.symm
      cases r with
      | error e => rfl
      | ok o =>
        cases o with
        | none => rfl
        | some j =>
          show ((onData (find k i) >>= _) s).2.ids = s.ids
          rw [M.bind_run]
          have h3 : (onData (T := T) (find k i) s).2.ids = s.ids := rfl
          generalize onData (T := T) (find k i) s = q at *
          obtain ⟨r, s3⟩ := q
          cases r with
          | error e => exact h3
          | ok x =>
            show ((onData (find k j) >>= _) s3).2.ids = s.ids
            rw [M.bind_run]
            have h4 : (onData (T := T) (find k j) s3).2.ids = s3.ids := rfl
            generalize onData (T := T) (find k j) s3 = q at *
            obtain ⟨r, s4⟩ := q
            cases r <;> exact h4.trans h3

theorem keeps_step [Cfg] {s : DSet T} {xs : List T} (h : Keeps key s xs) (k : Nat) (op : Op T) :
    Keeps key (step key clone k op s).2 (offers clone xs op) := by
  cases op with
  | makeSet x kp =>
    rw [step, wrap_state]
    cases kp with
    | true => exact h
    | false =>
      obtain ⟨n, s', h1, h2⟩ := keeps_makeOrGetSet h x
      rw [makeSet_run h1]; exact h2
  | union a b ap bp =>
    rw [step, wrap_state]
    cases ap with
    | true => exact h
    | false =>
      obtain ⟨n, s1, h1, h2⟩ := keeps_makeOrGetSet h a
      have e : union key k a b false bp s = (do
          let j ← makeOrGetSet key b bp
          onData (unionIds k n j) : M (DSet T) Unit) s1 := M.bind_ok h1
      rw [e]
      cases bp with
      | true => exact h2
      | false =>
        obtain ⟨j, s2, h3, h4⟩ := keeps_makeOrGetSet h2 b
        have e2 : (do let j ← makeOrGetSet key b false
                      onData (unionIds k n j) : M (DSet T) Unit) s1 = onData (unionIds k n j) s2 := M.bind_ok h3
        rw [e2]
        rw [List.append_assoc] at h4
        exact h4.ids rfl
  | inUnion a b ap bp =>
    rw [step, wrap_state]
    exact h.ids (inUnion_ids k a b ap bp s)
  | contains x kp => rw [step, wrap_state]; cases kp <;> exact h
  | len => exact h
  | isEmpty => exact h
  | clear => exact keeps_new
  | reserve n cp => cases cp <;> exact h
  | extend hint cp items p =>
    rw [step, wrap_state]
    cases cp with
    | true => exact h
    | false => exact keeps_extendLoop h items p
  | extendRef hint cp items p =>
    rw [step, wrap_state]
    cases cp with
    | true => exact h
    | false =>
      show Keeps key (extendRefLoop key clone items p s).2 _
      rw [extendRefLoop_map]
      exact keeps_extendLoop h (items.map clone) p
  | iterate o o' =>
    rw [step, wrap_state, iterate_eq]
    exact h.ids (buildLoop_ids k _ _ s)

theorem keeps_run [Cfg] {s : DSet T} {xs : List T} (h : Keeps key s xs) (k : Nat) (ops : List (Op T)) :
    Keeps key (run key clone k ops s).2 (ops.foldl (offers clone) xs) := by
  induction ops generalizing s xs with
  | nil => exact h
  | cons op ops ih => exact ih (keeps_step h k op)

theorem keeps_make (st : Start T) : ∃ s, make key clone st = .ok s ∧ Keeps key s (startOffers clone st) := by
  have hl : ∀ items : List T, ∃ s, extendLoop key items false new = (.ok (), s) := by
    intro items
    generalize (new : DSet T) = s
    induction items generalizing s with
    | nil => exact ⟨_, rfl⟩
    | cons x items ih =>
      have : ∃ n s', makeOrGetSet key x false s = (.ok n, s') := by
        unfold makeOrGetSet
        cases KMap.get key s.ids x <;> exact ⟨_, _, rfl⟩
      obtain ⟨n, s', h1⟩ := this
      obtain ⟨s'', h2⟩ := ih s'
      exact ⟨s'', (M.bind_ok (makeSet_run h1)).trans h2⟩
  cases st with
  | new => exact ⟨_, rfl, keeps_new⟩
  | fromIter items =>
    obtain ⟨s, h⟩ := hl items
    have hk := keeps_extendLoop (keeps_new (key := key)) items false
    rw [h] at hk
    exact ⟨s, by rw [make, fromIter, h], hk⟩
  | fromIterRef items =>
    obtain ⟨s, h⟩ := hl (items.map clone)
    have hk := keeps_extendLoop (keeps_new (key := key)) (items.map clone) false
    rw [h] at hk
    exact ⟨s, by rw [make, fromIterRef, extendRefLoop_map, h], hk⟩

/-! ### what iteration shows -/

/-- the values in all groups -/
def flat (es : List (Nat × List T)) : List T := (es.map (·.2)).flatten

omit [DecidableEq K] in
theorem flat_update (r : Nat) (g : List T) (x : T) (es : List (Nat × List T)) (h : HMap.lookup r es = some g) :
    (flat (HMap.update r (g ++ [x]) es)).Perm (flat es ++ [x]) := by
  induction es with
  | nil => cases h
  | cons e es ih =>
    unfold HMap.lookup at h
    unfold HMap.update
    split
    · rename_i he
      rw [if_pos he] at h
      cases h
      show ((e.2 ++ [x]) ++ flat es).Perm ((e.2 ++ flat es) ++ [x])
      rw [List.append_assoc, List.append_assoc]
      exact List.Perm.append_left _ List.perm_append_comm
    · rename_i he
      rw [if_neg he] at h
      show (e.2 ++ flat _).Perm ((e.2 ++ flat es) ++ [x])
      rw [List.append_assoc]
      exact List.Perm.append_left _ (ih h)

omit [DecidableEq K] in
theorem flat_put (r : Nat) (x : T) (m : HMap Nat (List T)) :
    (flat ((m.orInsert r []).2.insert r ((m.orInsert r []).1 ++ [x])).entries).Perm (flat m.entries ++ [x]) := by
  unfold HMap.orInsert
  cases hg : m.get r with
  | some g =>
    show (flat (m.insert r (g ++ [x])).entries).Perm _
    unfold HMap.insert
    rw [hg]
    exact flat_update r g x m.entries hg
  | none =>
    show (flat ((m.insert r []).insert r ([] ++ [x])).entries).Perm _
    have e : m.insert r [] = ⟨(r, []) :: m.entries⟩ := by unfold HMap.insert; rw [hg]
    have e2 : (m.insert r []).get r = some [] := by rw [e]; simp [HMap.get, HMap.lookup]
    unfold HMap.insert at *
    rw [e2]
    have := flat_update r [] x ((r, []) :: m.entries) (by simp [HMap.lookup])
    rw [e]
    exact this

omit [DecidableEq K] in
theorem buildLoop_flat' (k : Nat) (es : List (T × Nat)) (m m' : HMap Nat (List T)) (s s' : DSet T)
    (h : buildLoop k es m s = (.ok m', s')) : (flat m'.entries).Perm (flat m.entries ++ es.map (·.1)) := by
  induction es generalizing m s with
  | nil => cases h; rw [List.map_nil, List.append_nil]
  | cons e es ih =>
    have h' : (onData (find k e.2) >>= fun root => buildLoop k es
        ((m.orInsert root []).2.insert root ((m.orInsert root []).1 ++ [e.1]))) s = (.ok m', s') := h
    rw [M.bind_run] at h'
    generalize onData (T := T) (find k e.2) s = q at h'
    obtain ⟨r, s1⟩ := q
    cases r with
    | error e => cases h'
    | ok root =>
      refine (ih _ s1 h').trans ?_
      have he : flat m.entries ++ (e :: es).map (·.1) = (flat m.entries ++ [e.1]) ++ es.map (·.1) := by simp
      rw [he]
      exact (flat_put root e.1 m).append_right _

omit [DecidableEq K] in
theorem iterate_flat {k : Nat} {o : Shuffle (T × Nat)} {o' : Shuffle (Nat × List T)} {s s' : DSet T}
    {gs : List (List T)} (h : iterate k o.f o'.f s = (.ok gs, s')) : gs.flatten.Perm (s.ids.entries.map (·.1)) := by
  rw [iterate_eq] at h
  cases hb : buildLoop k (o.f s.ids.entries) HMap.empty s with
  | mk r s1 =>
    rw [hb] at h
    cases r with
    | error e => cases h
    | ok m =>
      cases h
      have h1 := buildLoop_flat' k _ _ _ _ _ hb
      have h2 : ((o'.f m.entries).map (·.2)).flatten.Perm (flat m.entries) := ((o'.perm _).map _).flatten
      exact (h2.trans h1).trans ((o.perm _).map _)

theorem Keeps.mem {s : DSet T} {xs : List T} (h : Keeps key s xs) (x : T) :
    x ∈ s.ids.entries.map (·.1) ↔ first key (key x) xs = some x := by
  rw [← h.kept, Key.kept, KMap.stored, List.mem_map, Option.map_eq_some_iff]
  constructor
  · rintro ⟨e, he, rfl⟩
    exact ⟨e, (KMap.find_eq_some h.valid).mpr ⟨he, rfl⟩, rfl⟩
  · rintro ⟨e, he, rfl⟩
    exact ⟨e, ((KMap.find_eq_some h.valid).mp he).1, rfl⟩

omit [DecidableEq K] in
theorem offers_append (op : Op T) (hc : op.isClear = false) (xs : List T) :
    ∃ ys, offers clone xs op = xs ++ ys := by
  cases op with
  | makeSet x kp => cases kp <;> [exact ⟨[x], rfl⟩; exact ⟨[], (List.append_nil _).symm⟩]
  | union a b ap bp =>
    cases ap with
    | true => exact ⟨[], (List.append_nil _).symm⟩
    | false => cases bp <;> exact ⟨_, rfl⟩
  | clear => cases hc
  | extend hint cp items p => cases cp <;> [exact ⟨_, rfl⟩; exact ⟨[], (List.append_nil _).symm⟩]
  | extendRef hint cp items p => cases cp <;> [exact ⟨_, rfl⟩; exact ⟨[], (List.append_nil _).symm⟩]
  | _ => exact ⟨[], (List.append_nil _).symm⟩

omit [DecidableEq K] in
theorem offers_run_append (ops : List (Op T)) (hc : ∀ op ∈ ops, op.isClear = false) (xs : List T) :
    ∃ ys, ops.foldl (offers clone) xs = xs ++ ys := by
  induction ops generalizing xs with
  | nil => exact ⟨[], (List.append_nil _).symm⟩
  | cons op ops ih =>
    obtain ⟨ys, h1⟩ := offers_append (clone := clone) op (hc op List.mem_cons_self) xs
    obtain ⟨zs, h2⟩ := ih (fun o ho => hc o (List.mem_cons_of_mem _ ho)) (xs ++ ys)
    exact ⟨ys ++ zs, by rw [List.foldl_cons, h1, h2, List.append_assoc]⟩

end
end DS.Key
