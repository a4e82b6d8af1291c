import Verif.DS.Spec
/-!
# The calls of `find_with_path_compression` made by a history, counted

Every definition is the one of the same name in `Verif.DS.Model` (or `Verif.DS.Spec`) with a counter in the state
that `find` increases at every call, recursive ones included. `Erases` says that nothing else differs.
-/

open Rust
namespace DS
namespace Counted

variable {σ α β : Type}

/-- a step that calls nothing counted -/
def lift (m : M σ α) : M (σ × Nat) α := fun s =>
  match m s.1 with
  | (r, s1) => (r, (s1, s.2))
/-- counts a call -/
def tick : M (σ × Nat) Unit := fun s => (.ok (), (s.1, s.2 + 1))

/-- disjoint_set.rs:256-263 `find_with_path_compression`, counting its calls -/
def find : Nat → Nat → M (List Data × Nat) Nat
  | 0, _ => lift (M.throw .stackOverflow)
  | stack + 1, id => do
    tick
    let x ← lift (at' id)
    if x.parent ≠ id then
      let parent ← find stack x.parent
      lift (setParent id parent)
      return parent
    else return x.parent

/-- disjoint_set.rs:177-193, the part of `union` that works on `data_by_id` -/
def unionIds [Cfg] (stack a b : Nat) : M (List Data × Nat) Unit := do
  let aRoot ← find stack a
  let bRoot ← find stack b
  if aRoot = bRoot then return ()
  let x ← lift (at' aRoot)
  let y ← lift (at' bRoot)
  let (aRoot, bRoot) := if x.rank < y.rank then (bRoot, aRoot) else (aRoot, bRoot)
  lift (setParent bRoot aRoot)
  let x ← lift (at' aRoot)
  let y ← lift (at' bRoot)
  if x.rank = y.rank then lift (incRank aRoot)

variable {T : Type} [DecidableEq T]

/-- a step that only works on `data_by_id` -/
def onData (m : M (List Data × Nat) α) : M (DSet T × Nat) α := fun s =>
  let (r, d) := m (s.1.dataById, s.2)
  (r, ({ s.1 with dataById := d.1 }, d.2))

/-- disjoint_set.rs:174-194 `union` -/
def union [Cfg] (stack : Nat) (a b : T) (ap bp : Bool) : M (DSet T × Nat) Unit := do
  let a ← lift (DSet.makeOrGetSet a ap)
  let b ← lift (DSet.makeOrGetSet b bp)
  onData (unionIds stack a b)

/-- disjoint_set.rs:210-222 `in_union` -/
def inUnion (stack : Nat) (a b : T) (ap bp : Bool) : M (DSet T × Nat) Bool := do
  match ← lift (DSet.lookup a ap) with
  | none => return false
  | some a =>
    match ← lift (DSet.lookup b bp) with
    | none => return false
    | some b =>
      let x ← onData (find stack a)
      let y ← onData (find stack b)
      return decide (x = y)

/-- the loop of disjoint_set.rs:267-270 -/
def buildLoop (stack : Nat) : List (T × Nat) → HMap Nat (List T) → M (DSet T × Nat) (HMap Nat (List T))
  | [], map => pure map
  | (key, val) :: rest, map => do
    let root ← onData (find stack val)
    let (group, map) := map.orInsert root []
    buildLoop stack rest (map.insert root (group ++ [key]))

/-- disjoint_set.rs:265-272 `build_sets` -/
def buildSets (stack : Nat) (order : List (T × Nat) → List (T × Nat)) :
    M (DSet T × Nat) (HMap Nat (List T)) :=
  fun s => buildLoop stack (order s.1.ids.entries) HMap.empty s

/-- disjoint_set.rs:368-375 `IntoIterator for &mut DisjointSet` run to its end -/
def iterate (stack : Nat) (order : List (T × Nat) → List (T × Nat))
    (order' : List (Nat × List T) → List (Nat × List T)) : M (DSet T × Nat) (List (List T)) := do
  let sets ← buildSets stack order
  return (order' sets.entries).map fun (_key, vect) => vect

/-- runs a method and wraps what it returns -/
def wrap (f : α → Out T) (m : M (DSet T × Nat) α) : M (DSet T × Nat) (Out T) := fun s =>
  match m s with
  | (.ok a, s') => (.ok (f a), s')
  | (.error e, s') => (.error e, s')

/-- One call; the ones that search no root are those of the model. -/
def step [Cfg] (stack : Nat) : Op T → M (DSet T × Nat) (Out T)
  | .union a b ap bp => wrap (fun _ => .unit) (union stack a b ap bp)
  | .inUnion a b ap bp => wrap .bool (inUnion stack a b ap bp)
  | .iterate o o' => wrap .groups (iterate stack o.f o'.f)
  | op => lift (DS.step stack op)

/-- A history of calls, panics being caught: what each call returned, the final state, and how many calls of
`find_with_path_compression` there were. -/
def run [Cfg] (stack : Nat) : List (Op T) → DSet T × Nat → List (Except Fault (Out T)) × (DSet T × Nat)
  | [], s => ([], s)
  | op :: ops, s =>
    let (r, s') := step stack op s
    let (rs, s'') := run stack ops s'
    (r :: rs, s'')

/-! ### counting changes nothing -/

/-- `c` does what `m` does and adds something to the counter -/
def Erases (c : M (σ × Nat) α) (m : M σ α) : Prop := ∀ s t, ∃ n, c (s, t) = ((m s).1, ((m s).2, t + n))

theorem erases_lift (m : M σ α) : Erases (lift m) m := fun _ _ => ⟨0, rfl⟩
theorem erases_pure (a : α) : Erases (pure a : M (σ × Nat) α) (pure a) := fun _ _ => ⟨0, rfl⟩

theorem erases_bind {c : M (σ × Nat) α} {m : M σ α} {f : α → M (σ × Nat) β} {g : α → M σ β} (h : Erases c m)
    (hf : ∀ a, Erases (f a) (g a)) : Erases (c >>= f) (m >>= g) := by
  intro s t
  obtain ⟨n, hn⟩ := h s t
  rw [M.bind_run, M.bind_run, hn]
  rcases m s with ⟨r, s'⟩
  cases r with
  | error e => exact ⟨n, rfl⟩
  | ok a =>
    obtain ⟨n', hn'⟩ := hf a s' (t + n)
    exact ⟨n + n', by simp only [hn', Nat.add_assoc]⟩

theorem erases_tick {f : Unit → M (σ × Nat) α} {m : M σ α} (h : Erases (f ()) m) : Erases (tick >>= f) m := by
  intro s t
  obtain ⟨n, hn⟩ := h s (t + 1)
  refine ⟨1 + n, ?_⟩
  rw [M.bind_run]
  show f () (s, t + 1) = _
  rw [hn, Nat.add_assoc]

theorem erases_find (stack id : Nat) : Erases (find stack id) (DS.find stack id) := by
  induction stack generalizing id with
  | zero => exact erases_lift _
  | succ stack ih =>
    unfold find DS.find
    refine erases_tick (erases_bind (erases_lift _) fun x => ?_)
    split
    · exact erases_bind (ih _) fun p => erases_bind (erases_lift _) fun _ => erases_pure _
    · exact erases_pure _

theorem erases_unionIds [Cfg] (stack a b : Nat) : Erases (unionIds stack a b) (DS.unionIds stack a b) := by
  unfold unionIds DS.unionIds
  refine erases_bind (erases_find _ _) fun ra => erases_bind (erases_find _ _) fun rb => ?_
  split
  · exact erases_pure _
  · refine erases_bind (erases_lift _) fun x => erases_bind (erases_lift _) fun y => ?_
    refine erases_bind (erases_lift _) fun _ => erases_bind (erases_lift _) fun x =>
      erases_bind (erases_lift _) fun y => ?_
    split
    · exact erases_lift _
    · exact erases_pure _

omit [DecidableEq T] in
theorem erases_onData {c : M (List Data × Nat) α} {m : M (List Data) α} (h : Erases c m) :
    Erases (onData c : M (DSet T × Nat) α) (DSet.onData m) := by
  intro s t
  obtain ⟨n, hn⟩ := h s.dataById t
  exact ⟨n, by simp only [onData, DSet.onData, hn]⟩

theorem erases_union [Cfg] (stack : Nat) (a b : T) (ap bp : Bool) :
    Erases (union stack a b ap bp) (DSet.union stack a b ap bp) :=
  erases_bind (erases_lift _) fun _ => erases_bind (erases_lift _) fun _ => erases_onData (erases_unionIds _ _ _)

theorem erases_inUnion (stack : Nat) (a b : T) (ap bp : Bool) :
    Erases (inUnion stack a b ap bp) (DSet.inUnion stack a b ap bp) := by
  refine erases_bind (erases_lift _) fun i => ?_
  cases i with
  | none => exact erases_pure _
  | some i =>
    refine erases_bind (erases_lift _) fun j => ?_
    cases j with
    | none => exact erases_pure _
    | some j =>
      exact erases_bind (erases_onData (erases_find _ _)) fun x =>
        erases_bind (erases_onData (erases_find _ _)) fun y => erases_pure _

omit [DecidableEq T] in
theorem erases_buildLoop (stack : Nat) (es : List (T × Nat)) (m : HMap Nat (List T)) :
    Erases (buildLoop stack es m) (DSet.buildLoop stack es m) := by
  induction es generalizing m with
  | nil => exact erases_pure _
  | cons e es ih => exact erases_bind (erases_onData (erases_find _ _)) fun r => ih _

omit [DecidableEq T] in
theorem erases_iterate (stack : Nat) (o : List (T × Nat) → List (T × Nat))
    (o' : List (Nat × List T) → List (Nat × List T)) :
    Erases (iterate stack o o') (DSet.iterate stack o o') :=
  erases_bind (fun s t => erases_buildLoop stack (o s.ids.entries) HMap.empty s t) fun _ => erases_pure _

omit [DecidableEq T] in
theorem erases_wrap {f : α → Out T} {c : M (DSet T × Nat) α} {m : M (DSet T) α} (h : Erases c m) :
    Erases (wrap f c) (DS.wrap f m) := by
  intro s t
  obtain ⟨n, hn⟩ := h s t
  refine ⟨n, ?_⟩
  rw [wrap, DS.wrap, hn]
  rcases m s with ⟨r, s'⟩
  cases r <;> rfl

theorem erases_step [Cfg] (stack : Nat) (op : Op T) : Erases (step stack op) (DS.step stack op) := by
  cases op with
  | union a b ap bp => exact erases_wrap (erases_union _ _ _ _ _)
  | inUnion a b ap bp => exact erases_wrap (erases_inUnion _ _ _ _ _)
  | iterate o o' => exact erases_wrap (erases_iterate _ _ _)
  | makeSet | contains | len | isEmpty | clear | reserve | extend | extendRef =>
    exact fun _ _ => ⟨0, rfl⟩

theorem erases_run [Cfg] (stack : Nat) (ops : List (Op T)) (s : DSet T) (t : Nat) :
    ∃ n, run stack ops (s, t) = ((DS.run stack ops s).1, ((DS.run stack ops s).2, t + n)) := by
  induction ops generalizing s t with
  | nil => exact ⟨0, rfl⟩
  | cons op ops ih =>
    obtain ⟨n, hn⟩ := erases_step stack op s t
    obtain ⟨n', hn'⟩ := ih (DS.step stack op s).2 (t + n)
    refine ⟨n + n', ?_⟩
    simp only [run, DS.run, hn, hn', Nat.add_assoc]

end Counted
end DS
