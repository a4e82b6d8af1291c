import Verif.Rust.Base
import Mathlib.Data.List.Nodup
import Mathlib.Data.List.Perm.Subperm
/-!
# The contract of `std::collections::HashMap` used by `Counter` and `DisjointSet`

Nothing in this file models a file of the crate. A map is its list of entries. The order of the list has no
meaning: where the crate iterates over a map, the models take the iteration order as a separate argument,
and the theorems hold for every permutation of the entries. Keys have a lawful `Eq`/`Hash`. Capacity and
refused requests for memory are in `Map/Memory.lean`.
-/

/-- A hash map: its entries. Reachable maps have no duplicate keys (`HMap.Valid`). -/
structure HMap (K V : Type) where
  entries : List (K × V)
deriving DecidableEq, Repr

namespace HMap
variable {K V : Type} [DecidableEq K]

/-- first entry with the key -/
def lookup (k : K) : List (K × V) → Option V
  | [] => none
  | e :: es => if e.1 = k then some e.2 else lookup k es

/-- `HashMap::new` and the other empty constructors -/
def empty : HMap K V := ⟨[]⟩
/-- `HashMap::get` -/
def get (m : HMap K V) (k : K) : Option V := lookup k m.entries
/-- `HashMap::contains_key` -/
def containsKey (m : HMap K V) (k : K) : Bool := (m.get k).isSome
/-- `HashMap::len` -/
def len (m : HMap K V) : Nat := m.entries.length
/-- `HashMap::is_empty` -/
def isEmpty (m : HMap K V) : Bool := m.entries.isEmpty

/-- replaces the value stored under the key -/
def update (k : K) (v : V) : List (K × V) → List (K × V)
  | [] => []
  | e :: es => if e.1 = k then (e.1, v) :: es else e :: update k v es

/-- `HashMap::insert` (also through `VacantEntry::insert`, `OccupiedEntry::insert`) -/
def insert (m : HMap K V) (k : K) (v : V) : HMap K V :=
  match m.get k with
  | none => ⟨(k, v) :: m.entries⟩
  | some _ => ⟨update k v m.entries⟩

/-- `entry(k).or_insert(v)`: the value the returned reference points to, and the map. -/
def orInsert (m : HMap K V) (k : K) (v : V) : V × HMap K V :=
  match m.get k with
  | some w => (w, m)
  | none => (v, m.insert k v)

/-- `OccupiedEntry::remove` -/
def remove (m : HMap K V) (k : K) : HMap K V := ⟨m.entries.filter fun e => decide (e.1 ≠ k)⟩

/-- `FromIterator`: later entries overwrite earlier ones. -/
def fromIter (es : List (K × V)) : HMap K V := es.foldl (fun m e => m.insert e.1 e.2) empty

/-- `PartialEq`: same length, and every entry of one is in the other. -/
def eq [DecidableEq V] (a b : HMap K V) : Bool :=
  decide (a.len = b.len) && a.entries.all fun e => decide (b.get e.1 = some e.2)

/-- No key occurs twice. -/
def Valid (m : HMap K V) : Prop := (m.entries.map (·.1)).Nodup

variable {m : HMap K V} {k k' : K} {v : V} {es : List (K × V)}

theorem lookup_isSome : (lookup k es).isSome ↔ k ∈ es.map (·.1) := by
  induction es with
  | nil => simp [lookup]
  | cons e es ih =>
    unfold lookup
    by_cases h : e.1 = k
    · simp [h]
    · rw [if_neg h, ih]
      simp only [List.map_cons, List.mem_cons]
      constructor
      · exact Or.inr
      · rintro (h' | h')
        · exact absurd h'.symm h
        · exact h'

theorem lookup_eq_none : lookup k es = none ↔ k ∉ es.map (·.1) := by
  rw [← lookup_isSome]; cases lookup k es <;> simp

theorem lookup_eq_some (h : (es.map (·.1)).Nodup) : lookup k es = some v ↔ (k, v) ∈ es := by
  induction es with
  | nil => simp [lookup]
  | cons e es ih =>
    obtain ⟨a, b⟩ := e
    simp only [List.map_cons, List.nodup_cons] at h
    unfold lookup
    by_cases hk : a = k
    · rw [if_pos hk]
      subst hk
      simp only [Option.some.injEq, List.mem_cons, Prod.mk.injEq, true_and]
      constructor
      · intro h'; exact Or.inl h'.symm
      · rintro (h' | h')
        · exact h'.symm
        · exact absurd (List.mem_map_of_mem h') h.1
    · rw [if_neg hk, ih h.2]
      simp only [List.mem_cons, Prod.mk.injEq]
      constructor
      · exact Or.inr
      · rintro (⟨h', _⟩ | h')
        · exact absurd h'.symm hk
        · exact h'

theorem mem_of_lookup (h : lookup k es = some v) : (k, v) ∈ es := by
  induction es with
  | nil => cases h
  | cons e es ih =>
    obtain ⟨a, b⟩ := e
    unfold lookup at h
    split at h
    · cases h; rename_i h; simp at h; simp [h]
    · exact List.mem_cons_of_mem _ (ih h)

theorem get_eq_some (h : m.Valid) : m.get k = some v ↔ (k, v) ∈ m.entries := lookup_eq_some h

theorem keys_update : (update k v es).map (·.1) = es.map (·.1) := by
  induction es with
  | nil => rfl
  | cons e es ih =>
    unfold update
    split
    · rfl
    · simp [ih]

theorem lookup_update : lookup k' (update k v es) =
    if k' = k ∧ (lookup k es).isSome then some v else lookup k' es := by
  induction es with
  | nil => simp [update, lookup]
  | cons e es ih =>
    obtain ⟨a, b⟩ := e
    unfold update
    by_cases ha : a = k
    · subst ha
      simp only [if_true, lookup]
      by_cases hk : a = k'
      · subst hk; simp
      · have : ¬ k' = a := fun h => hk h.symm
        simp [hk, this]
    · simp only [ha, if_false, lookup, ih]
      by_cases hk : a = k'
      · subst hk; simp [ha]
      · simp [hk]

theorem valid_empty : (empty : HMap K V).Valid := List.nodup_nil

theorem get_empty : (empty : HMap K V).get k = none := rfl

theorem valid_insert (h : m.Valid) : (m.insert k v).Valid := by
  unfold insert
  cases hg : m.get k with
  | none =>
    have := lookup_eq_none.mp hg
    exact List.nodup_cons.mpr ⟨this, h⟩
  | some w =>
    show ((update k v m.entries).map (·.1)).Nodup
    rw [keys_update]; exact h

theorem get_insert : (m.insert k v).get k' = if k' = k then some v else m.get k' := by
  unfold insert
  cases hg : m.get k with
  | none =>
    show lookup k' ((k, v) :: m.entries) = _
    unfold lookup
    by_cases h : k' = k
    · rw [if_pos h.symm, if_pos h]
    · rw [if_neg (fun h' => h h'.symm), if_neg h]; rfl
  | some w =>
    show lookup k' (update k v m.entries) = _
    rw [lookup_update]
    have : (lookup k m.entries).isSome := by
      show (m.get k).isSome; rw [hg]; rfl
    simp only [this, and_true]
    rfl

theorem len_insert : (m.insert k v).len = if (m.get k).isSome then m.len else m.len + 1 := by
  unfold insert
  cases hg : m.get k with
  | none => rfl
  | some w =>
    show (update k v m.entries).length = _
    have := congrArg List.length (keys_update (k := k) (v := v) (es := m.entries))
    simp only [List.length_map] at this
    exact this

theorem valid_remove (h : m.Valid) : (m.remove k).Valid := by
  show ((m.entries.filter _).map (·.1)).Nodup
  exact List.Sublist.nodup (List.Sublist.map _ List.filter_sublist) h

theorem get_remove : (m.remove k).get k' = if k' = k then none else m.get k' := by
  show lookup k' (m.entries.filter _) = if k' = k then none else lookup k' m.entries
  generalize m.entries = es
  induction es with
  | nil => simp [lookup]
  | cons e es ih =>
    obtain ⟨a, b⟩ := e
    by_cases ha : a = k
    · subst ha
      rw [List.filter_cons_of_neg (by simp), ih]
      by_cases hk : k' = a
      · simp [hk]
      · rw [if_neg hk, if_neg hk, lookup, if_neg (fun h => hk h.symm)]
    · rw [List.filter_cons_of_pos (by simp [ha]), lookup, lookup, ih]
      by_cases hk : a = k'
      · subst hk; simp [ha]
      · simp [hk]

theorem mem_keys : k ∈ m.entries.map (·.1) ↔ (m.get k).isSome := lookup_isSome.symm

/-- A permutation of the entries has the same lookups. -/
theorem lookup_perm {es' : List (K × V)} (hp : es'.Perm es) (h : (es.map (·.1)).Nodup) :
    lookup k es' = lookup k es := by
  have h' : (es'.map (·.1)).Nodup := (hp.map _).nodup_iff.mpr h
  apply Option.ext
  intro v
  rw [lookup_eq_some h', lookup_eq_some h]
  exact hp.mem_iff

/-- Two valid maps with the same lookups have the same entries up to order. -/
theorem perm_of_get_eq {a b : HMap K V} (ha : a.Valid) (hb : b.Valid) (h : ∀ k, a.get k = b.get k) :
    a.entries.Perm b.entries := by
  have na : a.entries.Nodup := List.Nodup.of_map _ ha
  have nb : b.entries.Nodup := List.Nodup.of_map _ hb
  rw [List.perm_ext_iff_of_nodup na nb]
  rintro ⟨k, v⟩
  rw [← get_eq_some ha, ← get_eq_some hb, h]

/-- `==` on maps is equality of all lookups. -/
theorem eq_iff [DecidableEq V] {a b : HMap K V} (ha : a.Valid) (hb : b.Valid) :
    a.eq b = true ↔ ∀ k, a.get k = b.get k := by
  unfold eq
  rw [Bool.and_eq_true, decide_eq_true_iff, List.all_eq_true]
  constructor
  · rintro ⟨hlen, hall⟩
    have na : a.entries.Nodup := List.Nodup.of_map _ ha
    have hsub : a.entries ⊆ b.entries := by
      rintro ⟨k, v⟩ hm
      have := hall _ hm
      simp only [decide_eq_true_iff] at this
      exact (get_eq_some hb).mp this
    have hp : a.entries.Perm b.entries :=
      (List.subperm_of_subset na hsub).perm_of_length_le (by show b.len ≤ a.len; omega)
    intro k
    exact lookup_perm hp hb
  · intro h
    have hp := perm_of_get_eq ha hb h
    refine ⟨hp.length_eq, ?_⟩
    rintro ⟨k, v⟩ hm
    simp only [decide_eq_true_iff]
    rw [← h]; exact (get_eq_some ha).mpr hm

theorem foldl_insert (es : List (K × V)) (m : HMap K V) (hm : m.Valid) (hn : (es.map (·.1)).Nodup) :
    (es.foldl (fun m e => m.insert e.1 e.2) m).Valid ∧
    ∀ k, (es.foldl (fun m e => m.insert e.1 e.2) m).get k = (lookup k es).or (m.get k) := by
  induction es generalizing m with
  | nil => exact ⟨hm, fun k => rfl⟩
  | cons e es ih =>
    simp only [List.map_cons, List.nodup_cons] at hn
    have := ih (m.insert e.1 e.2) (valid_insert hm) hn.2
    refine ⟨this.1, fun k => ?_⟩
    rw [List.foldl_cons, this.2 k, get_insert, lookup]
    by_cases hk : k = e.1
    · subst hk
      have : lookup e.1 es = none := lookup_eq_none.mpr hn.1
      simp [this]
    · rw [if_neg hk, if_neg (fun h => hk h.symm)]

theorem fromIter_spec {m : HMap K V} (hm : m.Valid) {order : List (K × V)} (hp : order.Perm m.entries) :
    (fromIter order).Valid ∧ ∀ k, (fromIter order).get k = m.get k := by
  have hn : (order.map (·.1)).Nodup := (hp.map _).nodup_iff.mpr hm
  have := foldl_insert order empty valid_empty hn
  refine ⟨this.1, fun k => ?_⟩
  rw [fromIter, this.2 k, lookup_perm hp hm, get_empty, Option.or_none]; rfl

end HMap
