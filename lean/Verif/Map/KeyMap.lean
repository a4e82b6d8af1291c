import Verif.Map.HashMap
/-!
# The contract of `std::collections::HashMap` for keys that compare equal without being the same

Nothing in this file models a file of the crate. In `Map/HashMap.lean` keys that compare equal are the same. Rust's
`Eq` does not ask for that: a type may be compared (and hashed) by a part of its data. Here a stored value `x` is
compared by `key x`. The documentation of `HashMap::insert` says that a key already in the map is not replaced.
-/

namespace KMap
variable {T K V : Type} [DecidableEq K] (key : T → K)

/-- `HashMap::get_key_value`: the stored entry whose key compares equal -/
def find (k : K) : List (T × V) → Option (T × V)
  | [] => none
  | e :: es => if key e.1 = k then some e else find k es

/-- `HashMap::get` -/
def get (m : HMap T V) (x : T) : Option V := (find key (key x) m.entries).map (·.2)

/-- replaces the value stored under the key, not the key -/
def update (x : T) (v : V) : List (T × V) → List (T × V)
  | [] => []
  | e :: es => if key e.1 = key x then (e.1, v) :: es else e :: update x v es

/-- `HashMap::insert` (also through `VacantEntry::insert`, `OccupiedEntry::insert`) -/
def insert (m : HMap T V) (x : T) (v : V) : HMap T V :=
  match get key m x with
  | none => ⟨(x, v) :: m.entries⟩
  | some _ => ⟨update key x v m.entries⟩

/-- `entry(x).or_insert(v)`: the value the returned reference points to, and the map -/
def orInsert (m : HMap T V) (x : T) (v : V) : V × HMap T V :=
  match get key m x with
  | some w => (w, m)
  | none => (v, insert key m x v)

/-- `OccupiedEntry::remove` -/
def remove (m : HMap T V) (x : T) : HMap T V := ⟨m.entries.filter fun e => decide (key e.1 ≠ key x)⟩

/-- `FromIterator` -/
def fromIter (es : List (T × V)) : HMap T V := es.foldl (fun m e => insert key m e.1 e.2) ⟨[]⟩

/-- `PartialEq` -/
def eq [DecidableEq V] (a b : HMap T V) : Bool :=
  decide (a.len = b.len) && a.entries.all fun e => decide (get key b e.1 = some e.2)

/-! ## what is stored, and the map of keys -/

/-- the entries with their keys in place of the stored values -/
def pairs (es : List (T × V)) : List (K × V) := es.map fun e => (key e.1, e.2)
/-- the map of keys: what is left when values that compare equal are not told apart -/
def keys (m : HMap T V) : HMap K V := ⟨pairs key m.entries⟩
/-- the stored value that compares equal to key `k` -/
def stored (m : HMap T V) (k : K) : Option T := (find key k m.entries).map (·.1)
/-- no two stored values compare equal -/
def Valid (m : HMap T V) : Prop := (m.entries.map fun e => key e.1).Nodup

variable {key} {m : HMap T V} {x : T} {v : V} {k : K} {es : List (T × V)}

omit [DecidableEq K] in
theorem valid_keys : Valid key m ↔ (keys key m).Valid := by
  unfold Valid HMap.Valid keys pairs
  rw [List.map_map]; rfl

theorem lookup_pairs (k : K) (es : List (T × V)) : HMap.lookup k (pairs key es) = (find key k es).map (·.2) := by
  induction es with
  | nil => rfl
  | cons e es ih =>
    show HMap.lookup k ((key e.1, e.2) :: pairs key es) = _
    unfold HMap.lookup find
    split <;> simp_all

theorem get_keys (m : HMap T V) (x : T) : (keys key m).get (key x) = get key m x := lookup_pairs _ _

theorem update_pairs (x : T) (v : V) (es : List (T × V)) :
    pairs key (update key x v es) = HMap.update (key x) v (pairs key es) := by
  induction es with
  | nil => rfl
  | cons e es ih =>
    show pairs key (update key x v (e :: es)) = HMap.update (key x) v ((key e.1, e.2) :: pairs key es)
    unfold update HMap.update
    split
    · rfl
    · show (key e.1, e.2) :: pairs key (update key x v es) = _
      rw [ih]

theorem insert_keys (m : HMap T V) (x : T) (v : V) :
    keys key (insert key m x v) = (keys key m).insert (key x) v := by
  unfold insert HMap.insert
  rw [get_keys]
  cases get key m x with
  | none => rfl
  | some w => show (⟨pairs key (update key x v m.entries)⟩ : HMap K V) = _; rw [update_pairs]; rfl

theorem orInsert_keys (m : HMap T V) (x : T) (v : V) :
    (keys key m).orInsert (key x) v = ((orInsert key m x v).1, keys key (orInsert key m x v).2) := by
  unfold orInsert HMap.orInsert
  rw [get_keys]
  cases get key m x with
  | none => simp only [insert_keys]
  | some w => rfl

theorem remove_keys (m : HMap T V) (x : T) : keys key (remove key m x) = (keys key m).remove (key x) := by
  unfold keys remove HMap.remove pairs
  simp only [List.filter_map]
  rfl

theorem fromIter_keys (es : List (T × V)) : keys key (fromIter key es) = HMap.fromIter (pairs key es) := by
  unfold fromIter HMap.fromIter
  show _ = List.foldl _ (keys key ⟨[]⟩) _
  generalize (⟨[]⟩ : HMap T V) = m
  induction es generalizing m with
  | nil => rfl
  | cons e es ih =>
    show keys key (List.foldl _ (insert key m e.1 e.2) es) = List.foldl _ ((keys key m).insert (key e.1) e.2) _
    rw [ih, insert_keys]; rfl

theorem eq_keys [DecidableEq V] (a b : HMap T V) : eq key a b = (keys key a).eq (keys key b) := by
  unfold eq HMap.eq
  have hl : ∀ m : HMap T V, (keys key m).len = m.len := fun m => List.length_map _
  rw [hl, hl]
  congr 1
  show _ = (pairs key a.entries).all _
  unfold pairs
  rw [List.all_map]
  congr 1
  funext e
  show _ = decide ((keys key b).get (key e.1) = some e.2)
  rw [get_keys]

/-! ### what is stored -/

theorem stored_isSome (m : HMap T V) (x : T) : (stored key m (key x)).isSome = (get key m x).isSome := by
  unfold stored get; cases find key (key x) m.entries <;> rfl

theorem stored_none (m : HMap T V) (x : T) : stored key m (key x) = none ↔ get key m x = none := by
  unfold stored get; cases find key (key x) m.entries <;> simp

theorem find_key {e : T × V} (h : find key k es = some e) : key e.1 = k ∧ e ∈ es := by
  induction es with
  | nil => cases h
  | cons a es ih =>
    unfold find at h
    split at h
    · cases h; exact ⟨by assumption, List.mem_cons_self⟩
    · exact ⟨(ih h).1, List.mem_cons_of_mem _ (ih h).2⟩

theorem stored_key (h : stored key m k = some x) : key x = k := by
  unfold stored at h
  cases hf : find key k m.entries with
  | none => rw [hf] at h; cases h
  | some e => rw [hf] at h; cases h; exact (find_key hf).1

theorem find_map_fst (k : K) (es : List (T × V)) :
    (find key k es).map (·.1) = (es.map (·.1)).find? fun x => decide (key x = k) := by
  induction es with
  | nil => rfl
  | cons e es ih =>
    unfold find
    rw [List.map_cons, List.find?_cons]
    split <;> simp_all

theorem stored_update (x : T) (v : V) (k : K) (es : List (T × V)) :
    (find key k (update key x v es)).map (·.1) = (find key k es).map (·.1) := by
  induction es with
  | nil => rfl
  | cons e es ih =>
    unfold update
    split
    · simp only [find]; split <;> rfl
    · simp only [find]; split
      · rfl
      · exact ih

theorem stored_insert (m : HMap T V) (x : T) (v : V) (k : K) :
    stored key (insert key m x v) k = (stored key m k).or (if key x = k then some x else none) := by
  unfold insert
  cases hg : get key m x with
  | none =>
    show (find key k ((x, v) :: m.entries)).map (·.1) = _
    unfold find
    by_cases hk : key x = k
    · subst hk
      rw [if_pos rfl, if_pos rfl, (stored_none m x).mpr hg]; rfl
    · rw [if_neg hk, if_neg hk, Option.or_none]; rfl
  | some w =>
    show (find key k (update key x v m.entries)).map (·.1) = _
    rw [stored_update]
    by_cases hk : key x = k
    · subst hk
      have : (stored key m (key x)).isSome := by rw [stored_isSome, hg]; rfl
      show stored key m (key x) = _
      cases hs : stored key m (key x) with
      | none => rw [hs] at this; cases this
      | some y => rfl
    · rw [if_neg hk, Option.or_none]; rfl

theorem stored_orInsert (m : HMap T V) (x : T) (v : V) (k : K) :
    stored key (orInsert key m x v).2 k = (stored key m k).or (if key x = k then some x else none) := by
  unfold orInsert
  cases hg : get key m x with
  | none => exact stored_insert m x v k
  | some w =>
    show stored key m k = _
    by_cases hk : key x = k
    · subst hk
      have : (stored key m (key x)).isSome := by rw [stored_isSome, hg]; rfl
      cases hs : stored key m (key x) with
      | none => rw [hs] at this; cases this
      | some y => rfl
    · rw [if_neg hk, Option.or_none]

theorem stored_remove (m : HMap T V) (x : T) (k : K) :
    stored key (remove key m x) k = if key x = k then none else stored key m k := by
  unfold remove stored
  simp only
  generalize m.entries = es
  induction es with
  | nil => simp [find]
  | cons e es ih =>
    by_cases he : key e.1 = key x
    · rw [List.filter_cons_of_neg (by simp [he]), ih]
      by_cases hk : key x = k
      · rw [if_pos hk, if_pos hk]
      · rw [if_neg hk, if_neg hk, find, if_neg (he ▸ hk)]
    · rw [List.filter_cons_of_pos (by simp [he]), find, find]
      by_cases hek : key e.1 = k
      · rw [if_pos hek, if_pos hek, if_neg (fun h => he (hek.trans h.symm))]
      · rw [if_neg hek, if_neg hek, ih]

theorem find_eq_some (h : (es.map fun e => key e.1).Nodup) {e : T × V} :
    find key k es = some e ↔ e ∈ es ∧ key e.1 = k := by
  induction es with
  | nil => simp [find]
  | cons a es ih =>
    simp only [List.map_cons, List.nodup_cons] at h
    unfold find
    by_cases ha : key a.1 = k
    · rw [if_pos ha]
      constructor
      · intro h'; cases h'; exact ⟨List.mem_cons_self, ha⟩
      · rintro ⟨hm, hk⟩
        rcases List.mem_cons.mp hm with rfl | hm
        · rfl
        · exact absurd (List.mem_map.mpr ⟨e, hm, hk.trans ha.symm⟩) h.1
    · rw [if_neg ha, ih h.2]
      constructor
      · rintro ⟨hm, hk⟩; exact ⟨List.mem_cons_of_mem _ hm, hk⟩
      · rintro ⟨hm, hk⟩
        rcases List.mem_cons.mp hm with rfl | hm
        · exact absurd hk ha
        · exact ⟨hm, hk⟩

theorem find_perm {es' : List (T × V)} (hp : es'.Perm es) (h : (es.map fun e => key e.1).Nodup) (k : K) :
    find key k es' = find key k es := by
  have h' : (es'.map fun e => key e.1).Nodup := (hp.map _).nodup_iff.mpr h
  apply Option.ext
  intro e
  rw [find_eq_some h', find_eq_some h, hp.mem_iff]

end KMap
