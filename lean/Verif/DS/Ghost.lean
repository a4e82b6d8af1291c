import Verif.DS.Props
/-!
# Forests whose ranks say nothing

What a panicking `clear` leaves behind is still a forest, but no longer one in which ranks grow towards the root.
-/

open Rust
namespace DS

/-- `R` gives the root of a node, `μ` decreases on the way there -/
structure Leads (d : List Data) (R μ : Nat → Nat) : Prop where
  range : ∀ i, i < d.length → par d i < d.length
  up : ∀ i, i < d.length → par d i ≠ i → R (par d i) = R i ∧ μ (par d i) < μ i
  stop : ∀ i, i < d.length → par d i = i → R i = i
  root : ∀ i, i < d.length → par d (R i) = R i ∧ R i < d.length
  le : ∀ i, i < d.length → μ (R i) ≤ μ i

theorem Leads.set {d : List Data} {R μ : Nat → Nat} (h : Leads d R μ) {i : Nat} (hi : i < d.length) (hne : R i ≠ i)
    (hlt : μ (R i) < μ i) (x : Data) (hx : x.parent = R i) : Leads (d.set i x) R μ := by
  have hrr : R (R i) = R i := h.stop _ (h.root i hi).2 (h.root i hi).1
  refine ⟨?_, ?_, ?_, ?_, ?_⟩
  · intro j hj
    rw [List.length_set] at hj ⊢
    rw [par_set hi]
    split
    · rw [hx]; exact (h.root i hi).2
    · exact h.range j hj
  · intro j hj
    rw [List.length_set] at hj
    rw [par_set hi]
    split
    · rename_i e; subst e
      rw [hx]; intro _
      exact ⟨hrr, hlt⟩
    · exact h.up j hj
  · intro j hj
    rw [List.length_set] at hj
    rw [par_set hi]
    split
    · rename_i e; subst e
      rw [hx]; exact fun e => absurd e hne
    · exact h.stop j hj
  · intro j hj
    rw [List.length_set] at hj ⊢
    have hj' := h.root j hj
    refine ⟨?_, hj'.2⟩
    rw [par_set hi, if_neg]
    · exact hj'.1
    · intro e
      apply hne
      rw [e] at hj'
      exact h.stop i hi hj'.1
  · intro j hj
    rw [List.length_set] at hj
    exact h.le j hj

theorem Leads.find {R μ : Nat → Nat} (stack : Nat) : ∀ {d : List Data} {i : Nat}, Leads d R μ → i < d.length →
    μ i < stack → ∃ d', DS.find stack i d = (.ok (R i), d') ∧ Leads d' R μ ∧ d'.length = d.length := by
  induction stack with
  | zero => intro d i _ _ h; omega
  | succ n ih =>
    intro d i h hi hs
    have hat : at' i d = (.ok ⟨par d i, rk d i⟩, d) := by rw [at', get_of_lt hi]
    rw [DS.find, M.bind_ok hat]
    by_cases hp : par d i = i
    · rw [if_neg (by simp [hp])]
      exact ⟨d, by rw [M.pure_run, hp, h.stop i hi hp], h, rfl⟩
    · rw [if_pos (by simpa using hp)]
      obtain ⟨e1, e2⟩ := h.up i hi hp
      obtain ⟨d1, h1, h2, h3⟩ := ih h (h.range i hi) (by omega)
      rw [M.bind_ok h1]
      have hi1 : i < d1.length := by rw [h3]; exact hi
      have hset : setParent i (R (par d i)) d1 = (.ok (), d1.set i ⟨R i, rk d1 i⟩) := by
        rw [setParent, get_of_lt hi1, e1]
      rw [M.bind_ok hset]
      refine ⟨_, by rw [M.pure_run, e1], ?_, by rw [List.length_set]; exact h3⟩
      apply h2.set hi1 _ _ _ rfl
      · intro e
        have := (h.root i hi).1
        rw [e] at this; exact hp this
      · have := h.le _ (h.range i hi)
        rw [e1] at this; omega

/-- old nodes, and behind them one for every element added since, pointing to the node with the number of elements
that were there -/
def haunted (d : List Data) (m : Nat) : List Data := d ++ (List.range m).map Data.new

theorem haunted_length (d : List Data) (m : Nat) : (haunted d m).length = d.length + m := by
  simp [haunted]

theorem haunted_old {d : List Data} {m i : Nat} (hi : i < d.length) : par (haunted d m) i = par d i := by
  rw [par, haunted, List.getElem?_append_left hi, par]

theorem haunted_new {d : List Data} {m i : Nat} (h1 : d.length ≤ i) (h2 : i < d.length + m) :
    par (haunted d m) i = i - d.length := by
  rw [par, haunted, List.getElem?_append_right h1, List.getElem?_map, List.getElem?_range (by omega)]
  rfl

/-- how many links lead from a node to its root, at most -/
def far (d : List Data) (M i : Nat) : Nat := if i < d.length then M - rk d i else M + i / d.length

theorem leads_haunted {d : List Data} (hf : Forest d) (hd : 0 < d.length) {M : Nat}
    (hM : ∀ i, i < d.length → rk d i ≤ M) (m : Nat) :
    Leads (haunted d m) (fun i => rootFn d (i % d.length)) (far d M) := by
  have hroot : ∀ i, par d (rootFn d (i % d.length)) = rootFn d (i % d.length) ∧
      rootFn d (i % d.length) < d.length := fun i =>
    ⟨(rootFn_spec hf _).is_root, (rootFn_spec hf _).lt hf (Nat.mod_lt _ hd)⟩
  have hsub : ∀ i, d.length ≤ i → i / d.length = (i - d.length) / d.length + 1 := by
    intro i hi
    rw [← Nat.div_eq_sub_div hd hi]
  refine ⟨?_, ?_, ?_, ?_, ?_⟩
  · intro i hi
    rw [haunted_length] at hi ⊢
    by_cases h : i < d.length
    · rw [haunted_old h]; have := hf.range i h; omega
    · rw [haunted_new (by omega) hi]; omega
  · intro i hi hp
    rw [haunted_length] at hi
    by_cases h : i < d.length
    · rw [haunted_old h] at hp ⊢
      have hr := hf.range i h
      refine ⟨?_, ?_⟩
      · simp only [Nat.mod_eq_of_lt h, Nat.mod_eq_of_lt hr]
        exact (rootFn_spec hf (par d i)).functional (by
          have := rootFn_spec hf i
          generalize rootFn d i = q at this ⊢
          cases this with
          | root e => exact absurd e hp
          | step _ h => exact h)
      · have h1 := hf.up i hp
        have h2 := hM _ hr
        unfold far
        rw [if_pos h, if_pos hr]; omega
    · rw [haunted_new (by omega) hi] at hp ⊢
      refine ⟨?_, ?_⟩
      · simp only [← Nat.mod_eq_sub_mod (show d.length ≤ i by omega)]
      · unfold far
        rw [if_neg h, hsub i (by omega)]
        generalize (i - d.length) / d.length = q
        split <;> omega
  · intro i hi hp
    rw [haunted_length] at hi
    by_cases h : i < d.length
    · rw [haunted_old h] at hp
      simp only [Nat.mod_eq_of_lt h]
      exact (rootFn_spec hf i).functional (.root hp)
    · rw [haunted_new (by omega) hi] at hp; omega
  · intro i _
    rw [haunted_length, haunted_old (hroot i).2]
    exact ⟨(hroot i).1, by have := (hroot i).2; omega⟩
  · intro i _
    unfold far
    rw [if_pos (hroot i).2]
    split
    · rename_i h
      rw [Nat.mod_eq_of_lt h]
      have := (rootFn_spec hf i).rank_le hf
      omega
    · generalize i / d.length = q
      omega

section
variable {T : Type} [DecidableEq T] [Cfg]

theorem run_adds (k : Nat) : ∀ (xs : List T) (s : DSet T) (d : List Data),
    xs.Nodup → (∀ x ∈ xs, s.ids.get x = none) → s.dataById = haunted d s.ids.len →
    (run k (xs.map fun x => .makeSet x false) s).1 = xs.map (fun _ => .ok .unit) ∧
    (run k (xs.map fun x => .makeSet x false) s).2.dataById = haunted d (s.ids.len + xs.length) ∧
    (∀ x i, s.ids.get x = some i → (run k (xs.map fun x => .makeSet x false) s).2.ids.get x = some i) ∧
    ∀ i x, xs[i]? = some x → (run k (xs.map fun x => .makeSet x false) s).2.ids.get x = some (s.ids.len + i) := by
  intro xs
  induction xs with
  | nil => intro s d _ _ h; exact ⟨rfl, h, fun _ _ h => h, fun i x h => by cases h⟩
  | cons x xs ih =>
    intro s d hn hx hd
    have hgx := hx x (List.mem_cons_self ..)
    let s1 : DSet T := { ids := s.ids.insert x s.ids.len, dataById := s.dataById ++ [Data.new s.ids.len] }
    have hstep : step k (.makeSet x false) s = (.ok .unit, s1) := by
      have : DSet.makeOrGetSet x false s = (.ok s.ids.len, s1) := by simp [DSet.makeOrGetSet, hgx, s1]
      have : DSet.makeSet x false s = (.ok (), s1) := by
        unfold DSet.makeSet
        rw [M.bind_ok this]; rfl
      show wrap _ (DSet.makeSet x false) s = _
      unfold wrap
      rw [this]
    have hlen : s1.ids.len = s.ids.len + 1 := by
      show (s.ids.insert x s.ids.len).len = _
      rw [HMap.len_insert, hgx]; rfl
    have hrun : run k ((x :: xs).map fun x => .makeSet x false) s =
        (.ok .unit :: (run k (xs.map fun x => .makeSet x false) s1).1, (run k (xs.map fun x => .makeSet x false) s1).2) := by
      simp only [List.map_cons, run, hstep]
    have hn' := List.nodup_cons.mp hn
    obtain ⟨h1, h2, h3, h4⟩ := ih s1 d hn'.2 (by
      intro y hy
      show (s.ids.insert x s.ids.len).get y = none
      rw [HMap.get_insert, if_neg (by rintro rfl; exact hn'.1 hy)]
      exact hx y (List.mem_cons_of_mem _ hy)) (by
      rw [hlen]
      show s.dataById ++ _ = _
      rw [hd, haunted, haunted, List.range_succ, List.map_append, List.append_assoc]; rfl)
    rw [hrun]
    refine ⟨by rw [h1]; rfl, ?_, ?_, ?_⟩
    · rw [h2, hlen, List.length_cons]; congr 1; omega
    · intro y i hy
      apply h3
      show (s.ids.insert x s.ids.len).get y = _
      rw [HMap.get_insert, if_neg]
      · exact hy
      · rintro rfl; rw [hgx] at hy; cases hy
    · intro i y hy
      cases i with
      | zero =>
        cases hy
        apply h3
        show (s.ids.insert x s.ids.len).get x = _
        rw [HMap.get_insert, if_pos rfl]; rfl
      | succ i =>
        have := h4 i y hy
        rw [hlen] at this
        rw [this]; congr 1; omega

omit [Cfg] in
/-- `in_union` of two elements whose roots are found -/
theorem Leads.inUnion {R μ : Nat → Nat} {t : DSet T} (h : Leads t.dataById R μ) {x y : T} {i j k : Nat}
    (hx : t.ids.get x = some i) (hy : t.ids.get y = some j) (hi : i < t.dataById.length) (hj : j < t.dataById.length)
    (ki : μ i < k) (kj : μ j < k) : (DSet.inUnion k x y false false t).1 = .ok (decide (R i = R j)) := by
  obtain ⟨d1, e1, l1, n1⟩ := Leads.find k h hi ki
  obtain ⟨d2, e2, -, -⟩ := Leads.find k l1 (by rw [n1]; exact hj) kj
  have hl : ∀ z, DSet.lookup z false t = (.ok (t.ids.get z), t) := fun z => rfl
  unfold DSet.inUnion
  rw [M.bind_ok (hl x), hx]
  simp only
  rw [M.bind_ok (hl y), hy]
  simp only
  rw [M.bind_ok (show DSet.onData (DS.find k i) t = (.ok (R i), { t with dataById := d1 }) by rw [DSet.onData, e1])]
  rw [M.bind_ok (show DSet.onData (DS.find k j) ({ t with dataById := d1 } : DSet T) =
    (.ok (R j), { t with dataById := d2 }) by rw [DSet.onData]; simp only [e2])]
  rfl

end

/-- a search along a chain as long as the stack -/
theorem find_chain (k : Nat) : ∀ {d : List Data} {i : Nat}, (∀ p, p < d.length → par d p = p - 1) → k ≤ i →
    i < d.length → (DS.find k i d).1 = .error .stackOverflow := by
  induction k with
  | zero => intro d i _ _ _; rfl
  | succ n ih =>
    intro d i h hk hi
    have hat : at' i d = (.ok ⟨par d i, rk d i⟩, d) := by rw [at', get_of_lt hi]
    have hp := h i hi
    rw [DS.find, M.bind_ok hat, if_pos (by simp only; omega)]
    simp only [hp]
    have hr := ih h (show n ≤ i - 1 by omega) (by omega)
    rw [M.bind_error (e := .stackOverflow) (s' := (DS.find n (i - 1) d).2) (by rw [← hr])]

/-! ### the order in which elements were added -/
section
variable {T : Type} [DecidableEq T] [Cfg]

/-- what a call hands over before it panics, if it does -/
def Op.handed : Op T → List T
  | .makeSet x kp => if kp then [] else [x]
  | .union x y xp yp => if xp then [] else if yp then [x] else [x, y]
  | .extend _ cp items _ => if cp then [] else items
  | .extendRef _ cp items _ => if cp then [] else items
  | .inUnion .. | .contains .. | .len | .isEmpty | .clear | .reserve .. | .iterate .. => []

/-- what a constructor is given -/
def Start.handed : Start T → List T
  | .new => []
  | .fromIter items => items
  | .fromIterRef items => items

/-- everything handed over since the last `clear`, in order -/
def handedOver (st : Start T) (ops : List (Op T)) : List T :=
  ops.foldl (fun l op => match op with
    | .clear => []
    | op => l ++ op.handed) st.handed

/-- the first occurrences -/
def firsts (l : List T) : List T := l.reverse.dedup.reverse

/-- `ids` after one more value -/
def addId (m : HMap T Nat) (x : T) : HMap T Nat := if (m.get x).isSome then m else m.insert x m.len

omit [Cfg] in
theorem firsts_append_one (l : List T) (x : T) :
    firsts (l ++ [x]) = if x ∈ l then firsts l else firsts l ++ [x] := by
  unfold firsts
  rw [List.reverse_append, List.reverse_singleton, List.singleton_append]
  split
  · rename_i h
    rw [List.dedup_cons_of_mem (by simpa using h)]
  · rename_i h
    rw [List.dedup_cons_of_notMem (by simpa using h), List.reverse_cons]

omit [Cfg] in
theorem mem_firsts {l : List T} {x : T} : x ∈ firsts l ↔ x ∈ l := by simp [firsts]

omit [Cfg] in
theorem addIds_get (l : List T) : (l.foldl addId HMap.empty).len = (firsts l).length ∧
    ∀ i x, (firsts l)[i]? = some x → (l.foldl addId HMap.empty).get x = some i := by
  have key : ∀ l : List T, (l.foldl addId HMap.empty).len = (firsts l).length ∧
      (∀ x, ((l.foldl addId HMap.empty).get x).isSome ↔ x ∈ l) ∧
      ∀ i x, (firsts l)[i]? = some x → (l.foldl addId HMap.empty).get x = some i := by
    intro l
    induction l using List.reverseRecOn with
    | nil => exact ⟨rfl, fun x => by simp [HMap.get_empty], fun i x h => by cases h⟩
    | append_singleton l x ih =>
      obtain ⟨h1, h2, h3⟩ := ih
      rw [List.foldl_append, List.foldl_cons, List.foldl_nil, firsts_append_one, addId]
      generalize l.foldl addId HMap.empty = m at h1 h2 h3
      by_cases hx : x ∈ l
      · rw [if_pos ((h2 x).mpr hx), if_pos hx]
        refine ⟨h1, fun y => ?_, h3⟩
        rw [h2, List.mem_append, List.mem_singleton]
        exact ⟨.inl, fun h => h.elim id fun e => e ▸ hx⟩
      · have hn : ¬ (m.get x).isSome = true := fun h => hx ((h2 x).mp h)
        rw [if_neg hn, if_neg hx]
        refine ⟨?_, fun y => ?_, fun i y hy => ?_⟩
        · rw [HMap.len_insert, if_neg hn, h1, List.length_append]; rfl
        · rw [HMap.get_insert, List.mem_append, List.mem_singleton, ← h2]
          by_cases e : y = x
          · simp [e]
          · simp [e]
        · rw [HMap.get_insert]
          by_cases hi : i < (firsts l).length
          · rw [List.getElem?_append_left hi] at hy
            have : y ∈ l := mem_firsts.mp (List.mem_of_getElem? hy)
            rw [if_neg (by rintro rfl; exact hx this)]
            exact h3 i y hy
          · rw [List.getElem?_append_right (by omega)] at hy
            have hi0 : i - (firsts l).length = 0 := by
              by_contra h
              rw [List.getElem?_eq_none (by simp; omega)] at hy; cases hy
            rw [hi0] at hy
            cases hy
            rw [if_pos rfl, h1]; congr 1; omega
  exact ⟨(key l).1, (key l).2.2⟩

omit [Cfg] in
theorem makeOrGetSet_ids (x : T) (kp : Bool) (s : DSet T) :
    (DSet.makeOrGetSet x kp s).2.ids = if kp then s.ids else addId s.ids x := by
  unfold DSet.makeOrGetSet addId
  cases kp
  · simp only [Bool.false_eq_true, if_false]
    cases s.ids.get x <;> rfl
  · rfl

omit [Cfg] in
theorem makeSet_ids (x : T) (kp : Bool) (s : DSet T) :
    (DSet.makeSet x kp s).2.ids = if kp then s.ids else addId s.ids x := by
  rw [← makeOrGetSet_ids]
  unfold DSet.makeSet
  rw [M.bind_run]
  rcases DSet.makeOrGetSet x kp s with ⟨_ | _, _⟩ <;> rfl

omit [Cfg] in
theorem makeSet_run (x : T) (s : DSet T) : (DSet.makeSet x false s).1 = .ok () := by
  unfold DSet.makeSet
  rw [M.bind_run]
  unfold DSet.makeOrGetSet
  simp only [Bool.false_eq_true, if_false]
  cases s.ids.get x <;> rfl

omit [Cfg] in
theorem extendLoop_ids (items : List T) (p : Bool) : ∀ s : DSet T,
    (DSet.extendLoop items p s).2.ids = items.foldl addId s.ids := by
  induction items with
  | nil => intro s; cases p <;> rfl
  | cons x xs ih =>
    intro s
    have h1 := makeSet_run x s
    have h2 := makeSet_ids x false s
    unfold DSet.extendLoop
    rw [M.bind_run]
    generalize DSet.makeSet x false s = q at h1 h2 ⊢
    obtain ⟨r, s'⟩ := q
    have h1 : r = _ := h1
    subst h1
    show (DSet.extendLoop xs p s').2.ids = _
    rw [ih, List.foldl_cons, show s'.ids = addId s.ids x from h2]

omit [Cfg] [DecidableEq T] in
theorem onData_ids {α : Type} (m : M (List Data) α) (s : DSet T) : (DSet.onData m s).2.ids = s.ids := rfl

omit [Cfg] [DecidableEq T] in
theorem bind_ids {α β : Type} {m : M (DSet T) α} {f : α → M (DSet T) β} (h1 : ∀ s, (m s).2.ids = s.ids)
    (h2 : ∀ a s, (f a s).2.ids = s.ids) (s : DSet T) : ((m >>= f) s).2.ids = s.ids := by
  rw [M.bind_run]
  have := h1 s
  generalize m s = q at this ⊢
  obtain ⟨e | a, s'⟩ := q
  · exact this
  · exact (h2 a s').trans this

omit [Cfg] [DecidableEq T] in
theorem buildLoop_ids (k : Nat) (es : List (T × Nat)) : ∀ (m : HMap Nat (List T)) (s : DSet T),
    (DSet.buildLoop k es m s).2.ids = s.ids := by
  induction es with
  | nil => intro m s; rfl
  | cons e es ih =>
    intro m s
    unfold DSet.buildLoop
    exact bind_ids (onData_ids _) (fun a s => ih _ s) s

omit [Cfg] [DecidableEq T] in
theorem wrap_ids {α : Type} (f : α → Out T) (m : M (DSet T) α) (s : DSet T) : (wrap f m s).2.ids = (m s).2.ids := by
  unfold wrap
  rcases m s with ⟨_ | _, _⟩ <;> rfl

theorem step_ids (k : Nat) (op : Op T) (s : DSet T) : (step k op s).2.ids = match op with
    | .clear => HMap.empty
    | op => op.handed.foldl addId s.ids := by
  cases op with
  | makeSet x kp =>
    show (wrap _ _ s).2.ids = _
    rw [wrap_ids, makeSet_ids]
    cases kp <;> rfl
  | union x y xp yp =>
    show (wrap _ _ s).2.ids = _
    rw [wrap_ids]
    unfold DSet.union
    rw [M.bind_run]
    have h1 := makeOrGetSet_ids x xp s
    have h1' : (DSet.makeOrGetSet x xp s).1.isOk = !xp := by
      unfold DSet.makeOrGetSet
      cases xp
      · simp only [Bool.false_eq_true, if_false]; cases s.ids.get x <;> rfl
      · rfl
    generalize DSet.makeOrGetSet x xp s = q at h1 h1' ⊢
    obtain ⟨r, s1⟩ := q
    cases r with
    | error e =>
      cases xp with
      | true => exact h1
      | false => cases h1'
    | ok i =>
      cases xp with
      | true => cases h1'
      | false =>
        show (((DSet.makeOrGetSet y yp) >>= fun b => DSet.onData (unionIds k i b)) s1).2.ids = _
        rw [M.bind_run]
        have h2 := makeOrGetSet_ids y yp s1
        have h1 : s1.ids = addId s.ids x := h1
        have h2' : (DSet.makeOrGetSet y yp s1).1.isOk = !yp := by
          unfold DSet.makeOrGetSet
          cases yp
          · simp only [Bool.false_eq_true, if_false]; cases s1.ids.get y <;> rfl
          · rfl
        generalize DSet.makeOrGetSet y yp s1 = q at h2 h2' ⊢
        obtain ⟨r, s2⟩ := q
        cases r with
        | error e =>
          cases yp with
          | true => exact h2.trans h1
          | false => cases h2'
        | ok j =>
          cases yp with
          | true => cases h2'
          | false =>
            have h2 : s2.ids = addId s1.ids y := h2
            show s2.ids = addId (addId s.ids x) y
            rw [h2, h1]
  | inUnion x y xp yp =>
    show (wrap _ _ s).2.ids = _
    rw [wrap_ids]
    show _ = s.ids
    unfold DSet.inUnion
    have hl : ∀ (z : T) (zp : Bool) (s : DSet T), (DSet.lookup z zp s).2.ids = s.ids := by
      intro z zp s; cases zp <;> rfl
    refine bind_ids (hl x xp) (fun a s => ?_) s
    cases a with
    | none => rfl
    | some i =>
      refine bind_ids (hl y yp) (fun a s => ?_) s
      cases a with
      | none => rfl
      | some j => exact bind_ids (onData_ids _) (fun a s => bind_ids (onData_ids _) (fun b s => rfl) s) s
  | contains x kp =>
    show (wrap _ _ s).2.ids = s.ids
    rw [wrap_ids]; cases kp <;> rfl
  | len => rfl
  | isEmpty => rfl
  | clear =>
    show (wrap _ _ s).2.ids = _
    rw [wrap_ids]; rfl
  | reserve n cp =>
    show (wrap _ _ s).2.ids = s.ids
    rw [wrap_ids]; cases cp <;> rfl
  | extend n cp items p =>
    show (wrap _ _ s).2.ids = _
    rw [wrap_ids]
    cases cp with
    | true => rfl
    | false => exact extendLoop_ids items p s
  | extendRef n cp items p =>
    show (wrap _ _ s).2.ids = _
    rw [wrap_ids]
    cases cp with
    | true => rfl
    | false =>
      show (DSet.extendRefLoop items p s).2.ids = _
      rw [extendRefLoop_eq]; exact extendLoop_ids items p s
  | iterate o o' =>
    show (wrap _ _ s).2.ids = s.ids
    rw [wrap_ids]
    unfold DSet.iterate
    refine bind_ids (fun s => ?_) (fun a s => rfl) s
    exact buildLoop_ids k _ _ s

theorem run_ids (k : Nat) (ops : List (Op T)) : ∀ (l : List T) (s : DSet T), s.ids = l.foldl addId HMap.empty →
    (run k ops s).2.ids = (ops.foldl (fun l op => match op with
      | .clear => []
      | op => l ++ op.handed) l).foldl addId HMap.empty := by
  induction ops with
  | nil => intro l s h; exact h
  | cons op ops ih =>
    intro l s h
    have hs := step_ids k op s
    show (run k ops (step k op s).2).2.ids = _
    rw [List.foldl_cons]
    apply ih
    rw [hs]
    cases op <;> first | rfl | (show _ = List.foldl addId _ (l ++ _); rw [List.foldl_append, ← h])

/-- identifiers are given out in the order in which elements are first handed over -/
theorem Reached.ids {k : Nat} {st : Start T} {ops : List (Op T)} {s : DSet T} {a : Abs T} (h : Reached k st ops s a) :
    s.len = (firsts (handedOver st ops)).length ∧
    ∀ i x, (firsts (handedOver st ops))[i]? = some x → s.ids.get x = some i := by
  obtain ⟨s0, h0, rfl⟩ := h.made
  have hs0 : s0.ids = st.handed.foldl addId HMap.empty := by
    have hx : ∀ items : List T, (DSet.extendLoop items false DSet.new).2.ids = items.foldl addId HMap.empty :=
      fun items => extendLoop_ids items false DSet.new
    cases st with
    | new => cases h0; rfl
    | fromIter items =>
      have h0 : DSet.fromIter items false = .ok s0 := h0
      unfold DSet.fromIter at h0
      rw [fromIterLoop_eq] at h0
      have := hx items
      generalize DSet.extendLoop items false DSet.new = q at h0 this
      rcases q with ⟨_ | _, t⟩
      · cases h0
      · cases h0; exact this
    | fromIterRef items =>
      have h0 : DSet.fromIterRef items false = .ok s0 := h0
      unfold DSet.fromIterRef at h0
      rw [fromIterRefLoop_eq] at h0
      have := hx items
      generalize DSet.extendLoop items false DSet.new = q at h0 this
      rcases q with ⟨_ | _, t⟩
      · cases h0
      · cases h0; exact this
  have := addIds_get (handedOver st ops)
  unfold handedOver at this ⊢
  rw [← run_ids k ops st.handed s0 hs0] at this
  exact this

end
end DS
