import Verif.DS.PropsCost
/-!
# Lemmas for C117: the history that builds the deepest trees
-/

open Rust
namespace DS.Sharp

/-- adds `2 ^ k` elements from `off` on and makes them one group, uniting equals with equals -/
def binomial : Nat → Nat → List (Op Nat)
  | 0, off => [.makeSet off false]
  | k + 1, off => binomial k off ++ binomial k (off + 2 ^ k) ++ [.union off (off + 2 ^ k) false false]

/-- what `binomial k off` leaves behind its root -/
def body : Nat → Nat → List Data
  | 0, _ => []
  | k + 1, off => body k off ++ ⟨off, k⟩ :: body k (off + 2 ^ k)

theorem body_length (k off : Nat) : (body k off).length + 1 = 2 ^ k := by
  induction k generalizing off with
  | zero => rfl
  | succ k ih =>
    have h1 := ih off
    have h2 := ih (off + 2 ^ k)
    simp only [body, List.length_append, List.length_cons]
    rw [Nat.pow_succ]
    omega

/-- element `v` has number `v`, for the elements below `n` -/
structure Numbered (n : Nat) (s : DSet Nat) : Prop where
  len : s.ids.len = n
  get : ∀ v, s.ids.get v = if v < n then some v else none

variable [Cfg]

omit [Cfg] in
theorem find_root {k i r : Nat} {d : List Data} (h : d[i]? = some ⟨i, r⟩) : find (k + 1) i d = (.ok i, d) := by
  have h1 : at' i d = (.ok ⟨i, r⟩, d) := by unfold at'; rw [h]
  rw [find, M.bind_ok h1]
  simp only [ne_eq, not_true, if_false]
  rfl

theorem unionIds_roots {k a b r : Nat} {d : List Data} (hab : a ≠ b) (ha : d[a]? = some ⟨a, r⟩) (hb : d[b]? = some ⟨b, r⟩)
    (hr : r + 1 ≤ u32Max) :
    unionIds (k + 1) a b d = (.ok (), (d.set b ⟨a, r⟩).set a ⟨a, r + 1⟩) := by
  have hla : a < d.length := (List.getElem?_eq_some_iff.mp ha).1
  have hlb : b < d.length := (List.getElem?_eq_some_iff.mp hb).1
  have e1 : at' a d = (.ok ⟨a, r⟩, d) := by unfold at'; rw [ha]
  have e2 : at' b d = (.ok ⟨b, r⟩, d) := by unfold at'; rw [hb]
  have e3 : setParent b a d = (.ok (), d.set b ⟨a, r⟩) := by unfold setParent; rw [hb]
  have g1 : (d.set b ⟨a, r⟩)[a]? = some ⟨a, r⟩ := by rw [List.getElem?_set_ne (Ne.symm hab)]; exact ha
  have g2 : (d.set b ⟨a, r⟩)[b]? = some ⟨a, r⟩ := by rw [List.getElem?_set_self hlb]
  have e4 : at' a (d.set b ⟨a, r⟩) = (.ok ⟨a, r⟩, d.set b ⟨a, r⟩) := by unfold at'; rw [g1]
  have e5 : at' b (d.set b ⟨a, r⟩) = (.ok ⟨a, r⟩, d.set b ⟨a, r⟩) := by unfold at'; rw [g2]
  have e6 : incRank a (d.set b ⟨a, r⟩) = (.ok (), (d.set b ⟨a, r⟩).set a ⟨a, r + 1⟩) := by
    unfold incRank u32Succ; rw [g1]; simp [hr]
  unfold unionIds
  rw [M.bind_ok (find_root ha), M.bind_ok (find_root hb), if_neg hab]
  simp only [M.bind_ok e1, M.bind_ok e2, Nat.lt_irrefl, if_false]
  rw [M.bind_ok e3, M.bind_ok e4, M.bind_ok e5]
  simp only [if_true]
  exact e6

omit [Cfg] in
theorem makeOrGetSet_new {n : Nat} {s : DSet Nat} (hn : Numbered n s) :
    ∃ ids, DSet.makeOrGetSet n false s = (.ok n, ⟨ids, s.dataById ++ [⟨n, 0⟩]⟩) ∧
      ∀ d, Numbered (n + 1) ⟨ids, d⟩ := by
  have hg : s.ids.get n = none := by rw [hn.get]; simp
  refine ⟨s.ids.insert n n, ?_, fun d => ⟨?_, fun v => ?_⟩⟩
  · unfold DSet.makeOrGetSet
    simp only [hg, hn.len, Bool.false_eq_true, if_false, Data.new]
  · show (s.ids.insert n n).len = n + 1
    rw [HMap.len_insert, hg, hn.len]; rfl
  · show (s.ids.insert n n).get v = _
    rw [HMap.get_insert, hn.get]
    by_cases h : v = n
    · subst h; simp
    · by_cases h' : v < n
      · rw [if_neg h, if_pos h', if_pos (by omega)]
      · rw [if_neg h, if_neg h', if_neg (by omega)]

omit [Cfg] in
theorem makeOrGetSet_old {n v : Nat} {s : DSet Nat} (hn : Numbered n s) (hv : v < n) :
    DSet.makeOrGetSet v false s = (.ok v, s) := by
  unfold DSet.makeOrGetSet
  simp only [hn.get, hv, if_true, Bool.false_eq_true, if_false]

/-- the history that builds a tree of rank `k` -/
theorem binomial_run {stack : Nat} : ∀ (k off : Nat) {s : DSet Nat}, Numbered off s → s.dataById.length = off →
    k ≤ stack → k ≤ u32Max →
    (∀ r ∈ (run stack (binomial k off) s).1, r = .ok .unit) ∧
      Numbered (off + 2 ^ k) (run stack (binomial k off) s).2 ∧
      (run stack (binomial k off) s).2.dataById = s.dataById ++ ⟨off, k⟩ :: body k off := by
  intro k
  induction k with
  | zero =>
    intro off s hn hd _ _
    obtain ⟨ids, h1, h2⟩ := makeOrGetSet_new hn
    have h3 : run stack (binomial 0 off) s = ([.ok .unit], ⟨ids, s.dataById ++ [⟨off, 0⟩]⟩) := by
      simp only [binomial, run, step, wrap, DSet.makeSet]
      rw [M.bind_ok h1]
      rfl
    rw [h3]
    exact ⟨by simp, h2 _, rfl⟩
  | succ k ih =>
    intro off s hn hd hk hu
    have hb := body_length k off
    have hp := Nat.two_pow_pos k
    obtain ⟨a1, a2, a3⟩ := ih off hn hd (by omega) (by omega)
    obtain ⟨b1, b2, b3⟩ := ih (off + 2 ^ k) a2 (by rw [a3, List.length_append, List.length_cons, hd]; omega)
      (by omega) (by omega)
    rw [binomial, run_append, run_append]
    generalize run stack (binomial k off) s = u at *
    generalize run stack (binomial k (off + 2 ^ k)) u.2 = v at *
    rw [a3] at b3
    have g1 : v.2.dataById[off]? = some ⟨off, k⟩ := by
      rw [b3, List.append_assoc, List.getElem?_append_right (by omega), hd, Nat.sub_self]
      rfl
    have hl : (s.dataById ++ ⟨off, k⟩ :: body k off).length = off + 2 ^ k := by
      rw [List.length_append, List.length_cons, hd]; omega
    have g2 : v.2.dataById[off + 2 ^ k]? = some ⟨off + 2 ^ k, k⟩ := by
      rw [b3, List.getElem?_append_right (by omega), hl, Nat.sub_self]
      rfl
    obtain ⟨st, rfl⟩ : ∃ st, stack = st + 1 := ⟨stack - 1, by omega⟩
    have h1 := unionIds_roots (k := st) (by omega) g1 g2 hu
    have h2 : DSet.union (st + 1) off (off + 2 ^ k) false false v.2
        = (.ok (), ⟨v.2.ids, (v.2.dataById.set (off + 2 ^ k) ⟨off, k⟩).set off ⟨off, k + 1⟩⟩) := by
      unfold DSet.union
      rw [M.bind_ok (makeOrGetSet_old b2 (by omega)), M.bind_ok (makeOrGetSet_old b2 (by omega))]
      unfold DSet.onData
      rw [h1]
    have h3 : run (st + 1) [.union off (off + 2 ^ k) false false] v.2
        = ([.ok .unit], ⟨v.2.ids, (v.2.dataById.set (off + 2 ^ k) ⟨off, k⟩).set off ⟨off, k + 1⟩⟩) := by
      simp only [run, step, wrap, h2]
    rw [h3]
    refine ⟨?_, ?_, ?_⟩
    · intro r hr
      simp only [List.mem_append, List.mem_singleton] at hr
      rcases hr with (hr | hr) | hr
      · exact a1 r hr
      · exact b1 r hr
      · exact hr
    · have e : off + 2 ^ (k + 1) = off + 2 ^ k + 2 ^ k := by rw [Nat.pow_succ]; omega
      rw [e]
      exact ⟨b2.len, b2.get⟩
    · show (v.2.dataById.set (off + 2 ^ k) ⟨off, k⟩).set off ⟨off, k + 1⟩ = _
      rw [b3, List.set_append_right _ _ (by omega), hl, Nat.sub_self, List.set_cons_zero, List.append_assoc,
        List.set_append_right _ _ (by omega), hd, Nat.sub_self, List.cons_append, List.set_cons_zero, body]

/-- `j` proper steps from `x` to `y` -/
inductive Climb (d : List Data) : Nat → Nat → Nat → Prop
  | here (x : Nat) : Climb d x 0 x
  | up {x j y r : Nat} {e : Data} : Climb d x j y → d[y]? = some ⟨r, e.rank⟩ → r ≠ y → Climb d x (j + 1) r

omit [Cfg] in
/-- the deepest element is `k` steps from the root -/
theorem binomial_climb : ∀ (k : Nat) {off : Nat} {d : List Data},
    (∀ i, i < (body k off).length → d[off + 1 + i]? = (body k off)[i]?) → Climb d (off + (2 ^ k - 1)) k off := by
  intro k
  induction k with
  | zero => intro off d _; exact .here _
  | succ k ih =>
    intro off d h
    have hb := body_length k off
    have hb' := body_length k (off + 2 ^ k)
    have hp := Nat.two_pow_pos k
    have e : off + (2 ^ (k + 1) - 1) = off + 2 ^ k + (2 ^ k - 1) := by rw [Nat.pow_succ]; omega
    rw [e]
    simp only [body, List.length_append, List.length_cons] at h
    refine .up (e := ⟨off, k⟩) (ih (off := off + 2 ^ k) fun i hi => ?_) ?_ (by omega)
    · have := h (2 ^ k + i) (by omega)
      rw [show off + 2 ^ k + 1 + i = off + 1 + (2 ^ k + i) by omega, this,
        List.getElem?_append_right (by omega), show 2 ^ k + i - (body k off).length = i + 1 by omega]
      rfl
    · have := h (2 ^ k - 1) (by omega)
      rw [show off + 2 ^ k = off + 1 + (2 ^ k - 1) by omega, this, List.getElem?_append_right (by omega),
        show 2 ^ k - 1 - (body k off).length = 0 by omega]
      rfl

/-- a chain from the bottom -/
inductive Down (d : List Data) : Nat → Nat → Prop
  | zero (x : Nat) : Down d x 0
  | succ {x j : Nat} {e : Data} : d[x]? = some e → e.parent ≠ x → Down d e.parent j → Down d x (j + 1)

omit [Cfg] in
theorem Climb.down {d : List Data} {x j y i : Nat} (h : Climb d x j y) (hy : Down d y i) : Down d x (j + i) := by
  induction h generalizing i with
  | here => rw [Nat.zero_add]; exact hy
  | up _ h1 h2 ih =>
    rw [Nat.add_assoc, Nat.add_comm 1]
    exact ih (.succ h1 h2 hy)

omit [Cfg] in
theorem find_deep {d : List Data} {x j : Nat} (h : Down d x j) : find j x d = (.error .stackOverflow, d) := by
  induction h with
  | zero => rfl
  | succ h1 h2 _ ih =>
    rename_i x j e _
    have e1 : at' x d = (.ok e, d) := by unfold at'; rw [h1]
    rw [find, M.bind_ok e1]
    simp only [ne_eq, h2, not_false_eq_true, if_true]
    rw [M.bind_error ih]

omit [Cfg] in
theorem binomial_elems (k off : Nat) (a : Abs Nat) {pre : List (Op Nat)} (h : pre <+: binomial k off) :
    ∀ x ∈ (a.run pre).elems, x ∈ a.elems ∨ off ≤ x ∧ x < off + 2 ^ k := by
  have key : ∀ ops : List (Op Nat), (∀ op ∈ ops, (∃ v, op = .makeSet v false ∧ off ≤ v ∧ v < off + 2 ^ k) ∨
      ∃ v w, op = .union v w false false ∧ off ≤ v ∧ v < off + 2 ^ k ∧ off ≤ w ∧ w < off + 2 ^ k) →
      ∀ a : Abs Nat, ∀ x ∈ (a.run ops).elems, x ∈ a.elems ∨ off ≤ x ∧ x < off + 2 ^ k := by
    intro ops
    induction ops with
    | nil => intro _ a x hx; exact .inl hx
    | cons op ops ih =>
      intro ho a x hx
      rcases ih (fun o h => ho o (List.mem_cons_of_mem _ h)) (a.step op) x hx with hx | hx
      · rcases ho op List.mem_cons_self with ⟨v, rfl, h1⟩ | ⟨v, w, rfl, h1, h2, h3⟩
        · simp only [Abs.step, Bool.false_eq_true, if_false, List.mem_cons] at hx
          rcases hx with rfl | hx
          · exact .inr h1
          · exact .inl hx
        · simp only [Abs.step, Bool.false_eq_true, if_false, List.mem_cons] at hx
          rcases hx with rfl | rfl | hx
          · exact .inr h3
          · exact .inr ⟨h1, h2⟩
          · exact .inl hx
      · exact .inr hx
  refine key pre (fun op ho => ?_) a
  have ho := h.subset ho
  clear h key
  induction k generalizing off with
  | zero =>
    rw [binomial, List.mem_singleton] at ho
    exact .inl ⟨off, ho, by omega, by omega⟩
  | succ k ih =>
    have hp := Nat.two_pow_pos k
    have e : 2 ^ (k + 1) = 2 ^ k + 2 ^ k := by rw [Nat.pow_succ]; omega
    simp only [binomial, List.mem_append, List.mem_singleton] at ho
    rw [e]
    rcases ho with (ho | ho) | ho
    · rcases ih off ho with ⟨v, h1, h2⟩ | ⟨v, w, h1, h2⟩
      · exact .inl ⟨v, h1, by omega⟩
      · exact .inr ⟨v, w, h1, by omega⟩
    · rcases ih (off + 2 ^ k) ho with ⟨v, h1, h2⟩ | ⟨v, w, h1, h2⟩
      · exact .inl ⟨v, h1, by omega⟩
      · exact .inr ⟨v, w, h1, by omega⟩
    · exact .inr ⟨_, _, ho, by omega⟩

omit [Cfg] in
theorem card_lt {l : List Nat} {n : Nat} (h : ∀ x ∈ l, x < n) : l.dedup.length ≤ n := by
  have := ((List.nodup_dedup l).subperm (l₂ := List.range n) fun x hx =>
    List.mem_range.mpr (h x (List.mem_dedup.mp hx))).length_le
  rwa [List.length_range] at this

omit [Cfg] in
theorem Down.mono {d : List Data} {x j i : Nat} (h : Down d x j) (hi : i ≤ j) : Down d x i := by
  induction h generalizing i with
  | zero x => have : i = 0 := by omega
              subst this; exact .zero x
  | succ h1 h2 _ ih =>
    cases i with
    | zero => exact .zero _
    | succ i => exact .succ h1 h2 (ih (by omega))

omit [Cfg] in
theorem new_numbered : Numbered 0 (DSet.new : DSet Nat) := ⟨rfl, fun v => by simp; rfl⟩

omit [Cfg] in
/-- the calls that one search makes -/
theorem find_counted {k i : Nat} {d : List Data} (g : Good d) (hk : d.length < 2 ^ k) (hi : i < d.length) (t : Nat) :
    ∃ r d' n, Counted.find k i (d, t) = (.ok r, (d', t + n)) ∧ Sim d d' ∧ (find n i d).1 = .ok r ∧ 0 < n ∧
      n ≤ Nat.log2 d.length + 1 := by
  obtain ⟨r, hr⟩ := Root.total g.forest i
  have hlog : d.length < 2 ^ (Nat.log2 d.length + 1) := Nat.lt_log2_self
  have ok : ∀ m, d.length < 2 ^ m → ∃ d', find m i d = (.ok r, d') ∧ Sim d d' := fun m hm =>
    find_ok m g.forest hi hr (by have := g.rank_lt hi hr hm; omega)
  obtain ⟨d', h1, h2⟩ := ok k hk
  obtain ⟨d'', h3, _⟩ := ok _ hlog
  obtain ⟨n, c1, c2, c3⟩ := c69_counts_frames k i d t (by rw [h1]; simp)
  rw [h1] at c1 c2
  refine ⟨r, d', n, c1, h2, by rw [c2], ?_, ?_⟩
  · rcases Nat.eq_zero_or_pos n with rfl | h
    · have e : (find 0 i d).1 = .error .stackOverflow := rfl
      rw [c2] at e; cases e
    · exact h
  · refine Nat.le_of_not_lt fun h => ?_
    have e := c3 _ h
    rw [h3] at e; cases e

omit [Cfg] in
/-- the calls that one `in_union` makes -/
theorem inUnion_counted {T : Type} [DecidableEq T] {k : Nat} {s : DSet T} {a : Abs T} (r : Rel s a)
    (hk : s.ids.len < 2 ^ k) {x y : T} {i j : Nat} (hx : s.ids.get x = some i) (hy : s.ids.get y = some j) (t : Nat) :
    ∃ b s' n m, Counted.inUnion k x y false false (s, t) = (.ok b, (s', t + n + m)) ∧
      (∃ q, (find n i s.dataById).1 = .ok q) ∧ 0 < m ∧ n ≤ Nat.log2 s.len + 1 ∧ m ≤ Nat.log2 s.len + 1 := by
  have hlen : s.dataById.length = s.len := r.len
  have hk' : s.dataById.length < 2 ^ k := by rw [r.len]; exact hk
  obtain ⟨q1, d1, n, a1, a2, a3, _, a5⟩ := find_counted r.good hk' (r.lt x i hx) t
  obtain ⟨q2, d2, m, b1, _, _, b4, b5⟩ := find_counted (a2.good r.good) (by rw [a2.len]; exact hk')
    (by rw [a2.len]; exact r.lt y j hy) (t + n)
  refine ⟨decide (q1 = q2), { s with dataById := d2 }, n, m, ?_, ⟨q1, a3⟩, b4, by rw [← hlen]; exact a5,
    by rw [← hlen, ← a2.len]; exact b5⟩
  have l1 : (Counted.lift (DSet.lookup x false) : M (DSet T × Nat) _) (s, t) = (.ok (some i), (s, t)) := by
    simp [Counted.lift, DSet.lookup, hx]
  have l2 : (Counted.lift (DSet.lookup y false) : M (DSet T × Nat) _) (s, t) = (.ok (some j), (s, t)) := by
    simp [Counted.lift, DSet.lookup, hy]
  have f1 : (Counted.onData (Counted.find k i) : M (DSet T × Nat) _) (s, t) = (.ok q1, ({ s with dataById := d1 }, t + n)) := by
    simp only [Counted.onData, a1]
  have f2 : (Counted.onData (Counted.find k j) : M (DSet T × Nat) _) ({ s with dataById := d1 }, t + n)
      = (.ok q2, ({ s with dataById := d2 }, t + n + m)) := by
    simp only [Counted.onData, b1]
  unfold Counted.inUnion
  rw [M.bind_ok l1]
  simp only
  rw [M.bind_ok l2]
  simp only
  rw [M.bind_ok f1, M.bind_ok f2]
  rfl

/-- the counter stays as it is -/
def Quiet {σ α : Type} (m : M (σ × Nat) α) : Prop := ∀ s, (m s).2.2 = s.2

omit [Cfg] in
theorem quiet_lift {σ α : Type} (m : M σ α) : Quiet (Counted.lift m) := fun _ => rfl

omit [Cfg] in
theorem quiet_pure {σ α : Type} (a : α) : Quiet (pure a : M (σ × Nat) α) := fun _ => rfl

omit [Cfg] in
theorem quiet_bind {σ α β : Type} {m : M (σ × Nat) α} {f : α → M (σ × Nat) β} (h : Quiet m) (hf : ∀ a, Quiet (f a)) :
    Quiet (m >>= f) := by
  intro s
  have h1 := h s
  rw [M.bind_run]
  rcases hms : m s with ⟨r, s'⟩
  rw [hms] at h1
  cases r with
  | error e => exact h1
  | ok a => exact (hf a s').trans h1

/-- the calls that one `union` makes -/
theorem unionIds_counted {k i j : Nat} {d : List Data} (g : Good d) (hk : d.length < 2 ^ k) (hi : i < d.length)
    (hj : j < d.length) (t : Nat) : (Counted.unionIds k i j (d, t)).2.2 ≤ t + 2 * (Nat.log2 d.length + 1) := by
  obtain ⟨q1, d1, n, a1, a2, _, _, a5⟩ := find_counted g hk hi t
  obtain ⟨q2, d2, m, b1, _, _, _, b5⟩ := find_counted (a2.good g) (by rw [a2.len]; exact hk)
    (by rw [a2.len]; exact hj) (t + n)
  rw [a2.len] at b5
  unfold Counted.unionIds
  rw [M.bind_ok a1, M.bind_ok b1]
  have : ∀ m' : M (List Data × Nat) Unit, Quiet m' → (m' (d2, t + n + m)).2.2 ≤ t + 2 * (Nat.log2 d.length + 1) :=
    fun m' h => by rw [h]; simp only; omega
  apply this
  split
  · exact quiet_pure _
  · refine quiet_bind (quiet_lift _) fun x => quiet_bind (quiet_lift _) fun y => ?_
    split
    refine quiet_bind (quiet_lift _) fun _ => quiet_bind (quiet_lift _) fun x => quiet_bind (quiet_lift _) fun y => ?_
    split
    · exact quiet_lift _
    · exact quiet_pure _

omit [Cfg] in
theorem small_binomial {n k : Nat} (h : 2 ^ k ≤ n) {pre : List (Op Nat)} (hp : pre <+: binomial k 0) :
    ((Start.new : Start Nat).abs.run pre).card ≤ n :=
  Nat.le_trans (card_lt fun x hx => by
    rcases binomial_elems k 0 _ hp x hx with h | h
    · cases h
    · omega) h

end DS.Sharp
