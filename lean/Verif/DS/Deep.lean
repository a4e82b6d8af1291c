import Verif.DS.Sim
/-!
# A forest as deep as the bound allows
-/

open Rust
namespace DS

/-- the unions that make a binomial tree of the elements `r`, …, `r + 2 ^ j - 1` with root `r` -/
def binomial : Nat → Nat → List (Nat × Nat)
  | 0, _ => []
  | j + 1, r => binomial j r ++ (binomial j (r + 2 ^ j) ++ [(r, r + 2 ^ j)])

/-- the elements `0`, …, `2 ^ m - 1`, made one binomial tree, and a question about the last of them -/
def deep (m : Nat) : List (Op Nat) :=
  .extend 0 false (List.range (2 ^ m)) false ::
    ((binomial m 0).map (fun p => .union p.1 p.2 false false) ++ [.inUnion (2 ^ m - 1) 0 false false])

theorem binomial_range (j r : Nat) : ∀ p ∈ binomial j r, r ≤ p.1 ∧ p.1 < p.2 ∧ p.2 < r + 2 ^ j := by
  induction j generalizing r with
  | zero => intro p hp; cases hp
  | succ j ih =>
    intro p hp
    have hpos : 0 < 2 ^ j := Nat.pow_pos (by decide)
    have h2 : 2 ^ (j + 1) = 2 ^ j + 2 ^ j := by rw [Nat.pow_succ]; omega
    simp only [binomial, List.mem_append, List.mem_singleton] at hp
    rcases hp with hp | hp | rfl
    · have := ih r p hp; omega
    · have := ih (r + 2 ^ j) p hp; omega
    · simp only; omega

/-! ## the nodes -/

/-- a series of unions on the nodes -/
def joinAll [Cfg] (k : Nat) : List (Nat × Nat) → M (List Data) Unit
  | [] => pure ()
  | (a, b) :: ps => do
    unionIds k a b
    joinAll k ps

theorem joinAll_append [Cfg] (k : Nat) (ps qs : List (Nat × Nat)) {d d' : List Data}
    (h : joinAll k ps d = (.ok (), d')) : joinAll k (ps ++ qs) d = joinAll k qs d' := by
  induction ps generalizing d with
  | nil =>
    have : d = d' := by
      have := congrArg Prod.snd h
      exact this
    rw [this]; rfl
  | cons p ps ih =>
    obtain ⟨a, b⟩ := p
    simp only [joinAll, List.cons_append, M.bind_run] at h ⊢
    generalize unionIds k a b d = r at h ⊢
    obtain ⟨r, d1⟩ := r
    cases r with
    | error e => simp at h
    | ok u => exact ih h

/-- joining two roots of the same rank -/
theorem unionIds_roots [Cfg] {k a b j : Nat} {d : List Data} (hk : 1 ≤ k) (hj : j + 1 ≤ u32Max) (hab : a ≠ b)
    (ha : d[a]? = some ⟨a, j⟩) (hb : d[b]? = some ⟨b, j⟩) :
    unionIds k a b d = (.ok (), (d.set b ⟨a, j⟩).set a ⟨a, j + 1⟩) := by
  obtain ⟨k, rfl⟩ : ∃ k', k = k' + 1 := ⟨k - 1, by omega⟩
  have fa : find (k + 1) a d = (.ok a, d) := by simp [find, M.bind_run, at', ha]; rfl
  have fb : find (k + 1) b d = (.ok b, d) := by simp [find, M.bind_run, at', hb]; rfl
  have hbl : b < d.length := by
    rcases Nat.lt_or_ge b d.length with h | h
    · exact h
    · rw [List.getElem?_eq_none h] at hb; cases hb
  have ga : (d.set b ⟨a, j⟩)[a]? = some ⟨a, j⟩ := by rw [List.getElem?_set_ne (Ne.symm hab)]; exact ha
  have gb : (d.set b ⟨a, j⟩)[b]? = some ⟨a, j⟩ := by rw [List.getElem?_set_self hbl]
  simp [unionIds, M.bind_run, fa, fb, hab, at', ha, hb, setParent, ga, gb, incRank, u32Succ, hj]

/-- what the unions of a binomial tree make of fresh nodes: a root of rank `j` and a path of length `j` -/
theorem joinAll_binomial [Cfg] {k : Nat} (hk : 1 ≤ k) (j : Nat) (hj : j ≤ u32Max) : ∀ (r : Nat) (d : List Data),
    (∀ x, r ≤ x → x < r + 2 ^ j → d[x]? = some ⟨x, 0⟩) →
    ∃ d', joinAll k (binomial j r) d = (.ok (), d') ∧ d'[r]? = some ⟨r, j⟩ ∧
      (∀ i, i < j → ∃ rk, d'[r + 2 ^ j - 2 ^ i]? = some ⟨r + 2 ^ j - 2 ^ (i + 1), rk⟩) ∧
      ∀ x, x < r ∨ r + 2 ^ j ≤ x → d'[x]? = d[x]? := by
  induction j with
  | zero => intro r d h; exact ⟨d, rfl, h r (Nat.le_refl _) (by simp), fun i hi => absurd hi (by omega), fun _ _ => rfl⟩
  | succ j ih =>
    intro r d h
    have hpos : 0 < 2 ^ j := Nat.pow_pos (by decide)
    have h2 : 2 ^ (j + 1) = 2 ^ j + 2 ^ j := by rw [Nat.pow_succ]; omega
    obtain ⟨d1, a1, a2, _, a4⟩ := ih (by omega) r d fun x hx hx' => h x hx (by omega)
    obtain ⟨d2, b1, b2, b3, b4⟩ := ih (by omega) (r + 2 ^ j) d1 fun x hx hx' => by
      rw [a4 x (by omega)]; exact h x (by omega) (by omega)
    have hr : d2[r]? = some ⟨r, j⟩ := by rw [b4 r (by omega)]; exact a2
    have hu := unionIds_roots (k := k) hk hj (by omega : r ≠ r + 2 ^ j) hr b2
    have hl : r + 2 ^ j < d2.length := by
      rcases Nat.lt_or_ge (r + 2 ^ j) d2.length with h | h
      · exact h
      · rw [List.getElem?_eq_none h] at b2; cases b2
    have hother : ∀ x, x ≠ r → x ≠ r + 2 ^ j →
        ((d2.set (r + 2 ^ j) ⟨r, j⟩).set r ⟨r, j + 1⟩)[x]? = d2[x]? := fun x h1 h3 => by
      rw [List.getElem?_set_ne (Ne.symm h1), List.getElem?_set_ne (Ne.symm h3)]
    refine ⟨(d2.set (r + 2 ^ j) ⟨r, j⟩).set r ⟨r, j + 1⟩, ?_, ?_, fun i hi => ?_, fun x hx => ?_⟩
    · rw [binomial, joinAll_append k _ _ a1, joinAll_append k _ _ b1]
      simp only [joinAll, M.bind_run, hu]; rfl
    · rw [List.getElem?_set_self (by rw [List.length_set]; omega)]
    · rcases Nat.lt_or_ge i j with hij | hij
      · obtain ⟨rk, e⟩ := b3 i hij
        have hle : 2 ^ (i + 1) ≤ 2 ^ j := Nat.pow_le_pow_right (by decide) hij
        have hi2 : 2 ^ (i + 1) = 2 ^ i + 2 ^ i := by rw [Nat.pow_succ]; omega
        have hipos : 0 < 2 ^ i := Nat.pow_pos (by decide)
        refine ⟨rk, ?_⟩
        rw [hother _ (by omega) (by omega), show r + 2 ^ (j + 1) - 2 ^ i = r + 2 ^ j + 2 ^ j - 2 ^ i by omega, e]
        congr 2; omega
      · obtain rfl : i = j := by omega
        refine ⟨i, ?_⟩
        rw [show r + 2 ^ (i + 1) - 2 ^ i = r + 2 ^ i by omega, List.getElem?_set_ne (by omega),
          List.getElem?_set_self hl]
        congr 2; omega
    · rw [hother x (by omega) (by omega), b4 x (by omega), a4 x (by omega)]

/-- along a path of length `n` a search with at most `n` frames overflows the stack -/
theorem find_overflows {d : List Data} {n : Nat} {p : Nat → Nat}
    (h : ∀ i, i < n → p (i + 1) ≠ p i ∧ ∃ rk, d[p i]? = some ⟨p (i + 1), rk⟩) (k i : Nat) (hk : i + k ≤ n) :
    find k (p i) d = (.error .stackOverflow, d) := by
  induction k generalizing i with
  | zero => rfl
  | succ k ih =>
    obtain ⟨h1, rk, h2⟩ := h i (by omega)
    simp [find, M.bind_run, at', h2, h1, ih (i + 1) (by omega)]

/-! ## the calls -/

/-- the elements `0`, …, `n - 1` have been added in order -/
structure Row (n : Nat) (s : DSet Nat) : Prop where
  len : s.ids.len = n
  get : ∀ x, s.ids.get x = if x < n then some x else none

theorem row_extend (l n : Nat) {s : DSet Nat} (h : Row n s) (hn : s.dataById.length = n)
    (hd : ∀ x, x < n → s.dataById[x]? = some ⟨x, 0⟩) :
    ∃ s', DSet.extendLoop (List.range' n l) false s = (.ok (), s') ∧ Row (n + l) s' ∧
      ∀ x, x < n + l → s'.dataById[x]? = some ⟨x, 0⟩ := by
  induction l generalizing n s with
  | zero => exact ⟨s, rfl, h, hd⟩
  | succ l ih =>
    let s1 : DSet Nat := ⟨s.ids.insert n n, s.dataById ++ [Data.new n]⟩
    have hm : DSet.makeSet n false s = (.ok (), s1) := by
      simp [DSet.makeSet, M.bind_run, DSet.makeOrGetSet, h.get, h.len, s1]; rfl
    have h1 : Row (n + 1) s1 := by
      refine ⟨?_, fun x => ?_⟩
      · show (s.ids.insert n n).len = _
        rw [HMap.len_insert, h.get]; simp [h.len]
      · show (s.ids.insert n n).get x = _
        rw [HMap.get_insert, h.get]
        by_cases hx : x = n
        · subst hx; simp
        · by_cases hx' : x < n
          · simp [hx, hx', show x < n + 1 by omega]
          · simp [hx, hx', show ¬ x < n + 1 by omega]
    have hd1 : ∀ x, x < n + 1 → s1.dataById[x]? = some ⟨x, 0⟩ := fun x hx => by
      show (s.dataById ++ [Data.new n])[x]? = _
      rcases Nat.lt_or_ge x n with hx' | hx'
      · rw [List.getElem?_append_left (by rw [hn]; exact hx')]; exact hd x hx'
      · obtain rfl : x = n := by omega
        rw [List.getElem?_append_right (Nat.le_of_eq hn), hn]; simp [Data.new]
    obtain ⟨s2, e1, e2, e3⟩ := ih (n + 1) h1 (by simp [s1, hn]) hd1
    refine ⟨s2, ?_, by rw [show n + (l + 1) = n + 1 + l by omega]; exact e2, fun x hx => e3 x (by omega)⟩
    rw [List.range'_succ, DSet.extendLoop, M.bind_run, hm]
    exact e1

theorem row_unions [Cfg] (k n : Nat) (ps : List (Nat × Nat)) (hp : ∀ p ∈ ps, p.1 < n ∧ p.2 < n) {s : DSet Nat}
    (h : Row n s) {d' : List Data} (hl : joinAll k ps s.dataById = (.ok (), d')) :
    (run k (ps.map fun p => .union p.1 p.2 false false) s).2 = { s with dataById := d' } := by
  induction ps generalizing s with
  | nil =>
    have : s.dataById = d' := congrArg Prod.snd hl
    rw [← this]; rfl
  | cons p ps ih =>
    obtain ⟨a, b⟩ := p
    obtain ⟨ha, hb⟩ := hp (a, b) (List.mem_cons_self ..)
    simp only [joinAll, M.bind_run] at hl
    have e : (step k (.union a b false false) s).2 = { s with dataById := (unionIds k a b s.dataById).2 } := by
      have ga : DSet.makeOrGetSet a false s = (.ok a, s) := by simp [DSet.makeOrGetSet, h.get, show a < n from ha]
      have gb : DSet.makeOrGetSet b false s = (.ok b, s) := by simp [DSet.makeOrGetSet, h.get, show b < n from hb]
      simp only [step, wrap, DSet.union, M.bind_run, ga, gb, DSet.onData]
      generalize unionIds k a b s.dataById = r
      obtain ⟨r, d⟩ := r
      cases r <;> rfl
    generalize hr : unionIds k a b s.dataById = r at hl e
    obtain ⟨r, d⟩ := r
    cases r with
    | error e => simp at hl
    | ok u =>
      show (run k _ (step k (.union a b false false) s).2).2 = _
      rw [e]
      exact ih (fun p hp' => hp p (List.mem_cons_of_mem _ hp')) (s := { s with dataById := d }) ⟨h.len, h.get⟩ hl

theorem row_unions_stuck [Cfg] (n : Nat) (ps : List (Nat × Nat)) (hp : ∀ p ∈ ps, p.1 < n ∧ p.2 < n) {s : DSet Nat}
    (h : Row n s) : (run 0 (ps.map fun p => .union p.1 p.2 false false) s).2 = s := by
  induction ps with
  | nil => rfl
  | cons p ps ih =>
    obtain ⟨a, b⟩ := p
    obtain ⟨ha, hb⟩ := hp (a, b) (List.mem_cons_self ..)
    have ga : DSet.makeOrGetSet a false s = (.ok a, s) := by simp [DSet.makeOrGetSet, h.get, show a < n from ha]
    have gb : DSet.makeOrGetSet b false s = (.ok b, s) := by simp [DSet.makeOrGetSet, h.get, show b < n from hb]
    have e : (step 0 (.union a b false false) s).2 = s := by
      have hu : unionIds 0 a b s.dataById = (.error .stackOverflow, s.dataById) := rfl
      simp [step, wrap, DSet.union, M.bind_run, ga, gb, DSet.onData, hu]
    show (run 0 _ (step 0 (.union a b false false) s).2).2 = s
    rw [e]
    exact ih fun p hp' => hp p (List.mem_cons_of_mem _ hp')

end DS
