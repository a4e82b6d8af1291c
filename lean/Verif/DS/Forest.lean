import Verif.DS.Spec
/-!
# The forest of parents and ranks
-/

open Rust
namespace DS

/-- parent of a node; a node out of range is its own parent -/
def par (d : List Data) (i : Nat) : Nat := match d[i]? with
  | some x => x.parent
  | none => i
/-- rank of a node -/
def rk (d : List Data) (i : Nat) : Nat := match d[i]? with
  | some x => x.rank
  | none => 0

/-- `r` is the root above `i` -/
inductive Root (d : List Data) : Nat → Nat → Prop
  | root {i : Nat} : par d i = i → Root d i i
  | step {i r : Nat} : par d i ≠ i → Root d (par d i) r → Root d i r

/-- parents are in range and have larger ranks -/
structure Forest (d : List Data) : Prop where
  range : ∀ i, i < d.length → par d i < d.length
  up : ∀ i, par d i ≠ i → rk d i < rk d (par d i)

theorem Root.functional {d : List Data} {i r q : Nat} (h : Root d i r) : Root d i q → r = q := by
  induction h with
  | root h => intro h2; cases h2 with
    | root => rfl
    | step h3 => exact absurd h h3
  | step h _ ih => intro h2; cases h2 with
    | root h3 => exact absurd h3 h
    | step _ h4 => exact ih h4

theorem Root.is_root {d : List Data} {i r : Nat} (h : Root d i r) : par d r = r := by
  induction h with
  | root h => exact h
  | step _ _ ih => exact ih

theorem Root.rank_le {d : List Data} (hf : Forest d) {i r : Nat} (h : Root d i r) : rk d i ≤ rk d r := by
  induction h with
  | root => exact Nat.le_refl _
  | step h _ ih => have := hf.up _ h; omega

theorem Root.lt {d : List Data} (hf : Forest d) {i r : Nat} (h : Root d i r) (hi : i < d.length) :
    r < d.length := by
  induction h with
  | root => exact hi
  | step h _ ih => exact ih (hf.range _ hi)

theorem par_out {d : List Data} {i : Nat} (h : d.length ≤ i) : par d i = i := by
  rw [par, List.getElem?_eq_none h]

theorem rk_bound (d : List Data) : ∃ m, ∀ i, rk d i ≤ m := by
  have : ∃ m, ∀ x ∈ d, x.rank ≤ m := by
    induction d with
    | nil => exact ⟨0, fun x h => by cases h⟩
    | cons x xs ih =>
      obtain ⟨m, hm⟩ := ih
      refine ⟨x.rank + m, fun y hy => ?_⟩
      rcases List.mem_cons.mp hy with rfl | h
      · omega
      · have := hm y h; omega
  obtain ⟨m, hm⟩ := this
  refine ⟨m, fun i => ?_⟩
  rw [rk]
  split
  · rename_i x hx; exact hm x (List.mem_of_getElem? hx)
  · exact Nat.zero_le _

theorem Root.total {d : List Data} (hf : Forest d) (i : Nat) : ∃ r, Root d i r := by
  obtain ⟨m, hm⟩ := rk_bound d
  generalize hn : m - rk d i = n
  induction n using Nat.strongRecOn generalizing i with
  | _ n ih =>
    by_cases h : par d i = i
    · exact ⟨i, .root h⟩
    · have h1 := hf.up i h
      have h2 := hm (par d i)
      obtain ⟨r, hr⟩ := ih (m - rk d (par d i)) (by omega) (par d i) rfl
      exact ⟨r, .step h hr⟩

/-! ### changing one node -/

theorem par_set {d : List Data} {i : Nat} (hi : i < d.length) (x : Data) (j : Nat) :
    par (d.set i x) j = if j = i then x.parent else par d j := by
  rw [par, List.getElem?_set]
  by_cases h : i = j
  · subst h; simp [hi]
  · rw [if_neg h, if_neg (Ne.symm h)]; rfl

theorem rk_set {d : List Data} {i : Nat} (hi : i < d.length) (x : Data) (j : Nat) :
    rk (d.set i x) j = if j = i then x.rank else rk d j := by
  rw [rk, List.getElem?_set]
  by_cases h : i = j
  · subst h; simp [hi]
  · rw [if_neg h, if_neg (Ne.symm h)]; rfl

theorem get_of_lt {d : List Data} {i : Nat} (hi : i < d.length) : d[i]? = some ⟨par d i, rk d i⟩ := by
  rw [par, rk]
  rw [List.getElem?_eq_getElem hi]

/-- Two states of `data_by_id` that no call can tell apart: same ranks and roots. -/
structure Sim (d d' : List Data) : Prop where
  len : d'.length = d.length
  rank : ∀ i, rk d' i = rk d i
  root : ∀ i r, Root d' i r ↔ Root d i r
  forest : Forest d'

theorem Sim.refl {d : List Data} (h : Forest d) : Sim d d := ⟨rfl, fun _ => rfl, fun _ _ => Iff.rfl, h⟩
theorem Sim.trans {d d' d'' : List Data} (h : Sim d d') (h' : Sim d' d'') : Sim d d'' :=
  ⟨h'.len.trans h.len, fun i => (h'.rank i).trans (h.rank i), fun i r => (h'.root i r).trans (h.root i r),
    h'.forest⟩
theorem Sim.symm {d d' : List Data} (hf : Forest d) (h : Sim d d') : Sim d' d :=
  ⟨h.len.symm, fun i => (h.rank i).symm, fun i r => (h.root i r).symm, hf⟩

theorem root_self {d : List Data} {i : Nat} : Root d i i ↔ par d i = i :=
  ⟨fun h => h.is_root, .root⟩

theorem Sim.isRoot {d d' : List Data} (h : Sim d d') (i : Nat) : par d' i = i ↔ par d i = i := by
  rw [← root_self, ← root_self, h.root]

/-- pointing a node straight to its root changes nothing observable -/
theorem compress {d : List Data} (hf : Forest d) {i r : Nat} (hi : i < d.length) (h : Root d i r)
    (hne : i ≠ r) : Sim d (d.set i ⟨r, rk d i⟩) := by
  have hroot := h.is_root
  have hpi : par d i ≠ i := fun he => hne ((Root.root he).functional h)
  have hf' : Forest (d.set i ⟨r, rk d i⟩) := by
    constructor
    · intro j hj
      rw [List.length_set] at hj ⊢
      rw [par_set hi]
      split
      · exact h.lt hf hi
      · exact hf.range j hj
    · intro j hj
      rw [par_set hi] at hj ⊢
      simp only [rk_set hi]
      by_cases hji : j = i
      · subst hji
        simp only [if_true] at hj ⊢
        rw [if_neg hj]
        have := hf.up j hpi
        cases h with
        | root h => exact absurd h hpi
        | step _ h2 => have := h2.rank_le hf; omega
      · simp only [if_neg hji] at hj ⊢
        have := hf.up j hj
        split
        · rename_i he; rw [he] at this; exact this
        · exact this
  have fwd : ∀ j q, Root d j q → Root (d.set i ⟨r, rk d i⟩) j q := by
    intro j q hq
    induction hq with
    | @root j hj =>
      have hji : j ≠ i := fun he => hpi (he ▸ hj)
      exact .root (by rw [par_set hi, if_neg hji]; exact hj)
    | @step j q hj hq ih =>
      by_cases hji : j = i
      · subst hji
        have : q = r := hq.functional (by cases h with
          | root h => exact absurd h hpi
          | step _ h2 => exact h2)
        subst this
        refine .step (by rw [par_set hi, if_pos rfl]; exact Ne.symm hne) ?_
        rw [par_set hi, if_pos rfl]
        exact .root (by rw [par_set hi, if_neg (Ne.symm hne)]; exact hroot)
      · refine .step (by rw [par_set hi, if_neg hji]; exact hj) ?_
        rw [par_set hi, if_neg hji]
        exact ih
  refine ⟨List.length_set, fun j => ?_, fun j q => ⟨fun hq => ?_, fwd j q⟩, hf'⟩
  · rw [rk_set hi]; split
    · rename_i he; rw [he]
    · rfl
  · obtain ⟨q0, h0⟩ := Root.total hf j
    rwa [hq.functional (fwd j q0 h0)]

/-- The root search returns the root, within as many frames as the rank difference allows. -/
theorem find_ok (stack : Nat) {d : List Data} (hf : Forest d) {i r : Nat} (hi : i < d.length)
    (h : Root d i r) (hs : rk d r < stack + rk d i) : ∃ d', find stack i d = (.ok r, d') ∧ Sim d d' := by
  induction stack generalizing i with
  | zero => have := h.rank_le hf; omega
  | succ n ih =>
    have hat : at' i d = (.ok ⟨par d i, rk d i⟩, d) := by rw [at', get_of_lt hi]
    rw [find, M.bind_ok hat]
    cases h with
    | root h =>
      rw [if_neg (by simp [h])]
      exact ⟨d, by rw [M.pure_run, h], Sim.refl hf⟩
    | step hp h =>
      rw [if_pos hp]
      have hup := hf.up i hp
      obtain ⟨d1, h1, s1⟩ := ih (hf.range i hi) h (by omega)
      have hi1 : i < d1.length := by rw [s1.len]; exact hi
      have hset : setParent i r d1 = (.ok (), d1.set i ⟨r, rk d1 i⟩) := by rw [setParent, get_of_lt hi1]
      rw [M.bind_ok h1, M.bind_ok hset]
      have hne : i ≠ r := by
        intro he
        have := h.rank_le hf
        rw [← he] at this
        omega
      refine ⟨_, rfl, s1.trans (compress s1.forest hi1 ((s1.root i r).mpr (.step hp h)) hne)⟩

/-! ### linking two roots -/

/-- what linking the root `b` under the root `a` does to roots -/
theorem link_root {d d' : List Data} (hf : Forest d) {a b : Nat} (hab : a ≠ b) (ha : par d a = a)
    (hb : par d b = b) (hp : ∀ j, par d' j = if j = b then a else par d j) (i q : Nat) :
    Root d' i q ↔ ∃ r, Root d i r ∧ q = if r = b then a else r := by
  have fwd : ∀ j r, Root d j r → Root d' j (if r = b then a else r) := by
    intro j r hr
    induction hr with
    | @root j hj =>
      by_cases hjb : j = b
      · rw [if_pos hjb]
        refine .step (by rw [hp, if_pos hjb, hjb]; exact hab) ?_
        rw [hp, if_pos hjb]
        exact .root (by rw [hp, if_neg hab]; exact ha)
      · rw [if_neg hjb]
        exact .root (by rw [hp, if_neg hjb]; exact hj)
    | @step j r hj hr ih =>
      have hjb : j ≠ b := fun he => hj (he ▸ hb)
      refine .step (by rw [hp, if_neg hjb]; exact hj) ?_
      rw [hp, if_neg hjb]
      exact ih
  constructor
  · intro h
    obtain ⟨r, hr⟩ := Root.total hf i
    exact ⟨r, hr, h.functional (fwd i r hr)⟩
  · rintro ⟨r, hr, rfl⟩
    exact fwd i r hr

/-! ### sums over nodes -/

/-- sum of `f 0 … f (n-1)` -/
def sumUpto (f : Nat → Nat) : Nat → Nat
  | 0 => 0
  | n + 1 => sumUpto f n + f n

theorem sumUpto_congr {f g : Nat → Nat} {n : Nat} (h : ∀ i < n, f i = g i) : sumUpto f n = sumUpto g n := by
  induction n with
  | zero => rfl
  | succ n ih => rw [sumUpto, sumUpto, ih fun i hi => h i (by omega), h n (by omega)]

theorem sumUpto_update {f g : Nat → Nat} {n a : Nat} (ha : a < n) (h : ∀ i < n, i ≠ a → f i = g i) :
    sumUpto f n + g a = sumUpto g n + f a := by
  induction n with
  | zero => omega
  | succ n ih =>
    rw [sumUpto, sumUpto]
    by_cases hn : a = n
    · subst hn
      rw [sumUpto_congr (f := f) (g := g) fun i hi => h i (by omega) (by omega)]
      omega
    · rw [h n (by omega) (Ne.symm hn)]
      have := ih (by omega) fun i hi hne => h i (by omega) hne
      omega

theorem le_sumUpto {f : Nat → Nat} {n i : Nat} (hi : i < n) : f i ≤ sumUpto f n := by
  induction n with
  | zero => omega
  | succ n ih =>
    rw [sumUpto]
    by_cases h : i = n
    · subst h; omega
    · have := ih (by omega); omega

/-- `2^rank` for roots -/
def weight (d : List Data) (i : Nat) : Nat := if par d i = i then 2 ^ rk d i else 0
/-- 1 for roots -/
def rootOne (d : List Data) (i : Nat) : Nat := if par d i = i then 1 else 0
/-- the total weight of all roots -/
def pot (d : List Data) : Nat := sumUpto (weight d) d.length
/-- the number of roots -/
def roots (d : List Data) : Nat := sumUpto (rootOne d) d.length

theorem Sim.pot {d d' : List Data} (h : Sim d d') : pot d' = pot d := by
  rw [DS.pot, DS.pot, h.len]
  apply sumUpto_congr
  intro i _
  simp only [weight, h.isRoot, h.rank]

theorem Sim.roots {d d' : List Data} (h : Sim d d') : roots d' = roots d := by
  rw [DS.roots, DS.roots, h.len]
  apply sumUpto_congr
  intro i _
  simp only [rootOne, h.isRoot]

theorem roots_eq_filter (d : List Data) :
    roots d = ((List.range d.length).filter fun i => decide (par d i = i)).length := by
  rw [roots]
  generalize d.length = n
  induction n with
  | zero => rfl
  | succ n ih =>
    rw [sumUpto, List.range_succ, List.filter_append, List.length_append, ih]
    congr 1
    by_cases h : par d n = n <;> simp [rootOne, h]

/-- a root's rank is at most the logarithm of the number of nodes -/
theorem rank_log {d : List Data} (hp : pot d ≤ d.length) {r : Nat} (hr : r < d.length) (h : par d r = r) :
    2 ^ rk d r ≤ d.length := by
  have := le_sumUpto (f := weight d) hr
  rw [weight, if_pos h] at this
  exact Nat.le_trans this hp

end DS
