import Verif.DS.Forest
/-!
# `union` on the forest
-/

open Rust
namespace DS

/-- the invariant of `data_by_id` -/
structure Good (d : List Data) : Prop where
  forest : Forest d
  pot_le : pot d ≤ d.length

theorem Sim.good {d d' : List Data} (h : Sim d d') (g : Good d) : Good d' :=
  ⟨h.forest, by rw [h.pot, h.len]; exact g.pot_le⟩

theorem Good.rank_lt {d : List Data} (g : Good d) {i r m : Nat} (hi : i < d.length) (h : Root d i r)
    (hm : d.length < 2 ^ m) : rk d r < m := by
  have h1 := rank_log g.pot_le (h.lt g.forest hi) h.is_root
  exact (Nat.pow_lt_pow_iff_right (by decide : 1 < 2)).mp (Nat.lt_of_le_of_lt h1 hm)

/-- a search in a good forest with enough stack -/
theorem find_good {stack : Nat} {d : List Data} (g : Good d) (hs : d.length < 2 ^ stack) {i r : Nat}
    (hi : i < d.length) (h : Root d i r) : ∃ d', find stack i d = (.ok r, d') ∧ Sim d d' :=
  find_ok stack g.forest hi h (by have := g.rank_lt hi h hs; omega)

/-- `i` and `j` have the same root -/
def SameRoot (d : List Data) (i j : Nat) : Prop := ∃ r, Root d i r ∧ Root d j r

theorem Sim.sameRoot {d d' : List Data} (h : Sim d d') (i j : Nat) : SameRoot d' i j ↔ SameRoot d i j := by
  simp only [SameRoot, h.root]

/-- the surviving root -/
def hiOf (d : List Data) (ra rb : Nat) : Nat := if rk d ra < rk d rb then rb else ra
/-- the other root -/
def loOf (d : List Data) (ra rb : Nat) : Nat := if rk d ra < rk d rb then ra else rb

/-- what linking two different roots does -/
structure Linked (d : List Data) (ra rb : Nat) (d' : List Data) : Prop where
  len : d'.length = d.length
  rank : ∀ i, rk d' i = if i = hiOf d ra rb ∧ rk d ra = rk d rb then rk d i + 1 else rk d i
  root : ∀ i q, Root d' i q ↔ ∃ r, Root d i r ∧ q = if r = loOf d ra rb then hiOf d ra rb else r
  good : Good d'
  roots : roots d' + 1 = roots d

/-- the part of `union` after both searches -/
def linkIds [Cfg] (aRoot bRoot : Nat) : M (List Data) Unit := do
  if aRoot = bRoot then return ()
  let x ← at' aRoot
  let y ← at' bRoot
  let (aRoot, bRoot) := if x.rank < y.rank then (bRoot, aRoot) else (aRoot, bRoot)
  setParent bRoot aRoot
  let x ← at' aRoot
  let y ← at' bRoot
  if x.rank = y.rank then incRank aRoot

theorem unionIds_eq [Cfg] (stack a b : Nat) : unionIds stack a b = (do
    let aRoot ← find stack a
    let bRoot ← find stack b
    linkIds aRoot bRoot) := rfl

/-- linking root `lo` under root `hi`, whose rank is not smaller -/
theorem link_core {d d' : List Data} (g : Good d) {hi lo : Nat} (hhi : hi < d.length) (hlo : lo < d.length)
    (hne : hi ≠ lo) (phi : par d hi = hi) (plo : par d lo = lo) (hr : rk d lo ≤ rk d hi)
    (hlen : d'.length = d.length) (hp : ∀ j, par d' j = if j = lo then hi else par d j)
    (hk : ∀ i, rk d' i = if i = hi ∧ rk d hi = rk d lo then rk d i + 1 else rk d i) :
    (∀ i q, Root d' i q ↔ ∃ r, Root d i r ∧ q = if r = lo then hi else r) ∧ Good d' ∧
      roots d' + 1 = roots d := by
  refine ⟨fun i q => link_root g.forest hne phi plo hp i q, ⟨⟨fun i hi' => ?_, fun i hi' => ?_⟩, ?_⟩, ?_⟩
  · rw [hp]; rw [hlen] at hi' ⊢
    split
    · exact hhi
    · exact g.forest.range i hi'
  · rw [hp] at hi' ⊢
    by_cases hil : i = lo
    · rw [if_pos hil] at hi' ⊢
      subst hil
      rw [hk, hk, if_neg (fun h => hne h.1.symm)]
      split
      · omega
      · rename_i h
        have : rk d hi ≠ rk d i := fun he => h ⟨rfl, he⟩
        omega
    · rw [if_neg hil] at hi' ⊢
      have hup := g.forest.up i hi'
      have hih : i ≠ hi := fun he => hi' (by rw [he]; exact phi)
      rw [hk, hk, if_neg (fun h => hih h.1)]
      split <;> omega
  · -- potential
    have e1 : sumUpto (weight d') d.length + (weight d hi + weight d lo) =
        sumUpto (weight d) d.length + (weight d' hi + weight d' lo) := by
      have h1 := sumUpto_update (f := weight d') (g := fun i => if i = hi then weight d i else weight d' i) hhi
        (fun i _ hne' => by simp [hne'])
      have h2 := sumUpto_update (f := fun i => if i = hi then weight d i else weight d' i) (g := weight d) hlo
        (fun i _ hne' => by
          by_cases hih : i = hi
          · simp [hih]
          · simp only [if_neg hih, weight, hp, hk, if_neg hne', hih, false_and, if_false])
      simp only [if_true, if_neg (Ne.symm hne)] at h1 h2
      omega
    have w1 : weight d hi = 2 ^ rk d hi := by rw [weight, if_pos phi]
    have w2 : weight d lo = 2 ^ rk d lo := by rw [weight, if_pos plo]
    have w3 : weight d' lo = 0 := by rw [weight, if_neg]; rw [hp, if_pos rfl]; exact hne
    have w4 : weight d' hi ≤ 2 ^ rk d hi + 2 ^ rk d lo := by
      rw [weight, if_pos (by rw [hp, if_neg hne]; exact phi), hk]
      split
      · rename_i h; rw [← h.2, Nat.pow_succ]; omega
      · exact Nat.le_add_right _ _
    have := g.pot_le
    rw [pot] at this
    rw [pot, hlen]
    omega
  · have e1 := sumUpto_update (f := rootOne d') (g := rootOne d) hlo (fun i _ hne' => by
      simp only [rootOne, hp, if_neg hne'])
    have w1 : rootOne d lo = 1 := by rw [rootOne, if_pos plo]
    have w2 : rootOne d' lo = 0 := by rw [rootOne, if_neg]; rw [hp, if_pos rfl]; exact hne
    rw [roots, roots, hlen]
    omega

/-- what linking two different roots does to parents and ranks -/
structure Wired (d : List Data) (hi lo : Nat) (d' : List Data) : Prop where
  hi_lt : hi < d.length
  lo_lt : lo < d.length
  ne : hi ≠ lo
  hi_root : par d hi = hi
  lo_root : par d lo = lo
  rank_le : rk d lo ≤ rk d hi
  len : d'.length = d.length
  par : ∀ j, par d' j = if j = lo then hi else par d j
  rank : ∀ i, rk d' i = if i = hi ∧ rk d hi = rk d lo then rk d i + 1 else rk d i

theorem linkIds_wired [Cfg] {d : List Data} (g : Good d) (hm : d.length ≤ usizeMax) {ra rb : Nat}
    (ha : ra < d.length) (hb : rb < d.length) (pa : par d ra = ra) (pb : par d rb = rb) (hne : ra ≠ rb) :
    ∃ d', linkIds ra rb d = (.ok (), d') ∧ Wired d (hiOf d ra rb) (loOf d ra rb) d' := by
  have h64 : d.length < 2 ^ 64 := by
    have : 2 ^ Cfg.bits ≤ 2 ^ 64 := Nat.pow_le_pow_right (by decide) Cfg.bits_le
    have h0 : 0 < 2 ^ Cfg.bits := Nat.pow_pos (by decide)
    unfold usizeMax at hm; omega
  have hat : ∀ i, i < d.length → at' i d = (.ok ⟨par d i, rk d i⟩, d) := fun i hi => by
    rw [at', get_of_lt hi]
  unfold linkIds
  rw [if_neg hne, M.bind_ok (hat ra ha), M.bind_ok (hat rb hb)]
  -- the two roots after the exchange
  obtain ⟨hi, lo, hsw, e1, e2⟩ : ∃ hi lo, (if rk d ra < rk d rb then (rb, ra) else (ra, rb)) = (hi, lo) ∧
      hi = hiOf d ra rb ∧ lo = loOf d ra rb := by
    unfold hiOf loOf
    split <;> exact ⟨_, _, rfl, rfl, rfl⟩
  have hhi : hi < d.length := by rw [e1, hiOf]; split <;> assumption
  have hlo : lo < d.length := by rw [e2, loOf]; split <;> assumption
  have phi : par d hi = hi := by rw [e1, hiOf]; split <;> assumption
  have plo : par d lo = lo := by rw [e2, loOf]; split <;> assumption
  have hn : hi ≠ lo := by
    rw [e1, e2, hiOf, loOf]; split
    · exact Ne.symm hne
    · exact hne
  have hr : rk d lo ≤ rk d hi := by
    rw [e1, e2, hiOf, loOf]; split <;> omega
  rw [← e1, ← e2]
  simp only [hsw]
  have hset : setParent lo hi d = (.ok (), d.set lo ⟨hi, rk d lo⟩) := by rw [setParent, get_of_lt hlo]
  have l1 : (d.set lo ⟨hi, rk d lo⟩).length = d.length := List.length_set
  have p1 := par_set (d := d) hlo ⟨hi, rk d lo⟩
  have k1 : ∀ j, rk (d.set lo ⟨hi, rk d lo⟩) j = rk d j := by
    intro j; rw [rk_set hlo]; split
    · rename_i h; rw [h]
    · rfl
  have hat1 : ∀ i, i < d.length → at' i (d.set lo ⟨hi, rk d lo⟩) =
      (.ok ⟨par (d.set lo ⟨hi, rk d lo⟩) i, rk d i⟩, d.set lo ⟨hi, rk d lo⟩) := fun i hi' => by
    rw [at', get_of_lt (by rw [l1]; exact hi'), k1]
  rw [M.bind_ok hset, M.bind_ok (hat1 hi hhi), M.bind_ok (hat1 lo hlo)]
  by_cases he : rk d hi = rk d lo
  · rw [if_pos he]
    have hrk := g.rank_lt hhi (.root phi) h64
    have hu : u32Succ (rk d hi) = .ok (rk d hi + 1) := by
      rw [u32Succ, if_pos]; unfold u32Max; omega
    have hinc : incRank hi (d.set lo ⟨hi, rk d lo⟩) = (.ok (),
        (d.set lo ⟨hi, rk d lo⟩).set hi ⟨par d hi, rk d hi + 1⟩) := by
      rw [incRank, get_of_lt (by rw [l1]; exact hhi)]
      simp only [k1, hu, p1, if_neg hn]
    have hhi1 : hi < (d.set lo ⟨hi, rk d lo⟩).length := by rw [l1]; exact hhi
    refine ⟨_, hinc, ⟨hhi, hlo, hn, phi, plo, hr, by rw [List.length_set, l1], fun j => ?_, fun j => ?_⟩⟩
    · rw [par_set hhi1, p1]
      by_cases hj : j = hi
      · rw [if_pos hj, hj, if_neg hn]
      · rw [if_neg hj]
    · rw [rk_set hhi1, k1]
      by_cases hj : j = hi
      · rw [if_pos hj, if_pos ⟨hj, he⟩, hj]
      · rw [if_neg hj, if_neg (fun h => hj h.1)]
  · rw [if_neg he]
    exact ⟨_, rfl, ⟨hhi, hlo, hn, phi, plo, hr, l1, p1, fun j => by rw [k1, if_neg (fun h => he h.2)]⟩⟩

theorem linkIds_ok [Cfg] {d : List Data} (g : Good d) (hm : d.length ≤ usizeMax) {ra rb : Nat}
    (ha : ra < d.length) (hb : rb < d.length) (pa : par d ra = ra) (pb : par d rb = rb) (hne : ra ≠ rb) :
    ∃ d', linkIds ra rb d = (.ok (), d') ∧ Linked d ra rb d' := by
  obtain ⟨d', h1, w⟩ := linkIds_wired g hm ha hb pa pb hne
  obtain ⟨c1, c2, c3⟩ := link_core g w.hi_lt w.lo_lt w.ne w.hi_root w.lo_root w.rank_le w.len w.par w.rank
  have heq : (rk d (hiOf d ra rb) = rk d (loOf d ra rb)) ↔ rk d ra = rk d rb := by
    rw [hiOf, loOf]; split <;> omega
  exact ⟨d', h1, w.len, fun i => by rw [w.rank]; simp only [heq], c1, c2, c3⟩

/-- `union` of two ids: either they had the same root and nothing observable changed, or the roots are linked -/
theorem unionIds_ok [Cfg] {stack : Nat} {d : List Data} (g : Good d) (hm : d.length ≤ usizeMax)
    (hs : d.length < 2 ^ stack) {a b ra rb : Nat} (ha : a < d.length) (hb : b < d.length)
    (hra : Root d a ra) (hrb : Root d b rb) :
    ∃ d', unionIds stack a b d = (.ok (), d') ∧ (ra = rb → Sim d d') ∧
      (ra ≠ rb → Linked d ra rb d') := by
  obtain ⟨d1, f1, s1⟩ := find_good g hs ha hra
  have g1 := s1.good g
  obtain ⟨d2, f2, s2⟩ := find_good g1 (by rw [s1.len]; exact hs) (by rw [s1.len]; exact hb)
    ((s1.root b rb).mpr hrb)
  have s := s1.trans s2
  have g2 := s.good g
  rw [unionIds_eq, M.bind_ok f1, M.bind_ok f2]
  by_cases hne : ra = rb
  · refine ⟨d2, ?_, fun _ => s, fun h => absurd hne h⟩
    unfold linkIds
    rw [if_pos hne, M.pure_run]
  · obtain ⟨d', h1, h2⟩ := linkIds_ok g2 (by rw [s.len]; exact hm)
      (by rw [s.len]; exact hra.lt g.forest ha) (by rw [s.len]; exact hrb.lt g.forest hb)
      ((s.isRoot ra).mpr hra.is_root) ((s.isRoot rb).mpr hrb.is_root) hne
    have e1 : hiOf d2 ra rb = hiOf d ra rb := by simp only [hiOf, s.rank]
    have e2 : loOf d2 ra rb = loOf d ra rb := by simp only [loOf, s.rank]
    refine ⟨d', h1, fun h => absurd h hne, fun _ => ⟨h2.len.trans s.len, fun i => ?_, fun i q => ?_, h2.good,
      by rw [h2.roots, s.roots]⟩⟩
    · rw [h2.rank, e1]; simp only [s.rank]
    · rw [h2.root, e1, e2]; simp only [s.root]

/-- linking joins exactly the two groups -/
theorem Linked.sameRoot {d d' : List Data} (hf : Forest d) {a b ra rb : Nat} (h : Linked d ra rb d')
    (hne : ra ≠ rb) (hra : Root d a ra) (hrb : Root d b rb) (i j : Nat) :
    SameRoot d' i j ↔ SameRoot d i j ∨ (SameRoot d i a ∧ SameRoot d b j) ∨
      (SameRoot d i b ∧ SameRoot d a j) := by
  obtain ⟨ri, hi⟩ := Root.total hf i
  obtain ⟨rj, hj⟩ := Root.total hf j
  have key : ∀ {x y rx ry : Nat}, Root d x rx → Root d y ry → (SameRoot d x y ↔ rx = ry) := by
    intro x y rx ry hx hy
    constructor
    · rintro ⟨r, h1, h2⟩
      rw [hx.functional h1, hy.functional h2]
    · rintro rfl; exact ⟨rx, hx, hy⟩
  have key' : SameRoot d' i j ↔ (if ri = loOf d ra rb then hiOf d ra rb else ri) =
      (if rj = loOf d ra rb then hiOf d ra rb else rj) := by
    constructor
    · rintro ⟨r, h1, h2⟩
      obtain ⟨r1, h3, e1⟩ := (h.root i r).mp h1
      obtain ⟨r2, h4, e2⟩ := (h.root j r).mp h2
      rw [hi.functional h3, hj.functional h4, ← e1, ← e2]
    · intro e
      exact ⟨_, (h.root i _).mpr ⟨ri, hi, rfl⟩, (h.root j _).mpr ⟨rj, hj, e⟩⟩
  rw [key', key hi hj, key hi hra, key hrb hj, key hi hrb, key hra hj]
  have hcases : (hiOf d ra rb = rb ∧ loOf d ra rb = ra) ∨ (hiOf d ra rb = ra ∧ loOf d ra rb = rb) := by
    unfold hiOf loOf; split <;> simp
  rcases hcases with ⟨e1, e2⟩ | ⟨e1, e2⟩ <;> rw [e1, e2] <;> split <;> split <;> omega

/-! ### appending a new node -/

theorem par_append (d : List Data) (i : Nat) : par (d ++ [Data.new d.length]) i = par d i := by
  rw [par, par]
  by_cases h : i < d.length
  · rw [List.getElem?_append_left h]
  · rw [List.getElem?_append_right (by omega), List.getElem?_eq_none (l := d) (by omega)]
    by_cases h2 : i = d.length
    · subst h2; simp [Data.new]
    · have : i - d.length ≠ 0 := by omega
      obtain ⟨k, hk⟩ := Nat.exists_eq_succ_of_ne_zero this
      rw [hk]; rfl

theorem rk_append (d : List Data) (i : Nat) : rk (d ++ [Data.new d.length]) i = rk d i := by
  rw [rk, rk]
  by_cases h : i < d.length
  · rw [List.getElem?_append_left h]
  · rw [List.getElem?_append_right (by omega), List.getElem?_eq_none (l := d) (by omega)]
    by_cases h2 : i = d.length
    · subst h2; simp [Data.new]
    · have : i - d.length ≠ 0 := by omega
      obtain ⟨k, hk⟩ := Nat.exists_eq_succ_of_ne_zero this
      rw [hk]; rfl

theorem root_append (d : List Data) (i r : Nat) : Root (d ++ [Data.new d.length]) i r ↔ Root d i r := by
  constructor
  · intro h
    induction h with
    | root h => exact .root (by rwa [par_append] at h)
    | step h _ ih => rw [par_append] at h ih; exact .step h ih
  · intro h
    induction h with
    | root h => exact .root (by rw [par_append]; exact h)
    | step h _ ih => exact .step (by rw [par_append]; exact h) (by rw [par_append]; exact ih)

theorem good_append {d : List Data} (g : Good d) : Good (d ++ [Data.new d.length]) := by
  have hl : (d ++ [Data.new d.length]).length = d.length + 1 := by simp
  refine ⟨⟨fun i hi => ?_, fun i hi => ?_⟩, ?_⟩
  · rw [par_append, hl]
    by_cases h : i < d.length
    · have := g.forest.range i h; omega
    · rw [par_out (by omega)]; omega
  · rw [par_append] at hi ⊢
    rw [rk_append, rk_append]
    exact g.forest.up i hi
  · have := g.pot_le
    rw [pot] at this ⊢
    rw [hl, sumUpto, sumUpto_congr (g := weight d) (fun i _ => by rw [weight, weight, par_append, rk_append])]
    have hw : weight (d ++ [Data.new d.length]) d.length = 1 := by
      rw [weight, par_append, rk_append, if_pos (par_out (Nat.le_refl _)), rk, List.getElem?_eq_none (by omega)]
      rfl
    omega

theorem roots_append (d : List Data) : roots (d ++ [Data.new d.length]) = roots d + 1 := by
  have hl : (d ++ [Data.new d.length]).length = d.length + 1 := by simp
  rw [roots, roots, hl, sumUpto, sumUpto_congr (g := rootOne d) (fun i _ => by rw [rootOne, rootOne, par_append])]
  congr 1
  rw [rootOne, par_append, if_pos (par_out (Nat.le_refl _))]

theorem sim_append {d d' : List Data} (h : Sim d d') (g : Good d') :
    Sim (d ++ [Data.new d.length]) (d' ++ [Data.new d'.length]) :=
  ⟨by simp [h.len], fun i => by rw [rk_append, rk_append, h.rank], fun i r => by
    rw [root_append, root_append, h.root], (good_append g).forest⟩

end DS
