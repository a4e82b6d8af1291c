import Verif.DS.Ack
import Verif.DS.Counted
import Verif.DS.Sim
/-!
# The amortised cost of root searches
-/

open Rust
namespace DS

/-! ### the potential -/

/-- the potential of a node -/
def phi (a : Nat) (d : List Data) (i : Nat) : Nat :=
  if par d i = i then a * rk d i else (pairs a (rk d i) (rk d (par d i))).card

/-- the potential of a forest -/
def Phi (a : Nat) (d : List Data) : Nat := sumUpto (phi a d) d.length

theorem phi_le (a : Nat) (d : List Data) (i : Nat) : phi a d i ≤ a * rk d i := by
  rw [phi]; split
  · exact Nat.le_refl _
  · exact pairs_card_le _ _ _

theorem sumUpto_le {f g : Nat → Nat} {n : Nat} (h : ∀ i < n, f i ≤ g i) : sumUpto f n ≤ sumUpto g n := by
  induction n with
  | zero => exact Nat.le_refl _
  | succ n ih =>
    have := ih fun i hi => h i (by omega)
    have := h n (by omega)
    rw [sumUpto, sumUpto]; omega

/-- The root search, with everything it changes: the root is returned, the node points to it, every other node
keeps its parent or points to its root, only nodes of no smaller rank change; the number of calls and the growth of the potential add up to
at most the number of levels met, one for the root and one for a node of rank 0. -/
theorem find_cost {a : Nat} (stack : Nat) {d : List Data} (hf : Forest d) {i r : Nat} (hi : i < d.length)
    (h : Root d i r) (hs : rk d r < stack + rk d i) (ha : rk d r < A a 1) (t : Nat) :
    ∃ d' n, Counted.find stack i (d, t) = (.ok r, (d', t + n)) ∧ Sim d d' ∧ par d' i = r ∧
      (∀ j, par d' j = par d j ∨ (Root d j (par d' j) ∧ rk d i ≤ rk d j)) ∧
      ∃ L : Finset Nat, (∀ k ∈ L, k < a ∧ ∃ y, rk d i ≤ rk d y ∧ Root d y r ∧ par d y ≠ y ∧
          A k (rk d y) ≤ rk d (par d y)) ∧
        n + Phi a d' ≤ Phi a d + L.card + 1 + (if par d i ≠ i ∧ rk d i = 0 then 1 else 0) := by
  induction stack generalizing i t with
  | zero => have := h.rank_le hf; omega
  | succ m ih =>
    have htick : (Counted.tick : M (List Data × Nat) Unit) (d, t) = (.ok (), (d, t + 1)) := rfl
    have hat : Counted.lift (at' i) (d, t + 1) = (.ok ⟨par d i, rk d i⟩, (d, t + 1)) := by
      rw [Counted.lift, at', get_of_lt hi]
    rw [Counted.find, M.bind_ok htick, M.bind_ok hat]
    by_cases hp : par d i = i
    · have hr : r = i := h.functional (.root hp)
      subst hr
      rw [if_neg (by simp [hp])]
      refine ⟨d, 1, by rw [M.pure_run, hp], Sim.refl hf, hp, fun j => .inl rfl, ∅, fun k hk => ?_, ?_⟩
      · exact absurd hk (Finset.notMem_empty k)
      · rw [if_neg (fun h => h.1 hp), Finset.card_empty]; omega
    · rw [if_pos hp]
      have hroot : Root d (par d i) r := by
        cases h with
        | root h => exact absurd h hp
        | step _ h => exact h
      have hup := hf.up i hp
      obtain ⟨d1, n1, f1, s1, p1, c1, L, hL, hn⟩ := ih (hf.range i hi) hroot (by omega) (t + 1)
      have hi1 : i < d1.length := by rw [s1.len]; exact hi
      have hset : Counted.lift (setParent i r) (d1, t + 1 + n1) =
          (.ok (), (d1.set i ⟨r, rk d1 i⟩, t + 1 + n1)) := by
        rw [Counted.lift, setParent, get_of_lt hi1]
      have hpr : rk d (par d i) ≤ rk d r := hroot.rank_le hf
      have hne : i ≠ r := by
        intro he
        rw [← he] at hpr
        omega
      have hpar1 : par d1 i = par d i := by
        rcases c1 i with h | ⟨_, h⟩
        · exact h
        · omega
      rw [M.bind_ok f1, M.bind_ok hset]
      have sc := compress s1.forest hi1 ((s1.root i r).mpr h) hne
      have hpar : ∀ j, par (d1.set i ⟨r, rk d1 i⟩) j = if j = i then r else par d1 j := par_set hi1 _
      have hrk : ∀ j, rk (d1.set i ⟨r, rk d1 i⟩) j = rk d j := fun j => by rw [sc.rank, s1.rank]
      refine ⟨_, 1 + n1, by rw [M.pure_run, Nat.add_assoc], s1.trans sc, by rw [hpar, if_pos rfl], ?_, ?_⟩
      · intro j
        rw [hpar]
        by_cases hj : j = i
        · rw [if_pos hj, hj]; exact .inr ⟨h, Nat.le_refl _⟩
        · rw [if_neg hj]
          rcases c1 j with h | ⟨h, h'⟩
          · exact .inl h
          · exact .inr ⟨h, by omega⟩
      · -- the potential
        have hsum : Phi a (d1.set i ⟨r, rk d1 i⟩) + phi a d1 i = Phi a d1 + phi a (d1.set i ⟨r, rk d1 i⟩) i := by
          rw [Phi, Phi, sc.len]
          refine sumUpto_update hi1 fun j _ hj => ?_
          rw [phi, phi]
          simp only [hpar, if_neg hj, sc.rank]
        have e1 : phi a d1 i = (pairs a (rk d i) (rk d (par d i))).card := by
          rw [phi, if_neg (by rw [hpar1]; exact hp), hpar1, s1.rank, s1.rank]
        have e2 : phi a (d1.set i ⟨r, rk d1 i⟩) i = (pairs a (rk d i) (rk d r)).card := by
          rw [phi, if_neg (by rw [hpar, if_pos rfl]; exact Ne.symm hne), hpar, if_pos rfl, hrk, hrk]
        rw [e1, e2] at hsum
        rw [if_neg (fun h => by omega)] at hn
        have hLi : ∀ k ∈ L, k < a ∧ ∃ y, rk d i ≤ rk d y ∧ Root d y r ∧ par d y ≠ y ∧
            A k (rk d y) ≤ rk d (par d y) := fun k hk => by
          obtain ⟨h1, y, h2, h3⟩ := hL k hk
          exact ⟨h1, y, by omega, h3⟩
        have hle := Finset.card_le_card (pairs_anti a (rk d i) hpr)
        by_cases h0 : rk d i = 0
        · refine ⟨L, hLi, ?_⟩
          rw [if_pos ⟨hp, h0⟩]
          omega
        · rw [if_neg (fun h => h0 h.2)]
          obtain ⟨k, hka, hk1, hk2⟩ := level_exists (a := a) (x := rk d i) (p := rk d (par d i)) (by omega) hup
            (by omega)
          by_cases hkL : k ∈ L
          · refine ⟨L, hLi, ?_⟩
            obtain ⟨_, y, hy1, hy2, hy3, hy4⟩ := hL k hkL
            have hyr : rk d (par d y) ≤ rk d r := by
              cases hy2 with
              | root h => exact absurd h hy3
              | step _ h => exact h.rank_le hf
            have hdrop := level_drop (a := a) (x := rk d i) (p := rk d (par d i)) (q := rk d r) (k := k)
              (by omega) hpr ha hk1 hk2 (Nat.le_trans (A_mono k hy1) (Nat.le_trans hy4 hyr))
            omega
          · refine ⟨insert k L, fun k' hk' => ?_, ?_⟩
            · rcases Finset.mem_insert.mp hk' with rfl | hk'
              · exact ⟨hka, i, Nat.le_refl _, h, hp, hk1⟩
              · exact hLi k' hk'
            · rw [Finset.card_insert_of_notMem hkL]
              omega

theorem levels_card {a : Nat} {L : Finset Nat} (h : ∀ k ∈ L, k < a) : L.card ≤ a := by
  have : L ⊆ Finset.range a := fun k hk => Finset.mem_range.mpr (h k hk)
  have := Finset.card_le_card this
  rwa [Finset.card_range] at this

/-- a search costs at most `a + 2` calls, counting the change of the potential -/
theorem find_amortised {a stack : Nat} {d : List Data} (g : Good d) (hs : d.length < 2 ^ stack)
    (ha : d.length ≤ A a 1) {i r : Nat} (hi : i < d.length) (h : Root d i r) (t : Nat) :
    ∃ d' n, Counted.find stack i (d, t) = (.ok r, (d', t + n)) ∧ Sim d d' ∧
      n + Phi a d' ≤ Phi a d + (a + 2) := by
  have h1 := g.rank_lt hi h hs
  have h2 := rank_log g.pot_le (h.lt g.forest hi) h.is_root
  have h3 : rk d r < 2 ^ rk d r := Nat.lt_two_pow_self
  obtain ⟨d', n, f, s, _, _, L, hL, hn⟩ := find_cost (a := a) stack g.forest hi h (by omega) (by omega) t
  refine ⟨d', n, f, s, ?_⟩
  have := levels_card fun k hk => (hL k hk).1
  split at hn <;> omega

/-- linking raises the potential by at most `a` -/
theorem wired_potential {a : Nat} {d d' : List Data} {hi lo : Nat} (w : Wired d hi lo d') :
    Phi a d' ≤ Phi a d + a := by
  have hle : ∀ i < d.length, phi a d' i ≤ (fun i => if i = hi then a * rk d i + a else phi a d i) i := by
    intro i _
    simp only
    by_cases h1 : i = hi
    · rw [if_pos h1]
      refine Nat.le_trans (phi_le a d' i) ?_
      rw [w.rank]
      split
      · rw [Nat.mul_succ]
      · omega
    · rw [if_neg h1]
      have hr : rk d' i = rk d i := by rw [w.rank, if_neg (fun h => h1 h.1)]
      by_cases h2 : i = lo
      · refine Nat.le_trans (phi_le a d' i) ?_
        rw [hr, phi, h2, if_pos w.lo_root]
      · rw [phi, phi, hr, w.par, if_neg h2]
        split
        · exact Nat.le_refl _
        · refine Finset.card_le_card (pairs_anti a _ ?_)
          rw [w.rank]; split <;> omega
  have h1 := sumUpto_le hle
  have h2 := sumUpto_update (f := fun i => if i = hi then a * rk d i + a else phi a d i) (g := phi a d) w.hi_lt
    (fun i _ hne => by simp only [if_neg hne])
  have h3 : phi a d hi = a * rk d hi := by rw [phi, if_pos w.hi_root]
  simp only [if_true] at h2
  rw [Phi, Phi, w.len]
  omega

theorem append_potential (a : Nat) (d : List Data) : Phi a (d ++ [Data.new d.length]) = Phi a d := by
  have hl : (d ++ [Data.new d.length]).length = d.length + 1 := by simp
  rw [Phi, hl, sumUpto, sumUpto_congr (g := phi a d) (fun i _ => by
    rw [phi, phi]; simp only [par_append, rk_append])]
  have : phi a (d ++ [Data.new d.length]) d.length = 0 := by
    have := phi_le a (d ++ [Data.new d.length]) d.length
    rw [rk_append, rk, List.getElem?_eq_none (by omega)] at this
    simpa using this
  rw [this]; rfl

namespace Counted

/-- the part of `union` after both searches calls nothing counted -/
theorem unionIds_eq [Cfg] (stack x y : Nat) : unionIds stack x y = (do
    let aRoot ← find stack x
    let bRoot ← find stack y
    lift (linkIds aRoot bRoot)) := by
  unfold unionIds
  congr 1; funext ra
  congr 1; funext rb
  funext s
  obtain ⟨d, t⟩ := s
  unfold linkIds
  by_cases h : ra = rb
  · rw [if_pos h, lift]; simp only [if_pos h]; rfl
  · rw [if_neg h, lift]; simp only [if_neg h]
    simp only [M.bind_run, lift]
    cases h1 : at' ra d with
    | mk r1 d1 =>
    cases r1 with
    | error e => rfl
    | ok x =>
      simp only
      cases h2 : at' rb d1 with
      | mk r2 d2 =>
      cases r2 with
      | error e => rfl
      | ok y =>
        simp only
        generalize (if x.rank < y.rank then (rb, ra) else (ra, rb)) = pr
        obtain ⟨hi, lo⟩ := pr
        simp only
        cases h3 : setParent lo hi d2 with
        | mk r3 d3 =>
        cases r3 with
        | error e => rfl
        | ok _ =>
          simp only
          cases h4 : at' hi d3 with
          | mk r4 d4 =>
          cases r4 with
          | error e => rfl
          | ok x' =>
            simp only
            cases h5 : at' lo d4 with
            | mk r5 d5 =>
            cases r5 with
            | error e => rfl
            | ok y' =>
              simp only
              split <;> rfl

theorem unionIds_cost [Cfg] {a stack : Nat} {d : List Data} (g : Good d) (hm : d.length ≤ usizeMax)
    (hs : d.length < 2 ^ stack) (ha : d.length ≤ A a 1) {x y : Nat} (hx : x < d.length) (hy : y < d.length)
    (t : Nat) :
    ∃ r d' n, unionIds stack x y (d, t) = (r, (d', t + n)) ∧ n + Phi a d' ≤ Phi a d + (2 * (a + 2) + a) := by
  obtain ⟨rx, hrx⟩ := Root.total g.forest x
  obtain ⟨ry, hry⟩ := Root.total g.forest y
  obtain ⟨d1, n1, f1, s1, c1⟩ := find_amortised g hs ha hx hrx t
  have g1 := s1.good g
  obtain ⟨d2, n2, f2, s2, c2⟩ := find_amortised g1 (by rw [s1.len]; exact hs) (by rw [s1.len]; exact ha)
    (by rw [s1.len]; exact hy) ((s1.root y ry).mpr hry) (t + n1)
  have s := s1.trans s2
  have g2 := s.good g
  rw [unionIds_eq, M.bind_ok f1, M.bind_ok f2, lift]
  by_cases hne : rx = ry
  · refine ⟨.ok (), d2, n1 + n2, ?_, by omega⟩
    unfold linkIds
    rw [if_pos hne, Nat.add_assoc]; rfl
  · obtain ⟨d', h1, w⟩ := linkIds_wired g2 (by rw [s.len]; exact hm)
      (by rw [s.len]; exact hrx.lt g.forest hx) (by rw [s.len]; exact hry.lt g.forest hy)
      ((s.isRoot rx).mpr hrx.is_root) ((s.isRoot ry).mpr hry.is_root) hne
    refine ⟨.ok (), d', n1 + n2, by simp only [h1, Nat.add_assoc], ?_⟩
    have := wired_potential (a := a) w
    omega

variable {T : Type} [DecidableEq T]

theorem makeOrGetSet_potential (a : Nat) {s : DSet T} {b : Abs T} (r : Rel s b) (x : T) (kp : Bool) :
    Phi a (DSet.makeOrGetSet x kp s).2.dataById = Phi a s.dataById := by
  rw [DSet.makeOrGetSet]
  split
  · rfl
  · simp only
    split
    · simp only; rw [← r.len]; exact append_potential a _
    · rfl

theorem extendLoop_potential (a : Nat) (items : List T) (p : Bool) {s : DSet T} {b : Abs T} (r : Rel s b) :
    Phi a (DSet.extendLoop items p s).2.dataById = Phi a s.dataById := by
  induction items generalizing s b with
  | nil => cases p <;> rfl
  | cons x xs ih =>
    obtain ⟨i, s1, h1, _, r1, _⟩ := makeOrGetSet_ok r x
    rw [DSet.extendLoop, M.bind_ok (makeSet_of h1), ih r1]
    have := makeOrGetSet_potential a r x false
    rwa [h1] at this

/-- a search on the set -/
theorem findOn_cost {a stack : Nat} {s : DSet T} {b : Abs T} (r : Rel s b) (hs : s.ids.len < 2 ^ stack)
    (ha : s.ids.len ≤ A a 1) {i : Nat} (hi : i < s.dataById.length) (t : Nat) :
    ∃ q s' n, (onData (find stack i) : M (DSet T × Nat) Nat) (s, t) = (.ok q, (s', t + n)) ∧ Twin s s' ∧
      n + Phi a s'.dataById ≤ Phi a s.dataById + (a + 2) := by
  obtain ⟨q, hq⟩ := Root.total r.good.forest i
  obtain ⟨d', n, h1, h2, h3⟩ := find_amortised r.good (by rw [r.len]; exact hs) (by rw [r.len]; exact ha) hi hq t
  exact ⟨q, { s with dataById := d' }, n, by rw [onData]; simp only [h1], ⟨rfl, h2⟩, h3⟩

theorem buildLoop_cost {a stack : Nat} (es : List (T × Nat)) (m : HMap Nat (List T)) {s : DSet T} {b : Abs T}
    (r : Rel s b) (hs : s.ids.len < 2 ^ stack) (ha : s.ids.len ≤ A a 1)
    (he : ∀ e ∈ es, e.2 < s.dataById.length) (t : Nat) :
    ∃ out s' n, buildLoop stack es m (s, t) = (out, (s', t + n)) ∧
      n + Phi a s'.dataById ≤ Phi a s.dataById + es.length * (a + 2) := by
  induction es generalizing m s t with
  | nil => exact ⟨_, s, 0, rfl, by omega⟩
  | cons e es ih =>
    obtain ⟨key, val⟩ := e
    obtain ⟨q, s1, n1, h1, t1, c1⟩ := findOn_cost r hs ha (he _ List.mem_cons_self) t
    obtain ⟨out, s', n2, h2, c2⟩ := ih (m := (m.orInsert q []).2.insert q ((m.orInsert q []).1 ++ [key]))
      (t1.rel r) (by rw [t1.ids]; exact hs) (by rw [t1.ids]; exact ha)
      (fun e he' => by rw [t1.sim.len]; exact he e (List.mem_cons_of_mem _ he')) (t + n1)
    refine ⟨out, s', n1 + n2, ?_, ?_⟩
    · rw [buildLoop, M.bind_ok h1]
      simp only [h2, Nat.add_assoc]
    · rw [List.length_cons, Nat.succ_mul]; omega

end Counted

variable {T : Type} [DecidableEq T]

/-- how many roots a call searches at most, in a set that means `b` -/
def Op.searches (b : Abs T) : Op T → Nat
  | .union _ _ ap bp => if ap || bp then 0 else 2
  | .inUnion _ _ ap bp => if ap || bp then 0 else 2
  | .iterate _ _ => b.card
  | _ => 0

/-- how often a call may link two groups -/
def Op.links : Op T → Nat
  | .union _ _ ap bp => if ap || bp then 0 else 1
  | _ => 0

/-- all searches of a history -/
noncomputable def searches : Abs T → List (Op T) → Nat
  | _, [] => 0
  | b, op :: ops => op.searches b + searches (b.step op) ops

/-- all possible links of a history -/
def links (ops : List (Op T)) : Nat := (ops.map Op.links).sum

namespace Counted

theorem wrap_cost {α : Type} {f : α → Out T} {m : M (DSet T × Nat) α} {s s' : DSet T × Nat}
    {r : Except Fault α} (h : m s = (r, s')) : ∃ out, wrap f m s = (out, s') := by
  rw [wrap, h]
  cases r <;> exact ⟨_, rfl⟩

theorem step_cost [Cfg] {a stack : Nat} {s : DSet T} {b : Abs T} (r : Rel s b) (op : Op T)
    (hm : (b.step op).card ≤ usizeMax) (hs : (b.step op).card < 2 ^ stack) (ha : (b.step op).card ≤ A a 1)
    (t : Nat) :
    ∃ out s' n, step stack op (s, t) = (out, (s', t + n)) ∧
      n + Phi a s'.dataById ≤ Phi a s.dataById + ((a + 2) * op.searches b + a * op.links) := by
  have quiet : ∀ (m : M (DSet T) (Out T)), Phi a (m s).2.dataById ≤ Phi a s.dataById →
      ∃ out s' n, lift m (s, t) = (out, (s', t + n)) ∧
        n + Phi a s'.dataById ≤ Phi a s.dataById + ((a + 2) * op.searches b + a * op.links) := fun m h =>
    ⟨(m s).1, (m s).2, 0, rfl, by omega⟩
  have wrapped : ∀ {α : Type} (f : α → Out T) (m : M (DSet T) α), (DS.wrap f m s).2 = (m s).2 := by
    intro α f m
    rw [DS.wrap]
    rcases m s with ⟨r, s'⟩
    cases r <;> rfl
  cases op with
  | makeSet x kp =>
    refine quiet (DS.step stack (.makeSet x kp)) (Nat.le_of_eq ?_)
    rw [DS.step, wrapped]
    have := makeOrGetSet_potential a r x kp
    rw [DSet.makeSet, M.bind_run]
    rcases h : DSet.makeOrGetSet x kp s with ⟨q, s'⟩
    rw [h] at this
    cases q <;> exact this
  | contains x kp => refine quiet (DS.step stack (.contains x kp)) (Nat.le_of_eq ?_); cases kp <;> rfl
  | len => exact quiet (DS.step stack (.len)) (Nat.le_refl _)
  | isEmpty => exact quiet (DS.step stack (.isEmpty)) (Nat.le_refl _)
  | clear => exact quiet (DS.step stack (.clear)) (Nat.zero_le _)
  | reserve n cp => refine quiet (DS.step stack (.reserve n cp)) (Nat.le_of_eq ?_); cases cp <;> rfl
  | extend hint cp items p =>
    refine quiet (DS.step stack (.extend hint cp items p)) (Nat.le_of_eq ?_)
    cases cp with
    | true => rfl
    | false => rw [DS.step, wrapped, extend_eq]; exact extendLoop_potential a items p r
  | extendRef hint cp items p =>
    refine quiet (DS.step stack (.extendRef hint cp items p)) (Nat.le_of_eq ?_)
    cases cp with
    | true => rfl
    | false => rw [DS.step, wrapped, extendRef_eq]; exact extendLoop_potential a items p r
  | union x y xp yp =>
    by_cases hp : (xp || yp) = true
    · have hq : ∃ e s', union stack x y xp yp (s, t) = (.error e, (s', t)) ∧
          Phi a s'.dataById = Phi a s.dataById := by
        cases xp with
        | true => exact ⟨_, _, rfl, rfl⟩
        | false =>
          have hb : yp = true := by simpa using hp
          subst hb
          obtain ⟨i, s1, h1, _, r1, _⟩ := makeOrGetSet_ok r x
          have := makeOrGetSet_potential a r x false
          rw [h1] at this
          refine ⟨.user, s1, ?_, this⟩
          have h1' : lift (DSet.makeOrGetSet x false) (s, t) = (.ok i, (s1, t)) := by rw [lift, h1]
          rw [union, M.bind_ok h1']; rfl
      obtain ⟨e, s', h1, h2⟩ := hq
      obtain ⟨out, h3⟩ := wrap_cost (f := fun _ : Unit => (.unit : Out T)) h1
      exact ⟨out, s', 0, h3, by omega⟩
    · have e1 : xp = false := by cases xp <;> simp_all
      have e2 : yp = false := by cases yp <;> simp_all
      subst e1; subst e2
      obtain ⟨i, s1, h1, hi, r1, _⟩ := makeOrGetSet_ok r x
      obtain ⟨j, s2, h2, hj, r2, keep, _⟩ := makeOrGetSet_ok r1 y
      have p1 := makeOrGetSet_potential a r x false
      have p2 := makeOrGetSet_potential a r1 y false
      rw [h1] at p1; rw [h2] at p2
      have hc : s2.dataById.length = (b.step (.union x y false false)).card := by
        rw [r2.len, r2.card]; exact card_congr rfl
      obtain ⟨q, d', n, h3, c3⟩ := unionIds_cost (a := a) (stack := stack) r2.good (by rw [hc]; exact hm)
        (by rw [hc]; exact hs) (by rw [hc]; exact ha) (r2.lt x i (keep x i hi)) (r2.lt y j hj) t
      have h1' : lift (DSet.makeOrGetSet x false) (s, t) = (.ok i, (s1, t)) := by rw [lift, h1]
      have h2' : lift (DSet.makeOrGetSet y false) (s1, t) = (.ok j, (s2, t)) := by rw [lift, h2]
      have h4 : union stack x y false false (s, t) = (q, ({ s2 with dataById := d' }, t + n)) := by
        rw [union, M.bind_ok h1', M.bind_ok h2', onData]; simp only [h3]
      obtain ⟨out, h5⟩ := wrap_cost (f := fun _ : Unit => (.unit : Out T)) h4
      refine ⟨out, _, n, h5, ?_⟩
      simp only at p1 p2 c3 ⊢
      simp only [Op.searches, Op.links, Bool.or_self, Bool.false_eq_true, if_false]
      omega
  | inUnion x y xp yp =>
    have hc : s.ids.len = b.card := r.card
    have hq : ∃ out s' n, inUnion stack x y xp yp (s, t) = (out, (s', t + n)) ∧
        n + Phi a s'.dataById ≤ Phi a s.dataById + (a + 2) * (Op.inUnion x y xp yp).searches b := by
      cases xp with
      | true => exact ⟨_, s, 0, rfl, by omega⟩
      | false =>
        have hl : lift (DSet.lookup x false) (s, t) = (.ok (s.ids.get x), (s, t)) := rfl
        rw [inUnion, M.bind_ok hl]
        cases hx : s.ids.get x with
        | none => exact ⟨_, s, 0, rfl, by omega⟩
        | some i =>
          simp only
          cases yp with
          | true => exact ⟨_, s, 0, rfl, by omega⟩
          | false =>
            have hl2 : lift (DSet.lookup y false) (s, t) = (.ok (s.ids.get y), (s, t)) := rfl
            rw [M.bind_ok hl2]
            cases hy : s.ids.get y with
            | none => exact ⟨_, s, 0, rfl, by omega⟩
            | some j =>
              simp only
              have hs' : s.ids.len < 2 ^ stack := by rw [hc]; exact hs
              have ha' : s.ids.len ≤ A a 1 := by rw [hc]; exact ha
              obtain ⟨q1, s1, n1, f1, t1, c1⟩ := findOn_cost r hs' ha' (r.lt x i hx) t
              obtain ⟨q2, s2, n2, f2, t2, c2⟩ := findOn_cost (t1.rel r) (by rw [t1.ids]; exact hs')
                (by rw [t1.ids]; exact ha') (by rw [t1.sim.len]; exact r.lt y j hy) (t + n1)
              refine ⟨_, s2, n1 + n2, by rw [M.bind_ok f1, M.bind_ok f2, M.pure_run, Nat.add_assoc], ?_⟩
              simp only [Op.searches, Bool.or_self, Bool.false_eq_true, if_false]
              omega
    obtain ⟨out, s', n, h1, c⟩ := hq
    obtain ⟨out', h2⟩ := wrap_cost (f := (Out.bool : Bool → Out T)) h1
    exact ⟨out', s', n, h2, by simp only [Op.links]; omega⟩
  | iterate o o' =>
    have hc : s.ids.len = b.card := r.card
    obtain ⟨out, s', n, h1, c⟩ := buildLoop_cost (a := a) (stack := stack) (o.f s.ids.entries) HMap.empty r
      (by rw [hc]; exact hs) (by rw [hc]; exact ha)
      (fun e he => r.lt e.1 e.2 ((HMap.get_eq_some r.valid).mpr ((o.perm _).mem_iff.mp he))) t
    have hb : buildSets stack o.f (s, t) = (out, (s', t + n)) := h1
    have h2 : ∃ out', iterate stack o.f o'.f (s, t) = (out', (s', t + n)) := by
      cases out with
      | ok m => exact ⟨_, by rw [iterate, M.bind_ok hb]; rfl⟩
      | error e => exact ⟨_, by rw [iterate, M.bind_error hb]⟩
    obtain ⟨out', h2⟩ := h2
    obtain ⟨out'', h3⟩ := wrap_cost (f := (Out.groups : List (List T) → Out T)) h2
    refine ⟨out'', s', n, h3, ?_⟩
    have hlen : (o.f s.ids.entries).length = b.card := by rw [(o.perm _).length_eq]; exact hc
    rw [hlen] at c
    simp only [Op.searches]
    rw [Nat.mul_comm (a + 2)]
    omega

theorem run_cost [Cfg] {a stack : Nat} {s : DSet T} {b : Abs T} (r : Rel s b) (ops : List (Op T))
    (hm : ∀ pre, pre <+: ops → (b.run pre).card ≤ usizeMax)
    (hs : ∀ pre, pre <+: ops → (b.run pre).card < 2 ^ stack)
    (ha : ∀ pre, pre <+: ops → (b.run pre).card ≤ A a 1) (t : Nat) :
    ∃ n s', (run stack ops (s, t)).2 = (s', t + n) ∧
      n + Phi a s'.dataById ≤ Phi a s.dataById + ((a + 2) * searches b ops + a * links ops) := by
  induction ops generalizing s b t with
  | nil => exact ⟨0, s, rfl, by omega⟩
  | cons op ops ih =>
    have e1 := hm [op] ⟨ops, rfl⟩
    have e2 := hs [op] ⟨ops, rfl⟩
    have e3 := ha [op] ⟨ops, rfl⟩
    obtain ⟨out, s1, n1, h1, c1⟩ := step_cost (a := a) (stack := stack) r op e1 e2 e3 t
    obtain ⟨out', s1', h1', r1, _⟩ := step_ok (stack := stack) r op e1 e2
    obtain ⟨n, hn⟩ := erases_step stack op s t
    rw [h1'] at hn
    rw [h1] at hn
    have hs1 : s1 = s1' := congrArg (fun q => q.2.1) hn
    subst hs1
    have tail : ∀ pre, pre <+: ops → (op :: pre) <+: (op :: ops) := fun pre hp =>
      List.prefix_cons_inj op |>.mpr hp
    obtain ⟨n2, s2, h2, c2⟩ := ih r1 (fun pre hp => hm _ (tail pre hp)) (fun pre hp => hs _ (tail pre hp))
      (fun pre hp => ha _ (tail pre hp)) (t + n1)
    refine ⟨n1 + n2, s2, ?_, ?_⟩
    · rw [run]; simp only [h1, h2, Nat.add_assoc]
    · simp only [searches, links, List.map_cons, List.sum_cons, Nat.mul_add]
      simp only [links] at c2
      omega

end Counted
end DS
