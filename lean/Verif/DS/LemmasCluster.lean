import Verif.DS.SpecCluster
import Verif.DS.LemmasParity
import Verif.DS.LemmasForest
import Verif.DS.LemmasAutomata
import Mathlib.Data.Fintype.EquivFin
/-!
# Lemmas on groups that are far apart
-/

open Rust
namespace DS

section
variable {T : Type} [DecidableEq T]

omit [DecidableEq T] in
/-- the elements of one group are in no other -/
theorem Grouping.same {points : List T} {gs : List (List T)} (h : Grouping points gs) {i j : Nat} (hi : i < gs.length)
    (hj : j < gs.length) {x : T} (xi : x ∈ gs[i]) (xj : x ∈ gs[j]) : i = j := by
  have hd := (List.nodup_flatten.mp h.once).2
  rcases Nat.lt_trichotomy i j with hlt | he | hlt
  · exact absurd xj (List.disjoint_left.mp (List.pairwise_iff_getElem.mp hd i j hi hj hlt) xi)
  · exact he
  · exact absurd xi (List.disjoint_left.mp (List.pairwise_iff_getElem.mp hd j i hj hi hlt) xj)

omit [DecidableEq T] in
/-- If every group of `gs` lies in one of as many groups of `hs`, then points separated by `gs` are separated by `hs`. -/
theorem separated_of_refines {points : List T} {gs hs : List (List T)} (hg : Grouping points gs) (hh : Grouping points hs)
    (hlen : hs.length = gs.length) (sub : ∀ g ∈ gs, ∀ p ∈ g, ∀ q ∈ g, ∃ h ∈ hs, p ∈ h ∧ q ∈ h) {p q : T}
    (hs' : Separated gs p q) : Separated hs p q := by
  obtain ⟨hp, hq, hn⟩ := hs'
  refine ⟨(hh.all p).mpr ((hg.all p).mp hp), (hh.all q).mpr ((hg.all q).mp hq), ?_⟩
  rintro ⟨h0, m0, p0, q0⟩
  -- a member of every group of `hs`, and the group of `gs` it is in
  have pickE : ∀ i : Fin gs.length, ∃ x, x ∈ hs[i.val]'(by omega) := fun i =>
    List.exists_mem_of_ne_nil _ (hh.nonempty _ (List.getElem_mem _))
  choose e he using pickE
  have pickG : ∀ i : Fin gs.length, ∃ j : Fin gs.length, e i ∈ gs[j.val] := fun i => by
    have : e i ∈ gs.flatten := (hg.all _).mpr ((hh.all _).mp (List.mem_flatten.mpr ⟨_, List.getElem_mem _, he i⟩))
    obtain ⟨g, m, x⟩ := List.mem_flatten.mp this
    obtain ⟨j, hj, rfl⟩ := List.getElem_of_mem m
    exact ⟨⟨j, hj⟩, x⟩
  choose f hf using pickG
  have inj : Function.Injective f := fun i i' hii => by
    have h1 := hf i
    have h2 := hf i'
    rw [hii] at h1
    obtain ⟨h, m, x, y⟩ := sub _ (List.getElem_mem _) _ h1 _ h2
    obtain ⟨l, hl, rfl⟩ := List.getElem_of_mem m
    have a1 := hh.same hl (by omega) x (he i)
    have a2 := hh.same hl (by omega) y (he i')
    exact Fin.ext (a1.symm.trans a2)
  have sur := Finite.injective_iff_surjective.mp inj
  obtain ⟨l0, hl0, rfl⟩ := List.getElem_of_mem m0
  -- the group of `gs` of a point of the group `l0` of `hs` is the one found for `l0`
  have key : ∀ x, x ∈ gs.flatten → x ∈ hs[l0] → x ∈ gs[(f ⟨l0, by omega⟩).val] := fun x hx hx0 => by
    obtain ⟨g, m, xg⟩ := List.mem_flatten.mp hx
    obtain ⟨j, hj, rfl⟩ := List.getElem_of_mem m
    obtain ⟨i, hi⟩ := sur ⟨j, hj⟩
    have h1 := hf i
    rw [hi] at h1
    obtain ⟨h, m', x', y'⟩ := sub _ (List.getElem_mem _) _ xg _ h1
    obtain ⟨l, hl, rfl⟩ := List.getElem_of_mem m'
    have a1 := hh.same hl hl0 x' hx0
    have a2 := hh.same hl (by omega) y' (he i)
    have h3 : f ⟨l0, by omega⟩ = ⟨j, hj⟩ := by rw [← hi]; exact congrArg f (Fin.ext (a1.symm.trans a2))
    simpa only [h3] using xg
  exact hn ⟨_, List.getElem_mem _, key p hp p0, key q hq q0⟩

omit [DecidableEq T] in
/-- of all separated points some are closest -/
theorem closest {gs : List (List T)} (dist : T → T → Nat) (h : ∃ p q, Separated gs p q) :
    ∃ p q, Separated gs p q ∧ ∀ p' q', Separated gs p' q' → dist p q ≤ dist p' q' := by
  classical
  have hex : ∃ n, ∃ p q, Separated gs p q ∧ dist p q = n := by
    obtain ⟨p, q, hs⟩ := h
    exact ⟨_, p, q, hs, rfl⟩
  obtain ⟨p, q, h1, h2⟩ := Nat.find_spec hex
  exact ⟨p, q, h1, fun p' q' hs => by rw [h2]; exact Nat.find_min' hex ⟨p', q', hs, rfl⟩⟩

omit [DecidableEq T] in
/-- connected points are in one group if the pairs are -/
theorem conn_together {points : List T} {hs : List (List T)} (hh : Grouping points hs) {ps : List (T × T)}
    (h : ∀ p ∈ ps, ∃ g ∈ hs, p.1 ∈ g ∧ p.2 ∈ g) {x y : T} (hc : Conn ps x y) :
    x = y ∨ ∃ g ∈ hs, x ∈ g ∧ y ∈ g := by
  induction hc with
  | refl a => exact .inl rfl
  | step hp => exact .inr (h _ hp)
  | symm _ ih =>
    rcases ih with rfl | ⟨g, m, a, b⟩
    · exact .inl rfl
    · exact .inr ⟨g, m, b, a⟩
  | trans _ _ ih1 ih2 =>
    rcases ih1 with rfl | ⟨g, m, a, b⟩
    · exact ih2
    · rcases ih2 with rfl | ⟨g', m', b', c⟩
      · exact .inr ⟨g, m, a, b⟩
      · obtain ⟨i, hi, rfl⟩ := List.getElem_of_mem m
        obtain ⟨j, hj, rfl⟩ := List.getElem_of_mem m'
        obtain rfl := hh.same hi hj b b'
        exact .inr ⟨_, m, a, c⟩

variable [Cfg]

/-- the loop unites the pairs of a prefix -/
theorem unite_ok {stack : Nat} (hk : 64 ≤ stack) {points : List T} (small : points.dedup.length ≤ usizeMax) {wanted : Nat}
    (ps : List (T × T)) : ∀ {s : DSet T} {a : Abs T} (groups : Nat), Rel s a → (∀ x, x ∈ a.elems ↔ x ∈ points) →
      (∀ p ∈ ps, p.1 ∈ points ∧ p.2 ∈ points) → groups + a.joins = a.card → wanted ≤ groups →
      ∃ s' a' pre post, unite stack wanted ps groups s = (.ok (), s') ∧ Rel s' a' ∧ (∀ x, x ∈ a'.elems ↔ x ∈ points) ∧
        ps = pre ++ post ∧ (∀ p ∈ a'.pairs, p ∈ pre ∨ p ∈ a.pairs) ∧ (∀ p ∈ a.pairs, p ∈ a'.pairs) ∧
        (∀ p ∈ pre, Conn a'.pairs p.1 p.2) ∧ a'.joins + wanted ≤ a'.card ∧
        (a'.joins + wanted = a'.card ∨ post = []) := by
  induction ps with
  | nil =>
    intro s a groups r he _ hg hw
    exact ⟨s, a, [], [], rfl, r, he, rfl, fun p h => .inr h, fun p h => h, by simp, by omega, .inr rfl⟩
  | cons p ps ih =>
    intro s a groups r he hp hg hw
    rw [unite]
    by_cases hle : groups ≤ wanted
    · rw [if_pos hle]
      exact ⟨s, a, [], p :: ps, rfl, r, he, rfl, fun p h => .inr h, fun p h => h, by simp, by omega, .inl (by omega)⟩
    · rw [if_neg hle]
      have hcard : a.card ≤ usizeMax := Nat.le_trans (card_le fun x hx => (he x).mp hx) small
      obtain ⟨b, s1, h1, tw, h2⟩ := inUnion_ok (stack := stack) r (by rw [r.card]; exact lt_two_pow hcard hk) p.1 p.2
      rw [M.bind_ok h1]
      have hp0 := hp p List.mem_cons_self
      have hps : ∀ p ∈ ps, p.1 ∈ points ∧ p.2 ∈ points := fun q hq => hp q (List.mem_cons_of_mem _ hq)
      cases b with
      | true =>
        obtain ⟨s', a', pre, post, g1, g2, g3, g4, g5, g6, g7, g8, g9⟩ := ih groups (tw.rel r) he hps hg hw
        refine ⟨s', a', p :: pre, post, g1, g2, g3, by rw [g4]; rfl, fun q hq => ?_, g6, fun q hq => ?_, g8, g9⟩
        · rcases g5 q hq with h | h
          · exact .inl (List.mem_cons_of_mem _ h)
          · exact .inr h
        · rcases List.mem_cons.mp hq with rfl | hq
          · exact conn_mono g6 (h2.mp rfl).2.2
          · exact g7 q hq
      | false =>
        have hn : ¬ Conn a.pairs p.1 p.2 := fun h => by
          simpa using h2.mpr ⟨(he _).mpr hp0.1, (he _).mpr hp0.2, h⟩
        have e1 : ∀ z, z ∈ (a.step (.union p.1 p.2 false false)).elems ↔ z ∈ points := fun z => by
          rw [← he z]
          have x1 := (he _).mpr hp0.1
          have x2 := (he _).mpr hp0.2
          simp only [Abs.step, Bool.false_eq_true, if_false, List.mem_cons]
          constructor
          · rintro (rfl | rfl | h) <;> assumption
          · exact fun h => .inr (.inr h)
        have p1 : (a.step (.union p.1 p.2 false false)).pairs = p :: a.pairs := by simp [Abs.step]
        have j1 : (a.step (.union p.1 p.2 false false)).joins = a.joins + 1 := by simp [Abs.step, hn]
        have c1 : (a.step (.union p.1 p.2 false false)).card = a.card :=
          Nat.le_antisymm (card_le fun x hx => (he x).mpr ((e1 x).mp hx)) (card_le fun x hx => (e1 x).mpr ((he x).mp hx))
        obtain ⟨s2, u1, r2⟩ := union_run hk (tw.rel r) p.1 p.2 (by rw [c1]; exact hcard)
        simp only [Bool.false_eq_true, if_false]
        rw [M.bind_ok u1]
        have hsub : (M.lift (usub groups 1) : M (DSet T) Nat) s2 = (.ok (groups - 1), s2) := by
          rw [usub_ok (by omega)]; rfl
        rw [M.bind_ok hsub]
        generalize a.step (.union p.1 p.2 false false) = a1 at *
        obtain ⟨s', a', pre, post, g1, g2, g3, g4, g5, g6, g7, g8, g9⟩ := ih (groups - 1) r2 e1 hps (by omega) (by omega)
        refine ⟨s', a', p :: pre, post, g1, g2, g3, by rw [g4]; rfl, fun q hq => ?_, fun q hq => ?_, fun q hq => ?_, g8, g9⟩
        · rcases g5 q hq with h | h
          · exact .inl (List.mem_cons_of_mem _ h)
          · rw [p1] at h
            rcases List.mem_cons.mp h with rfl | h
            · exact .inl List.mem_cons_self
            · exact .inr h
        · exact g6 q (by rw [p1]; exact List.mem_cons_of_mem _ hq)
        · rcases List.mem_cons.mp hq with rfl | hq
          · exact .step (g6 q (by rw [p1]; exact List.mem_cons_self))
          · exact g7 q hq

/-- the program returns the groups that the pairs of a prefix connect -/
theorem cluster_ok {stack : Nat} (hk : 64 ≤ stack) {points : List T} (small : points.dedup.length ≤ usizeMax)
    {wanted : Nat} {pairs : List (T × T)} (o : Shuffle (T × Nat)) (o' : Shuffle (Nat × List T))
    (hp : ∀ p ∈ pairs, p.1 ∈ points ∧ p.2 ∈ points)
    (hall : ∀ p ∈ points, ∀ q ∈ points, p ≠ q → (p, q) ∈ pairs ∨ (q, p) ∈ pairs) (h1 : 1 ≤ wanted)
    (hw : wanted ≤ points.dedup.length) :
    ∃ gs pre post joined, cluster stack wanted o.f o'.f points pairs = .ok gs ∧ Grouping points gs ∧ gs.length = wanted ∧
      pairs = pre ++ post ∧ (∀ p ∈ joined, p ∈ pre) ∧ (∀ p ∈ pre, Conn joined p.1 p.2) ∧
      ∀ x y, (∃ g ∈ gs, x ∈ g ∧ y ∈ g) ↔ x ∈ points ∧ y ∈ points ∧ Conn joined x y := by
  obtain ⟨s, e1, r⟩ := extendLoop_ok points false (rel_new (T := T))
  have e2 : DSet.fromIter points false = .ok s := by rw [DSet.fromIter, fromIterLoop_eq, e1]; rfl
  have he : ∀ x, x ∈ ({ (Abs.new : Abs T) with elems := points.reverse ++ (Abs.new : Abs T).elems }).elems ↔ x ∈ points :=
    fun x => by simp [Abs.new]
  have hpairs : ({ (Abs.new : Abs T) with elems := points.reverse ++ (Abs.new : Abs T).elems }).pairs = [] := rfl
  have hj : ({ (Abs.new : Abs T) with elems := points.reverse ++ (Abs.new : Abs T).elems }).joins = 0 := rfl
  generalize ({ (Abs.new : Abs T) with elems := points.reverse ++ (Abs.new : Abs T).elems } : Abs T) = a at *
  have cEq : ∀ b : Abs T, (∀ x, x ∈ b.elems ↔ x ∈ points) → b.card = points.dedup.length := fun b hb =>
    Nat.le_antisymm (card_le fun x hx => (hb x).mp hx) (card_le fun x hx => (hb x).mpr hx)
  have hlen : s.len = points.dedup.length := by rw [← cEq a he]; exact r.card
  obtain ⟨s', a', pre, post, g1, g2, g3, g4, g5, _, g7, g8, g9⟩ := unite_ok hk small (wanted := wanted) pairs s.len r he hp
    (by rw [hlen, hj, cEq a he]; rfl) (by omega)
  have hc : s'.ids.len < 2 ^ stack := by rw [g2.card, cEq a' g3]; exact lt_two_pow small hk
  obtain ⟨s'', i1, _⟩ := iterate_ok (stack := stack) g2 hc o o'
  obtain ⟨⟨q1, q2, q3, q4⟩, q5⟩ := groups_partition g2 o o'
  generalize groupsOf s' o o' = gs at *
  have run : cluster stack wanted o.f o'.f points pairs = .ok gs := by
    rw [cluster, e2]
    show ((do unite stack wanted pairs s.len; DSet.iterate stack o.f o'.f : M (DSet T) _) s).1 = _
    rw [M.bind_ok g1, i1]
  have same : ∀ x y, (∃ g ∈ gs, x ∈ g ∧ y ∈ g) ↔ x ∈ points ∧ y ∈ points ∧ Conn a'.pairs x y := fun x y => by
    rw [q4, Abs.Same, g3, g3]
  have grp : Grouping points gs := ⟨q1, q2, fun x => by rw [q3, g3]⟩
  refine ⟨gs, pre, post, a'.pairs, run, grp, ?_, g4, fun p h => ?_, g7, same⟩
  · rcases g9 with g9 | rfl
    · omega
    · -- all pairs are united: there is one group at most
      have one : gs.length ≤ 1 := by
        by_contra hgt
        have hx := List.exists_mem_of_ne_nil _ (q1 (gs[0]'(by omega)) (List.getElem_mem _))
        have hy := List.exists_mem_of_ne_nil _ (q1 (gs[1]'(by omega)) (List.getElem_mem _))
        obtain ⟨x, hx⟩ := hx
        obtain ⟨y, hy⟩ := hy
        have px : x ∈ points := (grp.all x).mp (List.mem_flatten.mpr ⟨_, List.getElem_mem _, hx⟩)
        have py : y ∈ points := (grp.all y).mp (List.mem_flatten.mpr ⟨_, List.getElem_mem _, hy⟩)
        have hconn : Conn a'.pairs x y := by
          by_cases hxy : x = y
          · exact hxy ▸ .refl _
          · rw [g4, List.append_nil] at hall
            rcases hall x px y py hxy with h | h
            · exact g7 _ h
            · exact .symm (g7 _ h)
        obtain ⟨g, m, xg, yg⟩ := (same x y).mpr ⟨px, py, hconn⟩
        obtain ⟨j, hj', rfl⟩ := List.getElem_of_mem m
        have a1 := grp.same hj' (by omega) xg hx
        have a2 := grp.same hj' (by omega) yg hy
        omega
      omega
  · rcases g5 p h with h | h
    · exact h
    · rw [hpairs] at h; cases h

end

end DS
