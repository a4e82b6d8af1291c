import Verif.DS.SpecLattice
import Verif.DS.PropsLocal
import Verif.DS.LemmasForest
import Mathlib.Logic.Relation
/-!
# C130: the join and the meet of two partitions
-/

open Rust
namespace DS
section
variable {T : Type} [DecidableEq T] [Cfg]

/-- some calls lead from one state to another, with no elements outside of `all` on the way -/
def Way (k : Nat) (all : List T) (s : DSet T) (a : Abs T) (s' : DSet T) (a' : Abs T) : Prop :=
  ∃ later, (run k later s).2 = s' ∧ a.run later = a' ∧ ∀ pre, pre <+: later → ∀ x ∈ (a.run pre).elems, x ∈ all

theorem Way.refl {k : Nat} {all : List T} {s : DSet T} {a : Abs T} (h : ∀ x ∈ a.elems, x ∈ all) : Way k all s a s a :=
  ⟨[], rfl, rfl, fun pre hp => by rw [List.prefix_nil.mp hp]; exact h⟩

theorem Way.step {k : Nat} {all : List T} {s s1 s' : DSet T} {a a' : Abs T} {op : Op T} {r : Except Fault (Out T)}
    (hs : step k op s = (r, s1)) (ha : ∀ x ∈ a.elems, x ∈ all) (h : Way k all s1 (a.step op) s' a') : Way k all s a s' a' := by
  obtain ⟨later, h1, h2, h3⟩ := h
  refine ⟨op :: later, by simp only [run, hs]; exact h1, h2, fun pre hp => ?_⟩
  cases pre with
  | nil => exact ha
  | cons o pre =>
    obtain ⟨ho, hp'⟩ := List.cons_prefix_cons.mp hp
    rw [ho]
    exact h3 pre hp'

theorem Way.trans {k : Nat} {all : List T} {s s1 s' : DSet T} {a a1 a' : Abs T} (h : Way k all s a s1 a1)
    (h' : Way k all s1 a1 s' a') : Way k all s a s' a' := by
  obtain ⟨l, h1, h2, h3⟩ := h
  obtain ⟨l', g1, g2, g3⟩ := h'
  refine ⟨l ++ l', by rw [run_append, h1, g1], by rw [← g2, ← h2, Abs.run, Abs.run, Abs.run, List.foldl_append],
    fun pre hp => ?_⟩
  rcases List.prefix_or_prefix_of_prefix hp (List.prefix_append l l') with hq | hq
  · exact h3 pre hq
  · obtain ⟨zs, rfl⟩ := hq
    have := g3 zs ((List.prefix_append_right_inj l).mp hp)
    rw [← h2] at this
    rw [Abs.run, List.foldl_append]; exact this

theorem Way.reached {k : Nat} {all : List T} {st : Start T} {ops : List (Op T)} {s s' : DSet T} {a a' : Abs T}
    (hall : all.dedup.length ≤ usizeMax) (h : Reached k st ops s a) (hw : Way k all s a s' a') :
    ∃ later, Reached k st (ops ++ later) s' a' := by
  obtain ⟨later, h1, h2, h3⟩ := hw
  have := h.after later fun pre hp => Nat.le_trans (card_le (h3 pre hp)) hall
  rw [h1, h2] at this
  exact ⟨later, this⟩

theorem makeSet_way {k : Nat} {all : List T} {s : DSet T} {a : Abs T} (r : Rel s a) {x : T} (hx : x ∈ all)
    (ha : ∀ x ∈ a.elems, x ∈ all) :
    ∃ s' a', DSet.makeSet x false s = (.ok (), s') ∧ Rel s' a' ∧ Way k all s a s' a' ∧ a'.elems = x :: a.elems ∧
      a'.pairs = a.pairs := by
  obtain ⟨i, s', h1, _, h2, _⟩ := makeOrGetSet_ok r x
  have e : DSet.makeSet x false s = (.ok (), s') := by
    unfold DSet.makeSet
    rw [M.bind_ok h1]
    rfl
  have e2 : step k (.makeSet x false) s = (.ok .unit, s') := by
    show wrap _ _ s = _
    unfold wrap
    rw [e]
  refine ⟨s', a.step (.makeSet x false), e, by simpa [Abs.step] using h2, .step e2 ha (.refl ?_), by simp [Abs.step],
    by simp [Abs.step]⟩
  intro y hy
  have hy : y = x ∨ y ∈ a.elems := by simpa [Abs.step] using hy
  rcases hy with rfl | hy
  · exact hx
  · exact ha y hy

theorem union_way {k : Nat} (hk : 64 ≤ k) {all : List T} (hall : all.dedup.length ≤ usizeMax) {s : DSet T} {a : Abs T}
    (r : Rel s a) {x y : T} (hx : x ∈ all) (hy : y ∈ all) (ha : ∀ x ∈ a.elems, x ∈ all) :
    ∃ s' a', DSet.union k x y false false s = (.ok (), s') ∧ Rel s' a' ∧ Way k all s a s' a' ∧
      a'.elems = y :: x :: a.elems ∧ a'.pairs = (x, y) :: a.pairs := by
  have el : (a.step (.union x y false false)).elems = y :: x :: a.elems := by simp [Abs.step]
  have sub : ∀ z ∈ (a.step (.union x y false false)).elems, z ∈ all := by
    intro z hz
    rw [el] at hz
    rcases List.mem_cons.mp hz with rfl | hz
    · exact hy
    rcases List.mem_cons.mp hz with rfl | hz
    · exact hx
    · exact ha z hz
  have hm : (a.step (.union x y false false)).card ≤ usizeMax := Nat.le_trans (card_le sub) hall
  obtain ⟨out, s', h1, h2, h3⟩ := step_ok (stack := k) r (.union x y false false) hm (lt_two_pow hm hk)
  have h4 : out = .ok .unit := h3
  subst h4
  refine ⟨s', _, ?_, h2, .step h1 ha (.refl sub), el, by simp [Abs.step]⟩
  have h5 : wrap (fun _ => Out.unit) (DSet.union k x y false false) s = (.ok .unit, s') := h1
  unfold wrap at h5
  cases hq : DSet.union k x y false false s with
  | mk q t =>
    rw [hq] at h5
    cases q with
    | ok u => cases h5; rfl
    | error e => cases h5

omit [DecidableEq T] [Cfg] in
theorem onFirst_ok {β : Type} {m : M (DSet T) β} {s s' t : DSet T} {b : β} (h : m s = (.ok b, s')) :
    onFirst m (s, t) = (.ok b, (s', t)) := by unfold onFirst; rw [h]

omit [DecidableEq T] [Cfg] in
theorem onSecond_ok {β : Type} {m : M (DSet T) β} {s t t' : DSet T} {b : β} (h : m t = (.ok b, t')) :
    onSecond m (s, t) = (.ok b, (s, t')) := by unfold onSecond; rw [h]

theorem uniteAll_ok {k : Nat} (hk : 64 ≤ k) {all : List T} (hall : all.dedup.length ≤ usizeMax) {x : T} (hx : x ∈ all)
    (t : DSet T) : ∀ (ys : List T) {s : DSet T} {a : Abs T}, Rel s a → x ∈ a.elems → (∀ z ∈ a.elems, z ∈ all) →
    (∀ y ∈ ys, y ∈ all) → ∃ s' a', uniteAll k x ys (s, t) = (.ok (), (s', t)) ∧ Rel s' a' ∧ Way k all s a s' a' ∧
      (∀ z, z ∈ a'.elems ↔ z ∈ a.elems ∨ z ∈ ys) ∧ ∀ p, p ∈ a'.pairs ↔ p ∈ a.pairs ∨ p ∈ ys.map fun y => (x, y)
  | [], s, a, r, _, ha, _ => ⟨s, a, rfl, r, .refl ha, by simp, by simp⟩
  | y :: ys, s, a, r, hxa, ha, hy => by
    obtain ⟨s1, a1, e1, r1, w1, el1, pa1⟩ := union_way hk hall r hx (hy y (by simp)) ha
    obtain ⟨s2, a2, e2, r2, w2, el2, pa2⟩ := uniteAll_ok hk hall hx t ys r1 (by rw [el1]; simp)
      (by
        intro z hz
        rw [el1] at hz
        rcases List.mem_cons.mp hz with rfl | hz
        · exact hy _ (by simp)
        rcases List.mem_cons.mp hz with rfl | hz
        · exact hx
        · exact ha z hz)
      (fun z hz => hy z (by simp [hz]))
    refine ⟨s2, a2, ?_, r2, w1.trans w2, fun z => ?_, fun p => ?_⟩
    · unfold uniteAll
      rw [M.bind_ok (onFirst_ok e1), e2]
    · rw [el2, el1]
      simp only [List.mem_cons]
      constructor
      · rintro ((h | rfl | h) | h)
        · exact .inr (.inl h)
        · exact .inl hxa
        · exact .inl h
        · exact .inr (.inr h)
      · rintro (h | h | h)
        · exact .inl (.inr (.inr h))
        · exact .inl (.inl h)
        · exact .inr h
    · rw [pa2, pa1]
      simp only [List.mem_cons, List.map_cons]
      tauto

/-- the pairs a join unites: the first element of each group with every other -/
def star : List (List T) → List (T × T)
  | [] => []
  | [] :: gs => star gs
  | (x :: xs) :: gs => (xs.map fun y => (x, y)) ++ star gs

omit [DecidableEq T] [Cfg] in
/-- a star connects exactly the members of each group -/
theorem star_pair : ∀ (gs : List (List T)) {p : T × T}, p ∈ star gs → ∃ g ∈ gs, p.1 ∈ g ∧ p.2 ∈ g
  | [] :: gs, p, h => by
    obtain ⟨g, h1, h2⟩ := star_pair gs (p := p) h
    exact ⟨g, by simp [h1], h2⟩
  | (x :: xs) :: gs, p, h => by
    rcases List.mem_append.mp h with h | h
    · obtain ⟨y, hy, rfl⟩ := List.mem_map.mp h
      exact ⟨x :: xs, by simp, by simp, by simp [hy]⟩
    · obtain ⟨g, h1, h2⟩ := star_pair gs h
      exact ⟨g, by simp [h1], h2⟩

omit [Cfg] in
theorem conn_star : ∀ (gs : List (List T)) {g : List T}, g ∈ gs → ∀ {x y : T}, x ∈ g → y ∈ g → Conn (star gs) x y
  | [] :: gs, g, hg, x, y, hx, hy => by
    rcases List.mem_cons.mp hg with rfl | hg
    · cases hx
    · exact conn_star gs hg hx hy
  | (z :: zs) :: gs, g, hg, x, y, hx, hy => by
    rcases List.mem_cons.mp hg with rfl | hg
    · have : ∀ {u}, u ∈ z :: zs → Conn (star ((z :: zs) :: gs)) z u := by
        intro u hu
        rcases List.mem_cons.mp hu with rfl | hu
        · exact .refl _
        · exact .step (List.mem_append_left _ (List.mem_map.mpr ⟨u, hu, rfl⟩))
      exact .trans (.symm (this hx)) (this hy)
    · exact conn_mono (fun p hp => List.mem_append_right _ hp) (conn_star gs hg hx hy)

theorem joinGroups_ok {k : Nat} (hk : 64 ≤ k) {all : List T} (hall : all.dedup.length ≤ usizeMax)
    (t : DSet T) : ∀ (gs : List (List T)) {s : DSet T} {a : Abs T}, Rel s a → (∀ z ∈ a.elems, z ∈ all) →
    (∀ g ∈ gs, g ≠ []) → (∀ y ∈ gs.flatten, y ∈ all) →
    ∃ s' a', joinGroups k gs (s, t) = (.ok (), (s', t)) ∧ Rel s' a' ∧ Way k all s a s' a' ∧
      (∀ z, z ∈ a'.elems ↔ z ∈ a.elems ∨ z ∈ gs.flatten) ∧ ∀ p, p ∈ a'.pairs ↔ p ∈ a.pairs ∨ p ∈ star gs
  | [], s, a, r, ha, _, _ => ⟨s, a, rfl, r, .refl ha, by simp, by simp [star]⟩
  | [] :: gs, _, _, _, _, hne, _ => absurd rfl (hne [] (by simp))
  | (x :: xs) :: gs, s, a, r, ha, hne, hy => by
    have hx : x ∈ all := hy x (by simp)
    have grow : ∀ {a1 : Abs T}, a1.elems = x :: a.elems → ∀ z ∈ a1.elems, z ∈ all := by
      intro a1 h z hz
      rw [h] at hz
      rcases List.mem_cons.mp hz with rfl | hz
      · exact hx
      · exact ha z hz
    obtain ⟨s1, a1, e1, r1, w1, el1, pa1⟩ := makeSet_way (k := k) r hx ha
    obtain ⟨s2, a2, e2, r2, w2, el2, pa2⟩ := uniteAll_ok hk hall hx t xs r1 (by rw [el1]; simp) (grow el1)
      (fun z hz => hy z (by simp [hz]))
    obtain ⟨s3, a3, e3, r3, w3, el3, pa3⟩ := joinGroups_ok hk hall t gs r2
      (fun z hz => by
        rcases (el2 z).mp hz with h | h
        · exact grow el1 z h
        · exact hy z (by simp [h]))
      (fun g hg => hne g (by simp [hg])) (fun z hz => hy z (by
        rw [List.flatten_cons]; exact List.mem_append_right _ hz))
    refine ⟨s3, a3, ?_, r3, (w1.trans w2).trans w3, fun z => ?_, fun p => ?_⟩
    · unfold joinGroups
      rw [M.bind_ok (onFirst_ok e1), M.bind_ok e2, e3]
    · rw [el3, el2, el1]
      simp only [List.mem_cons, List.flatten_cons, List.mem_append]
      tauto
    · rw [pa3, pa2, pa1, star, List.mem_append]
      tauto

/-- **C130 (join).** Uniting in one disjoint set all groups of another never panics. Afterwards the first contains what either
contained, and two of its elements are united exactly if a chain of unions, each known to one or the other, leads from one
to the other. The second answers as before, and all later calls on the first behave as on any other disjoint set. -/
theorem c130_join {k : Nat} {st st' : Start T} {ops ops' : List (Op T)} {s t : DSet T} {a b : Abs T}
    (h : Reached k st ops s a) (h' : Reached k st' ops' t b) (o : Shuffle (T × Nat)) (o' : Shuffle (Nat × List T))
    (small : (a.elems ++ b.elems).dedup.length ≤ usizeMax) :
    ∃ s' t' a' later, join k o.f o'.f (s, t) = (.ok (), (s', t')) ∧ Reached k st (ops ++ later) s' a' ∧
      (∀ x, Has s' x ↔ Has s x ∨ Has t x) ∧
      (∀ x y, Together k s' x y ↔
        Has s' x ∧ Has s' y ∧ Relation.EqvGen (fun u v => Together k s u v ∨ Together k t u v) x y) ∧
      ∀ x y, (Together k t' x y ↔ Together k t x y) ∧ (Has t' x ↔ Has t x) := by
  have hc : t.ids.len < 2 ^ k := by rw [h'.rel.card]; exact lt_two_pow h'.small_now h'.stack_ge
  obtain ⟨t', i1, tw⟩ := iterate_ok (stack := k) h'.rel hc o o'
  obtain ⟨⟨p1, p2, p3, p4⟩, _⟩ := groups_partition h'.rel o o'
  obtain ⟨s', a', e, r, w, el, pa⟩ := joinGroups_ok h.stack_ge small t' (groupsOf t o o') h.rel
    (fun z hz => List.mem_append_left _ hz) p1 (fun z hz => List.mem_append_right _ ((p3 z).mp hz))
  obtain ⟨later, hr⟩ := w.reached small h
  have has : ∀ x, Has s' x ↔ Has s x ∨ Has t x := by
    intro x
    rw [hr.has, h.has, h'.has, el, p3]
  refine ⟨s', t', a', later, ?_, hr, has, fun x y => ?_, ?_⟩
  · unfold join
    rw [M.bind_ok (onSecond_ok i1), e]
  · rw [hr.together, hr.has, hr.has]
    refine and_congr_right fun hx => and_congr_right fun hy => ?_
    constructor
    · intro hcn
      induction hcn with
      | refl u => exact .refl u
      | @step u v hp =>
        refine .rel _ _ ?_
        rcases (pa _).mp hp with hp | hp
        · left
          rw [h.together]
          exact ⟨(h.rel.pairs _ hp).1, (h.rel.pairs _ hp).2, .step hp⟩
        · right
          rw [h'.together]
          exact (p4 u v).mp (star_pair _ hp)
      | symm h1 ih =>
        exact .symm _ _ (ih hy hx)
      | @trans u v w h1 h2 ih1 ih2 =>
        have hv : v ∈ a'.elems := by
          rcases conn_support r.pairs h1 with rfl | h
          · exact hx
          · exact h.2
        exact .trans _ _ _ (ih1 hx hv) (ih2 hv hy)
    · intro hg
      clear hx hy
      induction hg with
      | rel u v huv =>
        rcases huv with huv | huv
        · rw [h.together] at huv
          exact conn_mono (fun p hp => (pa p).mpr (.inl hp)) huv.2.2
        · rw [h'.together] at huv
          obtain ⟨g, hg, hu, hv⟩ := (p4 u v).mpr huv
          exact conn_mono (fun p hp => (pa p).mpr (.inr hp)) (conn_star _ hg hu hv)
      | refl u => exact .refl u
      | symm _ _ _ ih => exact .symm ih
      | trans _ _ _ _ _ ih1 ih2 => exact .trans ih1 ih2
  · intro x y
    have ht : t'.ids.len < 2 ^ k := by rw [tw.ids]; exact hc
    obtain ⟨b1, _, q1, _, q2⟩ := inUnion_ok (stack := k) (tw.rel h'.rel) ht x y
    refine ⟨?_, ?_⟩
    · rw [h'.together, ← q2, Together, q1]
      exact ⟨fun h => by cases h; rfl, fun h => by rw [h]⟩
    · show Except.ok (t'.ids.containsKey x) = Except.ok true ↔ Except.ok (t.ids.containsKey x) = Except.ok true
      rw [tw.ids]

/-! ### the meet -/

omit [DecidableEq T] [Cfg] in
theorem Twin.len {k : Nat} {t t' : DSet T} (h : Twin t t') (hc : t.ids.len < 2 ^ k) : t'.ids.len < 2 ^ k := by
  rw [h.ids]; exact hc

theorem meetWith_ok {k : Nat} (hk : 64 ≤ k) {all : List T} (hall : all.dedup.length ≤ usizeMax) {x : T} (hx : x ∈ all)
    {b : Abs T} : ∀ (ys : List T) {t c : DSet T} {a : Abs T}, Rel t b → t.ids.len < 2 ^ k → Rel c a →
    (∀ z ∈ a.elems, z ∈ all) → (∀ y ∈ ys, y ∈ all) →
    ∃ t' c' a', meetWith k x ys (t, c) = (.ok (), (t', c')) ∧ Twin t t' ∧ Rel c' a' ∧ Way k all c a c' a' ∧
      (∀ z, z ∈ a'.elems ↔ z ∈ a.elems ∨ ∃ y ∈ ys, b.Same x y ∧ (z = x ∨ z = y)) ∧
      ∀ p, p ∈ a'.pairs ↔ p ∈ a.pairs ∨ ∃ y ∈ ys, b.Same x y ∧ p = (x, y)
  | [], t, c, a, rt, _, rc, ha, _ => ⟨t, c, a, rfl, .refl rt, rc, .refl ha, by simp, by simp⟩
  | y :: ys, t, c, a, rt, hl, rc, ha, hy => by
    obtain ⟨ans, t1, e1, tw1, hans⟩ := inUnion_ok rt hl x y
    cases ans with
    | false =>
      have hn : ¬ b.Same x y := fun h => by simpa using hans.mpr h
      obtain ⟨t2, c2, a2, e2, tw2, r2, w2, el2, pa2⟩ := meetWith_ok hk hall hx ys (tw1.rel rt) (tw1.len hl) rc ha
        (fun z hz => hy z (by simp [hz]))
      refine ⟨t2, c2, a2, ?_, tw1.trans tw2, r2, w2, fun z => ?_, fun p => ?_⟩
      · unfold meetWith
        rw [M.bind_ok (onFirst_ok e1), if_neg (by simp)]
        exact e2
      · rw [el2]; simp [hn]
      · rw [pa2]; simp [hn]
    | true =>
      have hs : b.Same x y := hans.mp rfl
      obtain ⟨c1, a1, g1, r1, w1, el1, pa1⟩ := union_way hk hall rc hx (hy y (by simp)) ha
      obtain ⟨t2, c2, a2, e2, tw2, r2, w2, el2, pa2⟩ := meetWith_ok hk hall hx ys (tw1.rel rt) (tw1.len hl) r1
        (by
          intro z hz
          rw [el1] at hz
          rcases List.mem_cons.mp hz with rfl | hz
          · exact hy _ (by simp)
          rcases List.mem_cons.mp hz with rfl | hz
          · exact hx
          · exact ha z hz)
        (fun z hz => hy z (by simp [hz]))
      refine ⟨t2, c2, a2, ?_, tw1.trans tw2, r2, w1.trans w2, fun z => ?_, fun p => ?_⟩
      · unfold meetWith
        rw [M.bind_ok (onFirst_ok e1), if_pos rfl, M.bind_ok (onSecond_ok g1)]
        exact e2
      · rw [el2, el1]
        simp only [List.mem_cons, exists_eq_or_imp, hs, true_and]
        generalize (∃ y ∈ ys, b.Same x y ∧ (z = x ∨ z = y)) = q
        tauto
      · rw [pa2, pa1]
        simp only [List.mem_cons, exists_eq_or_imp, hs, true_and]
        generalize (∃ y ∈ ys, b.Same x y ∧ p = (x, y)) = q
        tauto

theorem meetGroup_ok {k : Nat} (hk : 64 ≤ k) {all : List T} (hall : all.dedup.length ≤ usizeMax) {b : Abs T} :
    ∀ (g : List T) {t c : DSet T} {a : Abs T}, Rel t b → t.ids.len < 2 ^ k → Rel c a →
    (∀ z ∈ a.elems, z ∈ all) → (∀ y ∈ g, y ∈ all) →
    ∃ t' c' a', meetGroup k g (t, c) = (.ok (), (t', c')) ∧ Twin t t' ∧ Rel c' a' ∧ Way k all c a c' a' ∧
      (∀ z, z ∈ a'.elems ↔ z ∈ a.elems ∨ z ∈ g ∧ z ∈ b.elems) ∧ (∀ p ∈ a.pairs, p ∈ a'.pairs) ∧
      (∀ p ∈ a'.pairs, p ∈ a.pairs ∨ p.1 ∈ g ∧ p.2 ∈ g ∧ b.Same p.1 p.2) ∧
      ∀ x ∈ g, ∀ y ∈ g, b.Same x y → Conn a'.pairs x y
  | [], t, c, a, rt, _, rc, ha, _ => ⟨t, c, a, rfl, .refl rt, rc, .refl ha, by simp, by simp, by simp +contextual, by simp⟩
  | x :: xs, t, c, a, rt, hl, rc, ha, hy => by
    have hx : x ∈ all := hy x (by simp)
    have hcon : DSet.contains x false t = (.ok (t.ids.containsKey x), t) := rfl
    have hhas : t.ids.containsKey x = true ↔ x ∈ b.elems := rt.elems x
    have first : ∃ c1 a1, (∀ rest : M (DSet T × DSet T) Unit, ((do
          if t.ids.containsKey x then onSecond (DSet.makeSet x false)
          rest) : M (DSet T × DSet T) Unit) (t, c) = rest (t, c1)) ∧ Rel c1 a1 ∧ Way k all c a c1 a1 ∧ (∀ z, z ∈ a1.elems ↔ z ∈ a.elems ∨ z = x ∧ x ∈ b.elems) ∧
        a1.pairs = a.pairs := by
      cases hc : t.ids.containsKey x with
      | false =>
        have hn : x ∉ b.elems := fun h => by rw [hhas.mpr h] at hc; cases hc
        exact ⟨c, a, fun _ => rfl, rc, .refl ha, by simp [hn], rfl⟩
      | true =>
        obtain ⟨c1, a1, e1, r1, w1, el1, pa1⟩ := makeSet_way (k := k) rc hx ha
        refine ⟨c1, a1, fun rest => by rw [if_pos rfl, M.bind_ok (onSecond_ok e1)], r1, w1, fun z => ?_, pa1⟩
        rw [el1]
        simp only [List.mem_cons, hhas.mp hc, and_true]
        tauto
    obtain ⟨c1, a1, e1, r1, w1, el1, pa1⟩ := first
    have ha1 : ∀ z ∈ a1.elems, z ∈ all := by
      intro z hz
      rcases (el1 z).mp hz with h | ⟨rfl, _⟩
      · exact ha z h
      · exact hx
    obtain ⟨t2, c2, a2, e2, tw2, r2, w2, el2, pa2⟩ := meetWith_ok hk hall hx xs rt hl r1 ha1 (fun z hz => hy z (by simp [hz]))
    have ha2 : ∀ z ∈ a2.elems, z ∈ all := by
      intro z hz
      rcases (el2 z).mp hz with h | ⟨y, hy', _, rfl | rfl⟩
      · exact ha1 z h
      · exact hx
      · exact hy _ (by simp [hy'])
    obtain ⟨t3, c3, a3, e3, tw3, r3, w3, el3, up3, pa3, cn3⟩ := meetGroup_ok hk hall xs (tw2.rel rt) (tw2.len hl) r2 ha2
      (fun z hz => hy z (by simp [hz]))
    refine ⟨t3, c3, a3, ?_, tw2.trans tw3, r3, (w1.trans w2).trans w3, fun z => ?_, fun p hp => ?_, fun p hp => ?_, ?_⟩
    · unfold meetGroup
      rw [M.bind_ok (onFirst_ok hcon)]
      refine (e1 _).trans ?_
      rw [M.bind_ok e2, e3]
    · rw [el3, el2, el1]
      constructor
      · rintro (((h | ⟨rfl, h⟩) | ⟨y, hy', hs, rfl | rfl⟩) | ⟨h1, h2⟩)
        · exact .inl h
        · exact .inr ⟨by simp, h⟩
        · exact .inr ⟨by simp, hs.1⟩
        · exact .inr ⟨by simp [hy'], hs.2.1⟩
        · exact .inr ⟨by simp [h1], h2⟩
      · rintro (h | ⟨h1, h2⟩)
        · exact .inl (.inl (.inl h))
        · rcases List.mem_cons.mp h1 with rfl | h1
          · exact .inl (.inl (.inr ⟨rfl, h2⟩))
          · exact .inr ⟨h1, h2⟩
    · exact up3 p ((pa2 p).mpr (.inl (pa1 ▸ hp)))
    · rcases pa3 p hp with h | ⟨h1, h2, h3⟩
      · rcases (pa2 p).mp h with h | ⟨y, hy', hs, rfl⟩
        · exact .inl (pa1 ▸ h)
        · exact .inr ⟨by simp, by simp [hy'], hs⟩
      · exact .inr ⟨by simp [h1], by simp [h2], h3⟩
    · have one : ∀ y ∈ xs, b.Same x y → Conn a3.pairs x y := fun y hy' hs =>
        .step (up3 _ ((pa2 _).mpr (.inr ⟨y, hy', hs, rfl⟩)))
      intro u hu v hv hs
      rcases List.mem_cons.mp hu with rfl | hu' <;> rcases List.mem_cons.mp hv with rfl | hv'
      · exact .refl _
      · exact one v hv' hs
      · exact .symm (one u hu' ⟨hs.2.1, hs.1, .symm hs.2.2⟩)
      · exact cn3 u hu' v hv' hs

theorem meet_ok {k : Nat} (hk : 64 ≤ k) {all : List T} (hall : all.dedup.length ≤ usizeMax) {b : Abs T} :
    ∀ (gs : List (List T)) {t c : DSet T} {a : Abs T}, Rel t b → t.ids.len < 2 ^ k → Rel c a →
    (∀ z ∈ a.elems, z ∈ all) → (∀ y ∈ gs.flatten, y ∈ all) →
    ∃ t' c' a', meet k gs (t, c) = (.ok (), (t', c')) ∧ Twin t t' ∧ Rel c' a' ∧ Way k all c a c' a' ∧
      (∀ z, z ∈ a'.elems ↔ z ∈ a.elems ∨ z ∈ gs.flatten ∧ z ∈ b.elems) ∧ (∀ p ∈ a.pairs, p ∈ a'.pairs) ∧
      (∀ p ∈ a'.pairs, p ∈ a.pairs ∨ (∃ g ∈ gs, p.1 ∈ g ∧ p.2 ∈ g) ∧ b.Same p.1 p.2) ∧
      ∀ g ∈ gs, ∀ x ∈ g, ∀ y ∈ g, b.Same x y → Conn a'.pairs x y
  | [], t, c, a, rt, _, rc, ha, _ => ⟨t, c, a, rfl, .refl rt, rc, .refl ha, by simp, by simp, by simp +contextual, by simp⟩
  | g :: gs, t, c, a, rt, hl, rc, ha, hy => by
    rw [List.flatten_cons] at hy
    obtain ⟨t1, c1, a1, e1, tw1, r1, w1, el1, up1, pa1, cn1⟩ := meetGroup_ok hk hall g rt hl rc ha
      (fun z hz => hy z (by simp [hz]))
    obtain ⟨t2, c2, a2, e2, tw2, r2, w2, el2, up2, pa2, cn2⟩ := meet_ok hk hall gs (tw1.rel rt) (tw1.len hl) r1
      (fun z hz => by
        rcases (el1 z).mp hz with h | h
        · exact ha z h
        · exact hy z (by simp [h.1]))
      (fun z hz => hy z (List.mem_append_right _ hz))
    refine ⟨t2, c2, a2, ?_, tw1.trans tw2, r2, w1.trans w2, fun z => ?_, fun p hp => up2 p (up1 p hp), fun p hp => ?_, ?_⟩
    · unfold meet
      rw [M.bind_ok e1, e2]
    · rw [el2, el1, List.flatten_cons, List.mem_append]
      tauto
    · rcases pa2 p hp with h | ⟨⟨g', hg, h1⟩, h2⟩
      · rcases pa1 p h with h | ⟨h1, h2, h3⟩
        · exact .inl h
        · exact .inr ⟨⟨g, by simp, h1, h2⟩, h3⟩
      · exact .inr ⟨⟨g', by simp [hg], h1⟩, h2⟩
    · intro g' hg x hx y hy' hs
      rcases List.mem_cons.mp hg with rfl | hg
      · exact conn_mono up2 (cn1 x hx y hy' hs)
      · exact cn2 g' hg x hx y hy' hs

/-- **C130 (meet).** Uniting in a new disjoint set the pairs that share a group of one and are united in another never panics.
The new one contains what both contain, and two elements are united in it exactly if they are in both. The two given ones
answer as before. -/
theorem c130_meet {k : Nat} {st st' : Start T} {ops ops' : List (Op T)} {s t : DSet T} {a b : Abs T}
    (h : Reached k st ops s a) (h' : Reached k st' ops' t b) (o : Shuffle (T × Nat)) (o' : Shuffle (Nat × List T)) :
    ∃ s' t' c d later, meetOf k o.f o'.f s t = (.ok (), s', t', c) ∧ Reached k .new later c d ∧
      (∀ x, Has c x ↔ Has s x ∧ Has t x) ∧
      (∀ x y, Together k c x y ↔ Together k s x y ∧ Together k t x y) ∧
      ∀ x y, (Together k s' x y ↔ Together k s x y) ∧ (Has s' x ↔ Has s x) ∧
        (Together k t' x y ↔ Together k t x y) ∧ (Has t' x ↔ Has t x) := by
  have hs : s.ids.len < 2 ^ k := by rw [h.rel.card]; exact lt_two_pow h.small_now h.stack_ge
  have ht : t.ids.len < 2 ^ k := by rw [h'.rel.card]; exact lt_two_pow h'.small_now h'.stack_ge
  obtain ⟨s', i1, tw⟩ := iterate_ok (stack := k) h.rel hs o o'
  obtain ⟨⟨p1, p2, p3, p4⟩, _⟩ := groups_partition h.rel o o'
  have h0 : Reached k .new [] (DSet.new : DSet T) Abs.new :=
    ⟨h.stack_ge, fun pre hp => by rw [List.prefix_nil.mp hp]; exact Nat.zero_le _, ⟨_, rfl, rfl⟩, rfl⟩
  obtain ⟨t', c, d, e, twt, r, w, el, _, pa, cn⟩ := meet_ok h.stack_ge (all := a.elems) h.small_now (groupsOf s o o') h'.rel ht
    rel_new (fun z hz => by cases hz) (fun z hz => (p3 z).mp hz)
  obtain ⟨later, hr⟩ := w.reached h.small_now h0
  refine ⟨s', t', c, d, [] ++ later, ?_, hr, fun x => ?_, fun x y => ?_, fun x y => ?_⟩
  · unfold meetOf
    rw [i1]
    dsimp only
    rw [e]
  · rw [hr.has, h.has, h'.has, el, p3]
    simp [Abs.new]
  · rw [hr.together, h.together, h'.together]
    constructor
    · rintro ⟨hx, hy, hc⟩
      have hx' : x ∈ a.elems ∧ x ∈ b.elems := by simpa [Abs.new, el, p3] using hx
      clear hx hy
      have key : ∀ {u v}, Conn d.pairs u v → u ∈ a.elems ∧ u ∈ b.elems → a.Same u v ∧ b.Same u v := by
        intro u v huv
        have both : ∀ {p}, p ∈ d.pairs → a.Same p.1 p.2 ∧ b.Same p.1 p.2 := fun {p} hp => by
          rcases pa p hp with h | ⟨h1, h2⟩
          · cases h
          · exact ⟨(p4 _ _).mp h1, h2⟩
        have ca : Conn a.pairs u v := conn_bind (fun p hp => (both hp).1.2.2) huv
        have cb : Conn b.pairs u v := conn_bind (fun p hp => (both hp).2.2.2) huv
        intro hu
        refine ⟨⟨hu.1, ?_, ca⟩, ⟨hu.2, ?_, cb⟩⟩
        · rcases conn_support h.rel.pairs ca with rfl | h
          · exact hu.1
          · exact h.2
        · rcases conn_support h'.rel.pairs cb with rfl | h
          · exact hu.2
          · exact h.2
      exact key hc hx'
    · rintro ⟨h1, h2⟩
      obtain ⟨g, hg, hx, hy⟩ := (p4 x y).mpr h1
      exact ⟨(el x).mpr (.inr ⟨(p3 x).mpr h1.1, h2.1⟩), (el y).mpr (.inr ⟨(p3 y).mpr h1.2.1, h2.2.1⟩), cn g hg x hx y hy h2⟩
  · have key : ∀ {u u' : DSet T} {q : Abs T}, Rel u q → u.ids.len < 2 ^ k → Twin u u' → ∀ x y,
        (Together k u' x y ↔ Together k u x y) ∧ (Has u' x ↔ Has u x) := by
      intro u u' q ru hu tu x y
      obtain ⟨b1, _, q1, _, q2⟩ := inUnion_ok (stack := k) ru hu x y
      obtain ⟨b2, _, q3, _, q4⟩ := inUnion_ok (stack := k) (tu.rel ru) (tu.len hu) x y
      have : b1 = b2 := by rw [Bool.eq_iff_iff, q2, q4]
      refine ⟨by rw [Together, Together, q1, q3, this], ?_⟩
      show Except.ok (u'.ids.containsKey x) = Except.ok true ↔ Except.ok (u.ids.containsKey x) = Except.ok true
      rw [tu.ids]
    exact ⟨(key h.rel hs tw x y).1, (key h.rel hs tw x y).2, (key h'.rel ht twt x y).1, (key h'.rel ht twt x y).2⟩

end

open Demo in
/-- the demo set joined with, and met with, one that unites 7, 6 and 1, 2, 5 -/
example : Reached 64 (.fromIter [7, 3]) demoOps demoEnd (Start.abs (.fromIter [7, 3]) |>.run demoOps) ∧
    Reached 64 .new [.union 7 6 false false, .union 1 2 false false, .union 2 5 false false]
      (run 64 [.union 7 6 false false, .union 1 2 false false, .union 2 5 false false] (DSet.new : DSet Nat)).2
      ((Start.abs (.new : Start Nat)).run [.union 7 6 false false, .union 1 2 false false, .union 2 5 false false]) ∧
    (let t := (run 64 [.union 7 6 false false, .union 1 2 false false, .union 2 5 false false] (DSet.new : DSet Nat)).2
     ((run 64 [.inUnion 5 4 false false, .inUnion 6 7 false false, .inUnion 6 1 false false]
        (join 64 same.f same.f (demoEnd, t)).2.1).1 = [.ok (.bool true), .ok (.bool true), .ok (.bool false)] ∧
      (run 64 [.inUnion 1 2 false false, .inUnion 1 4 false false, .inUnion 1 5 false false, .contains 7 false, .contains 3 false]
        (meetOf 64 same.f same.f demoEnd t).2.2.2).1 =
          [.ok (.bool true), .ok (.bool false), .ok (.bool false), .ok (.bool true), .ok (.bool false)])) :=
  ⟨demo_reached, ⟨Nat.le_refl _, small_of_size _ _ (by decide), ⟨_, rfl, rfl⟩, rfl⟩, by decide +kernel, by decide +kernel⟩

end DS
