import Verif.Client.SpecCluster
import Verif.Itv.Collect
import Verif.Itv.LemmasFold
import Verif.DS.Props
import Verif.DS.LemmasForest
/-!
# Lemmas for C115
-/

open Rust
namespace Client

section
variable {T : Type} [LinearOrder T] [Cfg]
open DS Itv

omit [Cfg] in
theorem mem_allPairs {α : Type} {l : List α} {p : α × α} : p ∈ allPairs l ↔ p.1 ∈ l ∧ p.2 ∈ l := by
  obtain ⟨a, b⟩ := p
  simp only [allPairs, List.mem_flatMap, List.mem_map, Prod.mk.injEq]
  constructor
  · rintro ⟨x, hx, y, hy, rfl, rfl⟩; exact ⟨hx, hy⟩
  · rintro ⟨ha, hb⟩; exact ⟨a, ha, b, hb, rfl, rfl⟩

/-- the loop unites the pairs that can be merged, and adds nothing -/
theorem joinTouching_ok {k : Nat} (hk : 64 ≤ k) {l : List (Interval T)} (hl : l.dedup.length ≤ usizeMax)
    (ps : List (Interval T × Interval T)) (hp : ∀ p ∈ ps, p.1 ∈ l ∧ p.2 ∈ l) {s : DSet (Interval T)}
    {a : Abs (Interval T)} (r : Rel s a) (ha : ∀ x, x ∈ a.elems ↔ x ∈ l) :
    ∃ s' a', joinTouching k ps s = (.ok (), s') ∧ Rel s' a' ∧ (∀ x, x ∈ a'.elems ↔ x ∈ l) ∧
      ∀ p, p ∈ a'.pairs ↔ p ∈ a.pairs ∨ p ∈ ps ∧ p.1.canBeMerged p.2 = true := by
  induction ps generalizing s a with
  | nil => exact ⟨s, a, rfl, r, ha, fun p => by simp⟩
  | cons p ps ih =>
    obtain ⟨x, y⟩ := p
    have hps := fun q hq => hp q (List.mem_cons_of_mem _ hq)
    by_cases hm : x.canBeMerged y = true
    · set a1 := a.step (.union x y false false) with ha1
      have el : ∀ z, z ∈ a1.elems ↔ z ∈ l := by
        intro z
        have h2 := hp _ List.mem_cons_self
        rw [ha1]
        simp only [Abs.step, Bool.false_eq_true, if_false, List.mem_cons, ha]
        constructor
        · rintro (rfl | rfl | h)
          · exact h2.2
          · exact h2.1
          · exact h
        · exact fun h => .inr (.inr h)
      have pa : a1.pairs = (x, y) :: a.pairs := by rw [ha1]; simp [Abs.step]
      have hc1 : a1.card ≤ usizeMax := Nat.le_trans (card_le fun z hz => (el z).mp hz) hl
      obtain ⟨out, s2, g1, g2, g3⟩ := step_ok r (.union x y false false) hc1 (lt_two_pow hc1 hk)
      have g4 : DSet.union k x y false false s = (.ok (), s2) := by
        have : out = .ok .unit := g3
        rw [this] at g1
        change wrap _ (DSet.union k _ _ false false) s = _ at g1
        unfold wrap at g1
        generalize DSet.union k x y false false s = q at g1 ⊢
        obtain ⟨r, t⟩ := q
        cases r with
        | error f => cases g1
        | ok u => cases g1; rfl
      obtain ⟨s', a', i1, i2, i3, i4⟩ := ih hps g2 el
      refine ⟨s', a', ?_, i2, i3, fun q => ?_⟩
      · rw [joinTouching]
        simp only [hm, if_true]
        rw [M.bind_ok g4]
        exact i1
      · rw [i4, pa]
        simp only [List.mem_cons]
        constructor
        · rintro ((rfl | h) | ⟨h1, h2⟩)
          · exact .inr ⟨.inl rfl, hm⟩
          · exact .inl h
          · exact .inr ⟨.inr h1, h2⟩
        · rintro (h | ⟨rfl | h1, h2⟩)
          · exact .inl (.inr h)
          · exact .inl (.inl rfl)
          · exact .inr ⟨h1, h2⟩
    · obtain ⟨s', a', i1, i2, i3, i4⟩ := ih hps r ha
      refine ⟨s', a', ?_, i2, i3, fun q => ?_⟩
      · rw [joinTouching, if_neg hm]
        exact i1
      · rw [i4, List.mem_cons]
        constructor
        · rintro (h | ⟨h1, h2⟩)
          · exact .inl h
          · exact .inr ⟨.inr h1, h2⟩
        · rintro (h | ⟨rfl | h1, h2⟩)
          · exact .inl h
          · exact absurd h2 hm
          · exact .inr ⟨h1, h2⟩

end

section
variable {T : Type} [LinearOrder T] {l r : List (Itv.Interval T)} {x y i j : Itv.Interval T} {k k' : T ×ₗ Bool}
  {ps : List (Itv.Interval T × Itv.Interval T)}
open DS Itv

/-- a collection of non-empty intervals, what merging makes of it, and the pairs that can be merged -/
structure Setting (l r : List (Interval T)) (ps : List (Interval T × Interval T)) : Prop where
  obt : AllObt l
  ne : ∀ x ∈ l, x.isEmpty = false
  steps : MergeSteps l r
  merged : Merged r
  pairs : ∀ p, p ∈ ps ↔ (p.1 ∈ l ∧ p.2 ∈ l) ∧ p.1.canBeMerged p.2 = true

theorem touch (hx : Seg x k) (hy : Seg y k) : x.canBeMerged y = true := by
  obtain ⟨p, hp, p1, p2⟩ := hx
  obtain ⟨q, hq, q1, q2⟩ := hy
  refine canBeMerged_cuts.mpr fun p' hp' q' hq' => ?_
  cases Option.mem_unique hp hp'
  cases Option.mem_unique hq hq'
  exact ⟨p1.trans q2, q1.trans p2⟩

theorem has_cuts (h : x.isEmpty = false) : ∃ p, p ∈ cuts x := by
  refine Option.ne_none_iff_exists'.mp fun e => ?_
  rw [isEmpty_cuts.mpr e] at h; cases h

theorem touch_cut (hx : Obtainable x) (hy : Obtainable y) (nx : x.isEmpty = false) (ny : y.isEmpty = false)
    (h : x.canBeMerged y = true) : ∃ k, Seg x k ∧ Seg y k := by
  obtain ⟨p, hp⟩ := has_cuts nx
  obtain ⟨q, hq⟩ := has_cuts ny
  have h1 := canBeMerged_cuts.mp h p hp q hq
  have h2 := wf_cuts.mp hx.wf p hp
  have h3 := wf_cuts.mp hy.wf q hq
  exact ⟨max p.1 q.1, ⟨p, hp, le_max_left _ _, max_le h2.le h1.2⟩, ⟨q, hq, le_max_right _ _, max_le h1.1 h3.le⟩⟩

theorem contains_seg (hx : Obtainable x) : y.containsInterval x = true ↔ ∀ k, Seg x k → Seg y k := by
  rw [contains_cuts]
  constructor
  · rintro h k ⟨p, hp, p1, p2⟩
    obtain ⟨q, hq, q1, q2⟩ := h p hp
    exact ⟨q, hq, q1.trans p1, p2.trans q2⟩
  · intro h p hp
    obtain ⟨q, hq, q1, q2⟩ := h _ (seg_lower hx hp)
    obtain ⟨q', hq', q3, q4⟩ := h _ (seg_upper hx hp)
    cases Option.mem_unique hq hq'
    exact ⟨q, hq, q1, q4⟩

namespace Setting

theorem robt (s : Setting l r ps) : AllObt r := (s.steps.inv s.obt).1

/-- every interval lies in one interval of the result -/
theorem home (s : Setting l r ps) (hx : x ∈ l) : ∃ i ∈ r, ∀ k, Seg x k → Seg i k := by
  obtain ⟨p, hp⟩ := has_cuts (s.ne x hx)
  have sl := seg_lower (s.obt x hx) hp
  obtain ⟨o, c, lk, _⟩ := s.steps.inv s.obt
  obtain ⟨i, hi, si⟩ := (c p.1).mpr ⟨x, hx, sl⟩
  exact ⟨i, hi, fun k sk => s.merged.lk o hi si ((lk _ _).mpr (.single ⟨x, hx, sl, sk⟩))⟩

theorem chain (s : Setting l r ps) (hx : x ∈ l) (sx : Seg x k) (h : Lk l k k') :
    ∃ y ∈ l, Seg y k' ∧ Conn ps x y := by
  induction h with
  | refl => exact ⟨x, hx, sx, .refl x⟩
  | tail _ h2 ih =>
    obtain ⟨y, hy, sy, hc⟩ := ih
    obtain ⟨j, hj, s1, s2⟩ := h2
    exact ⟨j, hj, s2, hc.trans (.step ((s.pairs _).mpr ⟨⟨hy, hj⟩, touch sy s1⟩))⟩

/-- connected intervals share the interval of the result -/
theorem conn_home (s : Setting l r ps) (h : Conn ps x y) : x = y ∨ (x ∈ l ∧ y ∈ l ∧
    ∀ i ∈ r, ∀ j ∈ r, (∀ k, Seg x k → Seg i k) → (∀ k, Seg y k → Seg j k) → i = j) := by
  induction h with
  | refl => exact .inl rfl
  | step h =>
    obtain ⟨⟨h1, h2⟩, h3⟩ := (s.pairs _).mp h
    obtain ⟨k, k1, k2⟩ := touch_cut (s.obt _ h1) (s.obt _ h2) (s.ne _ h1) (s.ne _ h2) h3
    exact .inr ⟨h1, h2, fun i hi j hj f g => s.merged.same s.robt hi hj (f k k1) (g k k2)⟩
  | symm _ ih =>
    rcases ih with rfl | ⟨h1, h2, h3⟩
    · exact .inl rfl
    · exact .inr ⟨h2, h1, fun i hi j hj f g => (h3 j hj i hi g f).symm⟩
  | trans _ _ ih ih' =>
    rcases ih with rfl | ⟨h1, h2, h3⟩
    · exact ih'
    rcases ih' with rfl | ⟨g1, g2, g3⟩
    · exact .inr ⟨h1, h2, h3⟩
    refine .inr ⟨h1, g2, fun i hi j hj f g => ?_⟩
    obtain ⟨w, hw, fw⟩ := s.home h2
    exact (h3 i hi w hw f fw).trans (g3 w hw j hj fw g)

theorem home_unique (s : Setting l r ps) (hx : x ∈ l) (hi : i ∈ r) (hj : j ∈ r) (f : ∀ k, Seg x k → Seg i k)
    (g : ∀ k, Seg x k → Seg j k) : i = j := by
  obtain ⟨p, hp⟩ := has_cuts (s.ne x hx)
  have sl := seg_lower (s.obt x hx) hp
  exact s.merged.same s.robt hi hj (f _ sl) (g _ sl)

theorem conn_iff (s : Setting l r ps) (hx : x ∈ l) (hy : y ∈ l) :
    Conn ps x y ↔ ∃ i ∈ r, (∀ k, Seg x k → Seg i k) ∧ ∀ k, Seg y k → Seg i k := by
  constructor
  · intro h
    obtain ⟨i, hi, f⟩ := s.home hx
    obtain ⟨j, hj, g⟩ := s.home hy
    rcases s.conn_home h with rfl | ⟨_, _, h3⟩
    · exact ⟨i, hi, f, f⟩
    · cases h3 i hi j hj f g
      exact ⟨i, hi, f, g⟩
  · rintro ⟨i, hi, f, g⟩
    obtain ⟨p, hp⟩ := has_cuts (s.ne x hx)
    obtain ⟨q, hq⟩ := has_cuts (s.ne y hy)
    have sx := seg_lower (s.obt x hx) hp
    have sy := seg_lower (s.obt y hy) hq
    obtain ⟨o, c, lk, _⟩ := s.steps.inv s.obt
    obtain ⟨z, hz, sz, hc⟩ := s.chain hx sx ((lk _ _).mp (.single ⟨i, hi, f _ sx, g _ sy⟩))
    exact hc.trans (.step ((s.pairs _).mpr ⟨⟨hz, hy⟩, touch sz sy⟩))

/-- an interval of the result has bounds, and its lower bound comes from an interval in it -/
theorem covered (s : Setting l r ps) (hi : i ∈ r) : (∃ p, p ∈ cuts i) ∧ ∃ x ∈ l, ∀ k, Seg x k → Seg i k := by
  obtain ⟨o, c, lk, e, _⟩ := s.steps.inv s.obt
  have hl : l ≠ [] := fun h => by rw [e.mpr h] at hi; cases hi
  have hc : ∃ p, p ∈ cuts i := by
    refine Option.ne_none_iff_exists'.mp fun hn => ?_
    obtain ⟨x, hx⟩ := List.exists_mem_of_ne_nil l hl
    obtain ⟨j, hj, f⟩ := s.home hx
    cases s.merged.empty o hi hn hj
    obtain ⟨p, hp⟩ := has_cuts (s.ne x hx)
    obtain ⟨q, hq, _⟩ := f _ (seg_lower (s.obt x hx) hp)
    rw [hn] at hq; cases hq
  refine ⟨hc, ?_⟩
  obtain ⟨p, hp⟩ := hc
  have si := seg_lower (o i hi) hp
  obtain ⟨x, hx, sx⟩ := (c p.1).mp ⟨i, hi, si⟩
  obtain ⟨j, hj, f⟩ := s.home hx
  cases s.merged.same o hi hj si (f _ sx)
  exact ⟨x, hx, f⟩

/-- the span of the intervals that lie in an interval of the result is that interval -/
theorem span_eq (s : Setting l r ps) {a : Interval T} {rest : List (Interval T)} (hi : i ∈ r)
    (hg : ∀ x, x ∈ a :: rest ↔ x ∈ l ∧ ∀ k, Seg x k → Seg i k) : spanAll a rest = .ok i := by
  have oa : ∀ x ∈ a :: rest, Obtainable x := fun x hx => s.obt x ((hg x).mp hx).1
  obtain ⟨j, h1, _, h2, h3, h4, _⟩ := spanAll_ok (oa a List.mem_cons_self) fun x hx => oa x (List.mem_cons_of_mem _ hx)
  obtain ⟨o, c, lk, e, _⟩ := s.steps.inv s.obt
  obtain ⟨⟨p, hp⟩, _⟩ := s.covered hi
  have at_cut : ∀ k, Seg i k → ∃ x ∈ a :: rest, Seg x k := by
    intro k sk
    obtain ⟨x, hx, sx⟩ := (c k).mp ⟨i, hi, sk⟩
    obtain ⟨j, hj, f⟩ := s.home hx
    cases s.merged.same o hi hj sk (f _ sx)
    exact ⟨x, (hg x).mpr ⟨hx, f⟩, sx⟩
  have : i = j := by
    refine eq_of_seg (o i hi) h2 (fun hn => by rw [hn] at hp; cases hp) fun k => ⟨fun sk => ?_, fun sk => ?_⟩
    · obtain ⟨x, hx, sx⟩ := at_cut k sk
      exact (contains_seg (oa x hx)).mp (h3 x hx) k sx
    · exact (contains_seg h2).mp (h4 i fun x hx => (contains_seg (oa x hx)).mpr ((hg x).mp hx).2) k sk
  rw [h1, this]

end Setting

theorem mapM_ok {α β : Type} {f : α → Except Fault β} {g : α → β} {as : List α} (h : ∀ a ∈ as, f a = .ok (g a)) :
    as.mapM f = .ok (as.map g) := by
  induction as with
  | nil => rfl
  | cons a as ih =>
    rw [List.mapM_cons, h a List.mem_cons_self, ih fun b hb => h b (List.mem_cons_of_mem _ hb)]
    rfl

/-- the groups and the intervals of the result correspond to each other -/
theorem spans_perm (s : Setting l r ps) {a : Abs (Interval T)} (ha : ∀ x, x ∈ a.elems ↔ x ∈ l) (hp : a.pairs = ps)
    {gs : List (List (Interval T))} (hg : a.IsPartition gs) :
    ∃ spans, gs.mapM groupSpan = .ok spans ∧ spans.Perm r := by
  obtain ⟨h1, h2, h3, h4⟩ := hg
  have same : ∀ x y, (∃ g ∈ gs, x ∈ g ∧ y ∈ g) ↔ (x ∈ l ∧ y ∈ l) ∧ Conn ps x y := by
    intro x y
    rw [h4, Abs.Same, ha, ha, hp, and_assoc]
  have one : ∀ g ∈ gs, ∃ i ∈ r, groupSpan g = .ok i ∧ ∀ x, x ∈ g ↔ x ∈ l ∧ ∀ k, Seg x k → Seg i k := by
    intro g hg
    obtain ⟨x, hx⟩ := List.exists_mem_of_ne_nil g (h1 g hg)
    have hxl := ((same x x).mp ⟨g, hg, hx, hx⟩).1.1
    obtain ⟨i, hi, f⟩ := s.home hxl
    have hmem : ∀ y, y ∈ g ↔ y ∈ l ∧ ∀ k, Seg y k → Seg i k := by
      intro y
      constructor
      · intro hy
        obtain ⟨⟨_, hyl⟩, hc⟩ := (same x y).mp ⟨g, hg, hx, hy⟩
        obtain ⟨j, hj, f', g'⟩ := (s.conn_iff hxl hyl).mp hc
        cases s.home_unique hxl hi hj f f'
        exact ⟨hyl, g'⟩
      · rintro ⟨hyl, g'⟩
        obtain ⟨g2, hg2, hx2, hy2⟩ := (same x y).mpr ⟨⟨hxl, hyl⟩, (s.conn_iff hxl hyl).mpr ⟨i, hi, f, g'⟩⟩
        by_cases e : g = g2
        · rw [e]; exact hy2
        · have hd := (List.nodup_flatten.mp h2).2
          have : Std.Symm (fun a b : List (Interval T) => a.Disjoint b) := ⟨fun _ _ h => h.symm⟩
          exact absurd hx2 (fun hx2 => hd.forall hg hg2 e hx hx2)
    refine ⟨i, hi, ?_, hmem⟩
    cases g with
    | nil => cases hx
    | cons a rest => exact s.span_eq hi hmem
  have : Nonempty (Interval T) := ⟨⟨none⟩⟩
  choose! f f1 f2 f3 using one
  refine ⟨gs.map f, mapM_ok f2, ?_⟩
  refine (List.perm_ext_iff_of_nodup ?_ (s.merged.nodup s.robt)).mpr fun i => ?_
  · rw [List.nodup_iff_pairwise_ne, List.pairwise_map]
    refine List.Pairwise.imp_of_mem (fun {g g'} hg hg' hd e => ?_) (List.nodup_flatten.mp h2).2
    obtain ⟨x, hx⟩ := List.exists_mem_of_ne_nil g (h1 g hg)
    refine hd hx ((f3 g' hg' x).mpr ?_)
    rw [← e]
    exact (f3 g hg x).mp hx
  · constructor
    · intro hi
      obtain ⟨g, hg, rfl⟩ := List.mem_map.mp hi
      exact f1 g hg
    · intro hi
      obtain ⟨_, x, hx, h⟩ := s.covered hi
      obtain ⟨g, hg, hxg, _⟩ := (same x x).mpr ⟨⟨hx, hx⟩, .refl x⟩
      have := s.home_unique hx hi (f1 g hg) h ((f3 g hg x).mp hxg).2
      exact List.mem_map.mpr ⟨g, hg, this.symm⟩

end
end Client
