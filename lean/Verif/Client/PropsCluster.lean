import Verif.Client.LemmasCluster
import Verif.Itv.PropsCollect
/-!
# C115: grouping intervals with a disjoint set
-/

open Rust DS Itv
namespace Client

section
variable {T : Type} [LinearOrder T] [Cfg] {k : Nat} {l r : List (Interval T)}

/-- **C115 (spans).** Whatever the hash orders, nothing panics, and the spans of the groups are what merging the collection
leads to, whatever is merged first. -/
theorem c115_spans (hk : 64 ≤ k) (hl : ∀ i ∈ l, Obtainable i) (hn : ∀ i ∈ l, i.isEmpty = false)
    (small : l.dedup.length ≤ usizeMax) (hm : MergeSteps l r) (hr : Merged r) (o : Shuffle (Interval T × Nat))
    (o' : Shuffle (Nat × List (Interval T))) : ∃ spans, cluster k o o' l = .ok spans ∧ spans.Perm r := by
  obtain ⟨s0, h1, h2⟩ := start_ok (Start.fromIter l)
  obtain ⟨s, a, g1, g2, g3, g4⟩ := joinTouching_ok hk small (allPairs l) (fun p hp => mem_allPairs.mp hp) h2
    fun x => Iff.rfl
  have hs : Setting l r a.pairs := ⟨hl, hn, hm, hr, fun p => by
    rw [g4, mem_allPairs]
    exact ⟨fun h => h.resolve_left fun h => (by cases h), .inr⟩⟩
  have hc : a.card ≤ usizeMax := Nat.le_trans (card_le fun x hx => (g3 x).mp hx) small
  have hlen : s.ids.len < 2 ^ k := by rw [g2.card]; exact lt_two_pow hc hk
  obtain ⟨s', i1, _⟩ := iterate_ok (stack := k) g2 hlen o o'
  obtain ⟨spans, e1, e2⟩ := spans_perm hs g3 rfl (groups_partition g2 o o').1
  refine ⟨spans, ?_, e2⟩
  have h1 : DSet.fromIter l false = .ok s0 := h1
  unfold cluster
  rw [h1]
  show ((do
    let (r, ds) := joinTouching k (allPairs l) s0
    r
    let groups ← (DSet.iterate k o.f o'.f ds).1
    groups.mapM groupSpan) : Except Fault (List (Interval T))) = _
  rw [g1]
  show ((do
    let groups ← (DSet.iterate k o.f o'.f s).1
    groups.mapM groupSpan) : Except Fault (List (Interval T))) = _
  rw [i1]
  exact e1

/-- **C115 (groups).** Two intervals are in one group exactly if they lie in the same interval of the merged collection. -/
theorem c115_in_union (hk : 64 ≤ k) (hl : ∀ i ∈ l, Obtainable i) (hn : ∀ i ∈ l, i.isEmpty = false)
    (small : l.dedup.length ≤ usizeMax) (hm : MergeSteps l r) (hr : Merged r) :
    ∃ s0 s, DSet.fromIter l false = .ok s0 ∧ joinTouching k (allPairs l) s0 = (.ok (), s) ∧
      s.len = l.dedup.length ∧
      ∀ x ∈ l, ∀ y ∈ l, ∃ b, (DSet.inUnion k x y false false s).1 = .ok b ∧
        (b = true ↔ ∃ i ∈ r, i.containsInterval x = true ∧ i.containsInterval y = true) := by
  obtain ⟨s0, h1, h2⟩ := start_ok (Start.fromIter l)
  obtain ⟨s, a, g1, g2, g3, g4⟩ := joinTouching_ok hk small (allPairs l) (fun p hp => mem_allPairs.mp hp) h2
    fun x => Iff.rfl
  have hs : Setting l r a.pairs := ⟨hl, hn, hm, hr, fun p => by
    rw [g4, mem_allPairs]
    exact ⟨fun h => h.resolve_left fun h => (by cases h), .inr⟩⟩
  have hc : a.card ≤ usizeMax := Nat.le_trans (card_le fun x hx => (g3 x).mp hx) small
  have hlen : s.ids.len < 2 ^ k := by rw [g2.card]; exact lt_two_pow hc hk
  refine ⟨s0, s, h1, g1, ?_, fun x hx y hy => ?_⟩
  · refine g2.card.trans (le_antisymm (card_le fun x hx => (g3 x).mp hx) (card_le fun x hx => (g3 x).mpr hx))
  · obtain ⟨b, s', e1, _, e2⟩ := inUnion_ok (stack := k) g2 hlen x y
    refine ⟨b, by rw [e1], ?_⟩
    rw [e2, Abs.Same, g3, g3, hs.conn_iff hx hy]
    simp only [hx, hy, true_and, contains_seg (hl x hx), contains_seg (hl y hy)]

end

open DS.Demo in
example : (∀ i ∈ pile, Obtainable i) ∧ (∀ i ∈ pile, i.isEmpty = false) ∧ pile.dedup.length ≤ usizeMax ∧
    (∃ r, MergeSteps pile r ∧ Merged r) ∧ (cluster 64 same same pile).toOption = some pieces ∧
    (cluster 64 rev same pile).toOption = some pieces.reverse := by
  obtain ⟨r, _, h1, h2⟩ := c92_sweep pile_ok pile_sorted
  exact ⟨pile_ok, pile_sorted.1, by decide +kernel, ⟨r, h1, h2⟩, by decide +kernel, by decide +kernel⟩
open DS.Demo in
/-- the empty interval can be merged with everything, so it puts all intervals into one group: `hn` is needed -/
example : (cluster 64 same same (Interval.empty :: pile)).toOption.map (·.length) = some 1 ∧
    (sweep (Interval.empty :: pile)).toOption = some pieces := by
  exact ⟨by decide +kernel, by decide +kernel⟩

end Client
