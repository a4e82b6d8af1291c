import Verif.Cnt.LemmasMultiset
import Mathlib.Data.List.Perm.Subperm
/-!
# C108: multiset operations from `+` and `-`; C109: the most common entries
-/

open Rust
namespace Cnt
open Counter

section
variable {T : Type} [DecidableEq T] [Cfg] {a b : Counter T}

/-- **C108 (intersection).** `a - (a - b)` is the intersection: each key has the smaller of its two counts, and only keys
of both are there. -/
theorem c108_intersection (ha : Valid a) (hb : Valid b) (za : NoZero a) (zb : NoZero b) {ob : List (T × Nat)}
    (hob : IterOf ob b) :
    ∃ d, sub ob a = .ok d ∧ ∀ od, IterOf od d → ∃ m, sub od a = .ok m ∧ Stores m fun k => min (mult a k) (mult b k) := by
  obtain ⟨d, h1, h2⟩ := stores_sub (.self ha za) (.self hb zb) hob
  refine ⟨d, h1, fun od hod => ?_⟩
  obtain ⟨m, h3, h4⟩ := stores_sub (.self ha za) h2 hod
  refine ⟨m, h3, ?_⟩
  convert h4 using 2 with k
  omega

/-- **C108 (union).** `(a - b) + b` is the union: each key has the larger of its two counts. It never overflows. -/
theorem c108_union (ha : Valid a) (hb : Valid b) (za : NoZero a) (zb : NoZero b) {ob ob' : List (T × Nat)}
    (hob : IterOf ob b) (hob' : IterOf ob' b) :
    ∃ d u, sub ob a = .ok d ∧ add ob' d = .ok u ∧ Stores u fun k => max (mult a k) (mult b k) := by
  obtain ⟨d, h1, h2⟩ := stores_sub (.self ha za) (.self hb zb) hob
  obtain ⟨u, h3, h4⟩ := stores_add h2 (.self hb zb) (fun k => by
    have := mult_le ha k; have := mult_le hb k; omega) hob'
  refine ⟨d, u, h1, h3, ?_⟩
  convert h4 using 2 with k
  omega

/-- **C108 (symmetric difference).** `(a - b) + (b - a)` holds by how much the counts differ. It never overflows, and
has no entries exactly if `a == b`. -/
theorem c108_symmetric_difference (ha : Valid a) (hb : Valid b) (za : NoZero a) (zb : NoZero b)
    {oa ob : List (T × Nat)} (hoa : IterOf oa a) (hob : IterOf ob b) :
    ∃ d e, sub ob a = .ok d ∧ sub oa b = .ok e ∧ ∀ oe, IterOf oe e → ∃ s, add oe d = .ok s ∧
      Stores s (fun k => max (mult a k) (mult b k) - min (mult a k) (mult b k)) ∧
      (s.len = 0 ↔ a.eq b = true) := by
  obtain ⟨d, h1, h2⟩ := stores_sub (.self ha za) (.self hb zb) hob
  obtain ⟨e, h3, h4⟩ := stores_sub (.self hb zb) (.self ha za) hoa
  refine ⟨d, e, h1, h3, fun oe hoe => ?_⟩
  obtain ⟨s, h5, h6⟩ := stores_add h2 h4 (fun k => by
    have := mult_le ha k; have := mult_le hb k; omega) hoe
  have h7 : Stores s fun k => max (mult a k) (mult b k) - min (mult a k) (mult b k) := by
    convert h6 using 2 with k
    omega
  refine ⟨s, h5, h7, ?_⟩
  rw [h7.len_eq_zero, c54_eq_is_multiset_eq ha hb za zb]
  exact forall_congr' fun k => by omega

/-- **C108 (inclusion).** `a - b` has no entries exactly if `b` has everything that `a` has; that is, if the intersection
equals `a`. -/
theorem c108_inclusion (ha : Valid a) (hb : Valid b) (za : NoZero a) (zb : NoZero b) {ob : List (T × Nat)}
    (hob : IterOf ob b) :
    ∃ d, sub ob a = .ok d ∧ (d.len = 0 ↔ ∀ k, mult a k ≤ mult b k) ∧
      ∀ od, IterOf od d → ∃ m, sub od a = .ok m ∧ (d.len = 0 ↔ m.eq a = true) ∧
        ∀ om, IterOf om m → ∃ r, add om d = .ok r ∧ r.eq a = true := by
  obtain ⟨d, h1, h2⟩ := stores_sub (.self ha za) (.self hb zb) hob
  have hlen : d.len = 0 ↔ ∀ k, mult a k ≤ mult b k := by
    rw [h2.len_eq_zero]; exact forall_congr' fun k => by omega
  refine ⟨d, h1, hlen, fun od hod => ?_⟩
  obtain ⟨m, h3, h4⟩ := stores_sub (.self ha za) h2 hod
  refine ⟨m, h3, ?_, fun om hom => ?_⟩
  · rw [hlen, h4.eq (.self ha za)]; exact forall_congr' fun k => by omega
  · obtain ⟨r, h5, h6⟩ := stores_add h2 h4 (fun k => by have := mult_le ha k; omega) hom
    exact ⟨r, h5, (h6.eq (.self ha za)).mpr fun k => by omega⟩

/-- **C108 (what is missing).** Counting a sequence of needed items and one of available items and subtracting shows what
is missing: more items suffice exactly if they cover the difference. In particular everything needed is available, each
item as often as needed, exactly if the difference has no entries. -/
theorem c108_missing {needed available : List T} (hn : ∀ k, needed.count k ≤ usizeMax)
    (hv : ∀ k, available.count k ≤ usizeMax) :
    ∃ n v, fromIter needed = .ok n ∧ fromIter available = .ok v ∧ ∀ order, IterOf order v →
      ∃ d, sub order n = .ok d ∧ (d.len = 0 ↔ needed.Subperm available) ∧
        ∀ more : List T, (∀ k, mult d k ≤ more.count k) ↔ needed.Subperm (available ++ more) := by
  obtain ⟨n, h1, h2⟩ := stores_fromIter hn
  obtain ⟨v, h3, h4⟩ := stores_fromIter hv
  refine ⟨n, v, h1, h3, fun order ho => ?_⟩
  obtain ⟨d, h5, h6⟩ := stores_sub h2 h4 ho
  refine ⟨d, h5, ?_, fun more => ?_⟩
  · rw [h6.len_eq_zero, List.subperm_iff_count]
    exact forall_congr' fun k => by omega
  · rw [List.subperm_iff_count]
    refine forall_congr' fun k => ?_
    rw [h6.mult, List.count_append]; omega

/-- **C109 (largest).** The first `m` entries of `most_common` have the greatest total count of all choices of `m` keys,
and they are such a choice, if there are so many keys. -/
theorem c109_top {c : Counter T} (hc : Valid c) {order : List (T × Nat)} (ho : IterOf order c)
    {sort : List (Nat × (T × Nat)) → List (Nat × (T × Nat))} (hs : SortByKey sort) :
    ∃ res, mostCommon sort order = .ok res ∧ ∀ m,
      (∀ keys : List T, keys.Nodup → keys.length ≤ m → (keys.map (mult c)).sum ≤ ((res.take m).map (·.2)).sum) ∧
      ((res.take m).map (·.1)).Nodup ∧ (res.take m).map (·.2) = ((res.take m).map (·.1)).map (mult c) := by
  obtain ⟨res, h1, _, h2, h3, _, h4⟩ := c51_most_common hc ho hs
  refine ⟨res, h1, fun m => ⟨fun keys hk hlen => ?_, ?_, ?_⟩⟩
  · have hpos : (keys.map (mult c)).sum = ((keys.filter fun k => (c.get k).isSome).map (mult c)).sum := by
      clear hk hlen
      induction keys with
      | nil => rfl
      | cons k keys ih =>
        cases hg : c.get k with
        | none => simp [hg, ih, mult_of_none hg]
        | some n => simp [hg, ih]
    have hsub : ((keys.filter fun k => (c.get k).isSome).map fun k => (k, mult c k)).Subperm res := by
      refine List.subperm_of_subset ?_ fun e he => ?_
      · refine (hk.filter _).map fun x y h => ?_
        exact (Prod.mk.inj h).1
      · obtain ⟨k, hk', rfl⟩ := List.mem_map.mp he
        obtain ⟨n, hn⟩ := Option.isSome_iff_exists.mp (List.mem_filter.mp hk').2
        rw [mult_of_some hn]
        exact (h2 k n).mpr hn
    obtain ⟨s, hs1, hs2⟩ := hsub
    have e1 : ((keys.filter fun k => (c.get k).isSome).map (mult c)).sum = (s.map (·.2)).sum := by
      refine sum_perm ?_
      have := (hs1.map (·.2)).symm
      rwa [List.map_map] at this
    have e2 := sum_sublist_le_take (hs2.map (·.2)) (List.pairwise_map.mpr h4)
    rw [hpos, e1, List.map_take]
    refine Nat.le_trans e2 (sum_take_mono _ ?_)
    rw [List.length_map, hs1.length_eq, List.length_map]
    exact Nat.le_trans (List.length_filter_le _ _) hlen
  · rw [List.map_take]
    exact h3.sublist (List.take_sublist _ _)
  · rw [List.map_map]
    refine List.map_congr_left fun e he => ?_
    exact (mult_of_some ((h2 e.1 e.2).mp (List.mem_of_mem_take he))).symm

/-- **C109 (frequent items).** An item that is more than a fraction `1 / (m + 1)` of a counted sequence is among the first
`m` entries of `most_common`; so a majority is the first entry. -/
theorem c109_frequent {items : List T} (hf : ∀ k, items.count k ≤ usizeMax) :
    ∃ c, fromIter items = .ok c ∧ ∀ order, IterOf order c → ∀ sort, SortByKey sort →
      ∃ res, mostCommon sort order = .ok res ∧
        (∀ m x, items.length < (m + 1) * items.count x → (x, items.count x) ∈ res.take m) ∧
        ∀ x, items.length < 2 * items.count x → res.head? = some (x, items.count x) := by
  obtain ⟨c, h1, hst⟩ := stores_fromIter hf
  refine ⟨c, h1, fun order ho sort hs => ?_⟩
  obtain ⟨res, hr, _, h2, h3, _, h4⟩ := c51_most_common hst.1 ho hs
  have htot : (res.map (·.2)).sum = items.length := by
    rw [← c53_total_of_items hf h1]
    have hn : res.Nodup := List.Nodup.of_map _ h3
    have hn' : c.counter.entries.Nodup := List.Nodup.of_map _ hst.1.1
    have hp : res.Perm c.counter.entries := by
      refine (List.perm_ext_iff_of_nodup hn hn').mpr fun e => ?_
      rw [show e = (e.1, e.2) from rfl, h2]
      exact HMap.get_eq_some hst.1.1
    exact sum_perm (hp.map (·.2))
  have key : ∀ m x, items.length < (m + 1) * items.count x → (x, items.count x) ∈ res.take m := by
    intro m x hx
    have hc0 : items.count x ≠ 0 := by intro h0; rw [h0] at hx; omega
    have hget : c.get x = some (items.count x) := by rw [hst.2, if_neg hc0]
    have hm := (h2 _ _).mpr hget
    by_contra hnot
    rw [← List.take_append_drop m res] at hm
    have hd := (List.mem_append.mp hm).resolve_left hnot
    have hlen : m < res.length := by
      by_contra hle
      rw [List.drop_of_length_le (by omega)] at hd; cases hd
    have hpw := h4
    rw [← List.take_append_drop m res] at hpw
    have hge : ∀ e ∈ res.take m, items.count x ≤ e.2 := fun e he => (List.pairwise_append.mp hpw).2.2 e he _ hd
    have s1 := mul_le_sum ((res.take m).map (·.2)) (items.count x) (by
      intro y hy
      obtain ⟨e, he, rfl⟩ := List.mem_map.mp hy
      exact hge e he)
    have s2 : items.count x ≤ ((res.drop m).map (·.2)).sum := le_sum_of_mem (List.mem_map_of_mem hd)
    rw [← List.take_append_drop m res, List.map_append, List.sum_append] at htot
    rw [List.length_map, List.length_take, Nat.min_eq_left (by omega)] at s1
    rw [Nat.add_mul] at hx
    omega
  refine ⟨res, hr, key, fun x hx => ?_⟩
  have := key 1 x (by simpa using hx)
  cases res with
  | nil => simp at this
  | cons e res =>
    have : (x, items.count x) = e := by simpa using this
    rw [this]; rfl

end

open Demo in
/-- `a - (a - b)`, `(a - b) + b` and `(a - b) + (b - a)` of two counters -/
example : NoZero (⟨⟨[(1, 2), (2, 1)]⟩⟩ : Counter Nat) ∧
    sub [(1, 1), (3, 1)] (⟨⟨[(1, 2), (2, 1)]⟩⟩ : Counter Nat) = .ok ⟨⟨[(1, 1), (2, 1)]⟩⟩ ∧
    sub [(1, 1), (2, 1)] (⟨⟨[(1, 2), (2, 1)]⟩⟩ : Counter Nat) = .ok ⟨⟨[(1, 1)]⟩⟩ ∧
    (add [(1, 1), (3, 1)] (⟨⟨[(1, 1), (2, 1)]⟩⟩ : Counter Nat)).toOption.map (·.get 1) = some (some 2) ∧
    (add [(3, 1)] (⟨⟨[(1, 1), (2, 1)]⟩⟩ : Counter Nat)).toOption.map (·.get 3) = some (some 1) := by
  refine ⟨fun k hk => ?_, rfl, rfl, rfl, rfl⟩
  have := HMap.mem_of_lookup hk
  simp at this

open Demo in
/-- `[1, 2, 1, 3, 1]` has the majority 1, and `[1, 2]` is available in it but `[2, 2]` is not -/
example : (∀ k, ([1, 2, 1, 3, 1] : List Nat).count k ≤ usizeMax) ∧
    ([1, 2, 1, 3, 1] : List Nat).length < 2 * ([1, 2, 1, 3, 1] : List Nat).count 1 ∧
    ([1, 2] : List Nat).Subperm [1, 2, 1, 3, 1] ∧ ¬ ([2, 2] : List Nat).Subperm [1, 2, 1, 3, 1] := by
  refine ⟨fun k => Nat.le_trans List.count_le_length (by decide), by decide, by decide, by decide⟩

end Cnt
