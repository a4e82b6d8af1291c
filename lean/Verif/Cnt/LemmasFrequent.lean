import Verif.Cnt.SpecFrequent
import Verif.Cnt.LemmasStock
/-!
# Lemmas for C147
-/

open Rust
namespace Cnt
open Counter

section
variable {T : Type} [DecidableEq T]

theorem count_copies (n : Nat) (l : List T) (hl : l.Nodup) (x : T) :
    (l.flatMap fun y => List.replicate n y).count x = if x ∈ l then n else 0 := by
  induction l with
  | nil => rfl
  | cons y l ih =>
    obtain ⟨h1, h2⟩ := List.nodup_cons.mp hl
    rw [List.flatMap_cons, List.count_append, ih h2, List.count_replicate]
    by_cases hx : x = y
    · subst hx
      simp [h1]
    · have : ¬(y == x) = true := by simpa using fun h => hx h.symm
      rw [if_neg this]
      simp [hx]

omit [DecidableEq T] in
theorem length_copies (n : Nat) (l : List T) : (l.flatMap fun y => List.replicate n y).length = l.length * n := by
  induction l with
  | nil => simp
  | cons y l ih => rw [List.flatMap_cons, List.length_append, ih, List.length_replicate, List.length_cons, Nat.add_mul]; omega

variable [Cfg] {iter : Counter T → List (T × Nat)} {sort : List (Nat × (T × Nat)) → List (Nat × (T × Nat))}

/-- the keys of a counter -/
abbrev keysOf (c : Counter T) : List T := c.counter.entries.map (·.1)

theorem mem_keysOf {c : Counter T} {f : T → Nat} (h : Stores c f) {x : T} : x ∈ keysOf c ↔ f x ≠ 0 := by
  rw [HMap.mem_keys]
  show (c.get x).isSome ↔ _
  rw [h.2]
  split <;> simp_all

theorem len_le_of {c : Counter T} {f : T → Nat} (h : Stores c f) {q : List T} (hq : ∀ x, f x ≠ 0 → x ∈ q) : c.len ≤ q.length := by
  have : (keysOf c).length ≤ q.length := (List.Nodup.subperm h.1.1 fun x hx => hq x ((mem_keysOf h).mp hx)).length_le
  simpa [keysOf, Counter.len, HMap.len] using this

/-- the counter stores a part of the items, and what is missing is small -/
def Part (k : Nat) (items : List T) (c : Counter T) (l : List T) : Prop :=
  (Stores c fun x => l.count x) ∧ l.Subperm items ∧ ∀ x, (k + 1) * (items.count x - l.count x) + l.length ≤ items.length

/-- taking the same number from every key, of which more than `k` have so many -/
theorem part_cut {k n : Nat} {items l p q : List T} {c : Counter T} (h : Part k items c l) (hp : p.Nodup)
    (hp1 : p.length = k + 1) (hp2 : ∀ x ∈ p, n ≤ l.count x) (hq : q.length ≤ k) (hq1 : ∀ x, n < l.count x → x ∈ q)
    {c' : Counter T} (hc : Stores c' fun x => l.count x - if x ∈ l then n else 0) :
    ∃ l', Part k items c' l' ∧ c'.len ≤ k := by
  obtain ⟨h1, h2, h3⟩ := h
  have e : ∀ x, (l.diff (l.dedup.flatMap fun y => List.replicate n y)).count x = l.count x - if x ∈ l then n else 0 := fun x => by
    rw [List.count_diff, count_copies n _ (List.nodup_dedup l)]
    simp only [List.mem_dedup]
  generalize l.diff (l.dedup.flatMap fun y => List.replicate n y) = l' at e
  have hsub : (l' ++ p.flatMap fun y => List.replicate n y).Subperm l := by
    rw [List.subperm_iff_count]
    intro x
    rw [List.count_append, e, count_copies n p hp]
    by_cases hx : x ∈ p
    · have := hp2 x hx
      by_cases hl : x ∈ l
      · rw [if_pos hx, if_pos hl]; omega
      · have : l.count x = 0 := List.count_eq_zero_of_not_mem hl
        rw [if_pos hx, if_neg hl]; omega
    · rw [if_neg hx]; omega
  have hlen := hsub.length_le
  rw [List.length_append, length_copies, hp1] at hlen
  refine ⟨l', ⟨⟨hc.1, fun x => ?_⟩, ?_, fun x => ?_⟩, ?_⟩
  · simp only [hc.2, e]
  · rw [List.subperm_iff_count] at h2 ⊢
    intro x
    have := h2 x
    rw [e]; omega
  · have h3 := h3 x
    have hle := List.subperm_iff_count.mp h2 x
    have hn : items.count x - l'.count x ≤ (items.count x - l.count x) + n := by
      rw [e]; split <;> omega
    have := Nat.mul_le_mul_left (k + 1) hn
    rw [Nat.mul_add] at this
    omega
  · refine Nat.le_trans (len_le_of hc fun x hx => hq1 x ?_) hq
    by_cases hl : x ∈ l
    · rw [if_pos hl] at hx; omega
    · have : l.count x = 0 := List.count_eq_zero_of_not_mem hl
      omega

theorem stores_push {c : Counter T} {l : List T} (h : Stores c fun k => l.count k) {x : T}
    (hf : ∀ k, (l ++ [x]).count k ≤ usizeMax) :
    ∃ c', push x c = (.ok (), c') ∧ Stores c' fun k => (l ++ [x]).count k := by
  obtain ⟨c', h1, h2⟩ := stores_extend h hf
  obtain ⟨c2, h3, _⟩ := feed_run (.push x) h.1 (fun k => by
    have := hf k
    rw [List.count_append] at this
    rw [h.mult]
    exact this)
  have h3 : push x c = (.ok (), c2) := h3
  refine ⟨c', ?_, h2⟩
  rw [extend, M.bind_ok h3, extend] at h1
  have : c2 = c' := (Prod.mk.inj h1).2
  rw [h3, this]

theorem part_push {k : Nat} {items l : List T} {c c' : Counter T} (h : Part k items c l) {x : T}
    (hs : Stores c' fun k => (l ++ [x]).count k) : Part k (items ++ [x]) c' (l ++ [x]) := by
  refine ⟨hs, List.subperm_iff_count.mpr fun y => ?_, fun y => ?_⟩
  · have := List.subperm_iff_count.mp h.2.1 y
    rw [List.count_append, List.count_append]; omega
  · have := h.2.2 y
    rw [List.count_append, List.count_append, List.length_append, List.length_append, Nat.add_sub_add_right]
    omega

theorem note_ok (hi : ∀ c, IterOf (iter c) c) {k : Nat} {items l : List T} {c : Counter T} (h : Part k items c l)
    (hk : c.len ≤ k) {x : T} (hf : ∀ y, (items ++ [x]).count y ≤ usizeMax) :
    ∃ c' l', note iter k x c = (.ok (), c') ∧ Part k (items ++ [x]) c' l' ∧ c'.len ≤ k := by
  have hle : ∀ y, (l ++ [x]).count y ≤ usizeMax := fun y => by
    have := List.subperm_iff_count.mp h.2.1 y
    have h2 := hf y
    rw [List.count_append] at h2 ⊢
    omega
  obtain ⟨c1, h1, h2⟩ := stores_push h.1 hle
  have h3 := part_push h h2
  have hget : (M.get : M (Counter T) (Counter T)) c1 = (.ok c1, c1) := rfl
  by_cases hc : k < c1.len
  · have hmem : ∀ y, y ∈ keysOf c1 ↔ y ∈ l ++ [x] := fun y => by
      rw [mem_keysOf h2, ← List.count_pos_iff]; omega
    have hperm : ((iter c1).map (·.1)).Perm (keysOf c1) := (hi c1).map _
    have hcount : ∀ y, ((iter c1).map (·.1)).count y = if y ∈ l ++ [x] then 1 else 0 := fun y => by
      rw [hperm.count_eq y]
      by_cases hy : y ∈ l ++ [x]
      · rw [if_pos hy]
        exact List.count_eq_one_of_mem h2.1.1 ((hmem y).mpr hy)
      · rw [if_neg hy]
        exact List.count_eq_zero_of_not_mem fun e => hy ((hmem y).mp e)
    obtain ⟨ones, g1, g2⟩ := stores_fromIter (items := (iter c1).map (·.1)) fun y => by
      rw [hcount]
      by_cases hy : y ∈ l ++ [x]
      · have := List.count_pos_iff.mpr hy
        have := hle y
        rw [if_pos hy]; omega
      · rw [if_neg hy]; omega
    obtain ⟨c2, g3, g4⟩ := stores_subAssign h2 g2 (hi ones)
    simp only [hcount] at g4
    have hx : x ∉ l := fun hx => by
      have h0 := len_le_of h2 (q := keysOf c) fun y hy => (mem_keysOf h.1).mpr (by
        have : y ∈ l ++ [x] := List.count_pos_iff.mp (Nat.pos_of_ne_zero hy)
        have : y ∈ l := by
          rcases List.mem_append.mp this with hy | hy
          · exact hy
          · rw [List.mem_singleton.mp hy]; exact hx
        have := List.count_pos_iff.mpr this
        omega)
      have : (keysOf c).length = c.len := by simp [keysOf, Counter.len, HMap.len]
      omega
    have hlen : (keysOf c1).length = k + 1 := by
      have h0 := len_le_of h2 (q := x :: keysOf c) fun y hy => by
        have : y ∈ l ++ [x] := List.count_pos_iff.mp (Nat.pos_of_ne_zero hy)
        rcases List.mem_append.mp this with hy | hy
        · refine List.mem_cons_of_mem _ ((mem_keysOf h.1).mpr ?_)
          have := List.count_pos_iff.mpr hy
          omega
        · rw [List.mem_singleton.mp hy]; exact List.mem_cons_self
      have e0 : (keysOf c).length = c.len := by simp [keysOf, Counter.len, HMap.len]
      have e1 : (keysOf c1).length = c1.len := by simp [keysOf, Counter.len, HMap.len]
      rw [List.length_cons] at h0
      omega
    obtain ⟨l', k1, k2⟩ := part_cut (n := 1) (p := keysOf c1) (q := keysOf c) h3 h2.1.1 hlen
      (fun y hy => List.count_pos_iff.mpr ((hmem y).mp hy))
      (by simpa [keysOf, Counter.len, HMap.len] using hk)
      (fun y hy => (mem_keysOf h.1).mpr (by
        rw [List.count_append] at hy
        by_cases hyx : y = x
        · subst hyx
          rw [List.count_eq_zero_of_not_mem hx] at hy
          simp at hy
        · have : [x].count y = 0 := List.count_eq_zero_of_not_mem (by simpa using hyx)
          omega)) g4
    refine ⟨c2, l', ?_, k1, k2⟩
    have g1' : (M.lift (fromIter ((iter c1).map (·.1))) : M (Counter T) _) c1 = (.ok ones, c1) := by rw [g1]; rfl
    rw [note, M.bind_ok h1, M.bind_ok hget, if_pos hc, M.bind_ok g1', g3]
  · refine ⟨c1, _, ?_, h3, by omega⟩
    rw [note, M.bind_ok h1, M.bind_ok hget, if_neg hc]
    rfl

theorem stores_level {c : Counter T} {l : List T} (h : Stores c fun k => l.count k) {order : List (T × Nat)} (ho : IterOf order c)
    {n : Nat} (hn : n ≠ 0) (hm : n ≤ usizeMax) :
    Stores (fromHashmap (HMap.fromIter (order.map fun f => (f.1, n)))) fun x => if x ∈ l then n else 0 := by
  have hkeys : ((order.map fun f => (f.1, n)).map (·.1)).Perm (keysOf c) := by
    rw [List.map_map]
    exact ho.map _
  have hnd : ((order.map fun f => (f.1, n)).map (·.1)).Nodup := hkeys.nodup_iff.mpr h.1.1
  obtain ⟨h1, h2⟩ := HMap.fromIter_spec (m := ⟨order.map fun f : T × Nat => (f.1, n)⟩) hnd (.refl _)
  have hget : ∀ x, (fromHashmap (HMap.fromIter (order.map fun f => (f.1, n)))).get x = if x ∈ l then some n else none := fun x => by
    show (HMap.fromIter _).get x = _
    rw [h2]
    by_cases hx : x ∈ l
    · rw [if_pos hx, HMap.get_eq_some hnd]
      have : x ∈ keysOf c := (mem_keysOf h).mpr (by have := List.count_pos_iff.mpr hx; omega)
      have : x ∈ (order.map fun f => (f.1, n)).map (·.1) := hkeys.mem_iff.mpr this
      obtain ⟨e, he, rfl⟩ := List.mem_map.mp this
      obtain ⟨f, hf, rfl⟩ := List.mem_map.mp he
      exact he
    · rw [if_neg hx]
      refine HMap.lookup_eq_none.mpr fun hx' => hx ?_
      have := (mem_keysOf h).mp (hkeys.mem_iff.mp hx')
      exact List.count_pos_iff.mp (Nat.pos_of_ne_zero this)
  refine ⟨⟨h1, fun x m hx => ?_⟩, fun x => ?_⟩
  · rw [hget] at hx
    split at hx
    · cases hx; exact hm
    · cases hx
  · rw [hget]
    show _ = if (if x ∈ l then n else 0) = 0 then none else some (if x ∈ l then n else 0)
    by_cases hx : x ∈ l
    · rw [if_pos hx, if_pos hx, if_neg hn]
    · rw [if_neg hx, if_neg hx, if_pos rfl]

theorem part_append {k : Nat} {xs ys l m : List T} {a b c : Counter T} (ha : Part k xs a l) (hb : Part k ys b m)
    (hs : Stores c fun k => (l ++ m).count k) : Part k (xs ++ ys) c (l ++ m) := by
  refine ⟨hs, List.subperm_iff_count.mpr fun y => ?_, fun y => ?_⟩
  · have := List.subperm_iff_count.mp ha.2.1 y
    have := List.subperm_iff_count.mp hb.2.1 y
    rw [List.count_append, List.count_append]; omega
  · have h1 := ha.2.2 y
    have h2 := hb.2.2 y
    have h3 := List.subperm_iff_count.mp ha.2.1 y
    have h4 := List.subperm_iff_count.mp hb.2.1 y
    rw [List.count_append, List.count_append, List.length_append, List.length_append,
      show xs.count y + ys.count y - (l.count y + m.count y) = (xs.count y - l.count y) + (ys.count y - m.count y) by omega,
      Nat.mul_add]
    omega

theorem merge_ok (hi : ∀ c, IterOf (iter c) c) (hs : SortByKey sort) {k : Nat} {xs ys l m : List T} {a b : Counter T}
    (ha : Part k xs a l) (hb : Part k ys b m) (hf : ∀ y, (xs ++ ys).count y ≤ usizeMax) :
    ∃ c l', merge iter sort k a b = .ok c ∧ Part k (xs ++ ys) c l' ∧ c.len ≤ k := by
  obtain ⟨s, h1, h2⟩ := stores_add ha.1 hb.1 (fun y => by
    have h3 := List.subperm_iff_count.mp ha.2.1 y
    have h4 := List.subperm_iff_count.mp hb.2.1 y
    have := hf y
    rw [List.count_append] at this
    omega) (hi b)
  have h2 : Stores s fun k => (l ++ m).count k := by simpa only [List.count_append] using h2
  have h3 := part_append ha hb h2
  obtain ⟨res, h4, _, h5, h6, h7, h8⟩ := c51_most_common h2.1 (hi s) hs
  have hrun : merge iter sort k a b = (match res[k]? with
      | none => .ok s
      | some e => sub (iter (fromHashmap (HMap.fromIter ((iter s).map fun f => (f.1, e.2)))))  s) := by
    rw [merge, h1]
    show (mostCommon sort (iter s) >>= _) = _
    rw [h4]
    rfl
  rw [hrun]
  cases hr : res[k]? with
  | none =>
    refine ⟨s, _, rfl, h3, ?_⟩
    have := List.getElem?_eq_none_iff.mp hr
    omega
  | some e =>
    obtain ⟨hk, rfl⟩ := List.getElem?_eq_some_iff.mp hr
    have hin : ∀ i (hi : i < res.length), (l ++ m).count res[i].1 = res[i].2 ∧ res[i].2 ≠ 0 := fun i hi => by
      have := (h5 res[i].1 res[i].2).mp (List.getElem_mem hi)
      rw [h2.2] at this
      split at this
      · cases this
      · rename_i h0
        have := Option.some.inj this
        exact ⟨this, this ▸ h0⟩
    have hpos := (hin k hk).2
    have hmax : res[k].2 ≤ usizeMax := by
      rw [← (hin k hk).1]
      exact h2.le _
    obtain ⟨c, g1, g2⟩ := stores_sub h2 (stores_level h2 (hi s) hpos hmax) (hi _)
    have hpw := List.pairwise_iff_getElem.mp h8
    obtain ⟨l', k1, k2⟩ := part_cut (n := res[k].2) (p := (res.take (k + 1)).map (·.1)) (q := (res.take k).map (·.1)) h3
      (by rw [List.map_take]; exact h6.sublist (List.take_sublist _ _))
      (by rw [List.length_map, List.length_take]; omega)
      (fun x hx => by
        obtain ⟨f, hf, rfl⟩ := List.mem_map.mp hx
        obtain ⟨i, hi, rfl⟩ := List.mem_iff_getElem.mp hf
        rw [List.length_take] at hi
        rw [List.getElem_take, (hin i (by omega)).1]
        rcases Nat.lt_or_ge i k with hik | hik
        · exact hpw i k _ hk hik
        · have : i = k := by omega
          subst this
          exact Nat.le_refl _)
      (by rw [List.length_map, List.length_take]; omega)
      (fun x hx => by
        have hmem : (x, (l ++ m).count x) ∈ res := (h5 _ _).mpr (by
          rw [h2.2, if_neg (show (l ++ m).count x ≠ 0 by omega)])
        obtain ⟨i, hi, he⟩ := List.mem_iff_getElem.mp hmem
        have hik : i < k := by
          by_contra hik
          rcases Nat.lt_or_ge k i with h0 | h0
          · have := hpw k i hk hi h0
            rw [he] at this
            simp only at this
            omega
          · have : i = k := by omega
            subst this
            rw [he] at hx
            simp at hx
        refine List.mem_map.mpr ⟨res[i], List.mem_iff_getElem.mpr ⟨i, by rw [List.length_take]; omega, List.getElem_take⟩, ?_⟩
        rw [he]) g2
    exact ⟨c, l', g1, k1, k2⟩

theorem plan_ok (hi : ∀ c, IterOf (iter c) c) (hs : SortByKey sort) (k : Nat) : ∀ p : Sketch T,
    (∀ y, p.items.count y ≤ usizeMax) → ∃ c l, p.run iter sort k = .ok c ∧ Part k p.items c l ∧ c.len ≤ k
  | .empty, _ => ⟨new, [], rfl, ⟨⟨valid_new, fun _ => rfl⟩, .refl _, fun _ => by simp [Sketch.items]⟩, Nat.zero_le _⟩
  | .note p x, hf => by
    obtain ⟨c, l, h1, h2, h3⟩ := plan_ok hi hs k p fun y => by
      have := hf y
      rw [Sketch.items, List.count_append] at this
      omega
    obtain ⟨c', l', g1, g2, g3⟩ := note_ok hi h2 h3 hf
    refine ⟨c', l', ?_, g2, g3⟩
    rw [Sketch.run, h1]
    show owned (note iter k x) c = _
    rw [owned, g1]
  | .merge p q, hf => by
    obtain ⟨a, l, h1, h2, _⟩ := plan_ok hi hs k p fun y => by
      have := hf y
      rw [Sketch.items, List.count_append] at this
      omega
    obtain ⟨b, m, g1, g2, _⟩ := plan_ok hi hs k q fun y => by
      have := hf y
      rw [Sketch.items, List.count_append] at this
      omega
    obtain ⟨c, l', k1, k2, k3⟩ := merge_ok hi hs h2 g2 hf
    refine ⟨c, l', ?_, k2, k3⟩
    rw [Sketch.run, h1, g1]
    exact k1

omit [Cfg] in
theorem dedup_le {xs ys : List T} (h : xs ⊆ ys) : xs.dedup.length ≤ ys.dedup.length :=
  (List.Nodup.subperm (List.nodup_dedup xs) fun _ hx => List.mem_dedup.mpr (h (List.mem_dedup.mp hx))).length_le

theorem plan_exact (hi : ∀ c, IterOf (iter c) c) (hs : SortByKey sort) (k : Nat) : ∀ p : Sketch T,
    (∀ y, p.items.count y ≤ usizeMax) → p.items.dedup.length ≤ k →
    ∃ c, p.run iter sort k = .ok c ∧ Stores c fun y => p.items.count y
  | .empty, _, _ => ⟨new, rfl, valid_new, fun _ => rfl⟩
  | .note p x, hf, hk => by
    obtain ⟨c, h1, h2⟩ := plan_exact hi hs k p (fun y => by
      have := hf y
      rw [Sketch.items, List.count_append] at this
      omega) (Nat.le_trans (dedup_le (List.subset_append_left _ _)) hk)
    obtain ⟨c1, h3, h4⟩ := stores_push h2 hf
    have hle : ¬k < c1.len := Nat.not_lt.mpr (Nat.le_trans (len_le_of h4 (q := (Sketch.note p x).items.dedup) fun y hy =>
      List.mem_dedup.mpr (List.count_pos_iff.mp (Nat.pos_of_ne_zero hy))) hk)
    refine ⟨c1, ?_, h4⟩
    have hget : (M.get : M (Counter T) (Counter T)) c1 = (.ok c1, c1) := rfl
    rw [Sketch.run, h1]
    show owned (note iter k x) c = _
    rw [owned, note, M.bind_ok h3, M.bind_ok hget, if_neg hle]
    rfl
  | .merge p q, hf, hk => by
    obtain ⟨a, h1, h2⟩ := plan_exact hi hs k p (fun y => by
      have := hf y
      rw [Sketch.items, List.count_append] at this
      omega) (Nat.le_trans (dedup_le (List.subset_append_left _ _)) hk)
    obtain ⟨b, g1, g2⟩ := plan_exact hi hs k q (fun y => by
      have := hf y
      rw [Sketch.items, List.count_append] at this
      omega) (Nat.le_trans (dedup_le (List.subset_append_right _ _)) hk)
    obtain ⟨s, k1, k2⟩ := stores_add h2 g2 (fun y => by
      have := hf y
      rw [Sketch.items, List.count_append] at this
      omega) (hi b)
    have k2 : Stores s fun y => (Sketch.merge p q).items.count y := by simpa only [Sketch.items, List.count_append] using k2
    obtain ⟨res, h4, _, _, _, h7, _⟩ := c51_most_common k2.1 (hi s) hs
    have hle : s.len ≤ k := Nat.le_trans (len_le_of k2 (q := (Sketch.merge p q).items.dedup) fun y hy =>
      List.mem_dedup.mpr (List.count_pos_iff.mp (Nat.pos_of_ne_zero hy))) hk
    refine ⟨s, ?_, k2⟩
    rw [Sketch.run, h1, g1]
    show merge iter sort k a b = _
    rw [merge, k1]
    show (mostCommon sort (iter s) >>= _) = _
    rw [h4]
    have hr : res[k]? = none := List.getElem?_eq_none_iff.mpr (by omega)
    show (match res[k]? with
      | none => Except.ok s
      | some e => sub (iter (fromHashmap (HMap.fromIter ((iter s).map fun f : T × Nat => (f.1, e.2))))) s) = _
    rw [hr]

end
end Cnt
