import Verif.Itv.LemmasTable
/-!
# C107: sorted tables of intervals
-/

open Rust
namespace Itv

section
variable {T : Type} [LinearOrder T] {table : List (Interval T)} {q : Interval T}

/-- **C107 (values).** In a sorted table the bisection with `<` and `>` between intervals and a value never panics and
looks at no more than `log2` of the size, plus one, entries. It finds the entry that contains the value, which is the
only one, and otherwise the place between the entries below the value and the entries above it. -/
theorem c107_find_value (h : Table table) (v : T) :
    ∃ n r, findVal table v = .ok (n, r) ∧ n ≤ Nat.log2 table.length + 1 ∧
      (∀ i, r = .ok i → ∃ a, table[i]? = some a ∧ Mem a v ∧ ∀ (j : Nat) b, table[j]? = some b → Mem b v → j = i) ∧
      ∀ j, r = .error j → j ≤ table.length ∧ (∀ a ∈ table, ¬ Mem a v) ∧ (∀ a ∈ table.take j, a.ltV v = true) ∧
        ∀ a ∈ table.drop j, a.gtV v = true := by
  obtain ⟨n, r, h1, h2, h3, h4⟩ := bisect_ok (probeVal_mono (v := v) h) _ 0 table.length le_rfl (Nat.zero_le _) le_rfl
    (fun i a hi => by omega) (fun i a hi ha => by
      have := (List.getElem?_eq_some_iff.mp ha).1; omega)
  have fact : ∀ {a : Interval T}, a ∈ table → (probeVal v a = .eq ↔ Mem a v) ∧ (probeVal v a = .lt ↔ a.ltV v = true) ∧
      (probeVal v a = .gt ↔ a.gtV v = true) := fun ha => probeVal_eq (h.obtainable _ ha) (h.nonempty _ ha)
  refine ⟨n, r, h1, by simpa using probes_le h2, fun i hi => ?_, fun j hj => ?_⟩
  · obtain ⟨a, ha, he⟩ := h3 i hi
    have hm := List.mem_of_getElem? ha
    refine ⟨a, ha, (fact hm).1.mp he, fun j b hb hv => ?_⟩
    obtain ⟨p1, p2⟩ := List.getElem?_eq_some_iff.mp hb
    obtain ⟨q1, q2⟩ := List.getElem?_eq_some_iff.mp ha
    have hpw := List.pairwise_iff_getElem.mp (c73_sorted table h.obtainable h.sorted)
    have hva := (fact hm).1.mp he
    rcases Nat.lt_trichotomy j i with hlt | heq | hlt
    · have := (hpw j i p1 q1 hlt).2.2 v v (by rw [p2]; exact hv) (by rw [q2]; exact hva)
      exact absurd this (lt_irrefl v)
    · exact heq
    · have := (hpw i j q1 p1 hlt).2.2 v v (by rw [q2]; exact hva) (by rw [p2]; exact hv)
      exact absurd this (lt_irrefl v)
  · obtain ⟨g1, g2, g3⟩ := h4 j hj
    have lo : ∀ a ∈ table.take j, a.ltV v = true := fun a ha => by
      obtain ⟨i, hi, rfl⟩ := List.mem_take_iff_getElem.mp ha
      exact (fact (List.getElem_mem _)).2.1.mp (g2 i _ (by omega) (List.getElem?_eq_getElem _))
    have up : ∀ a ∈ table.drop j, a.gtV v = true := fun a ha => by
      obtain ⟨i, hi, rfl⟩ := List.mem_drop_iff_getElem.mp ha
      exact (fact (List.getElem_mem _)).2.2.mp (g3 (j + i) _ (by omega) (by rw [List.getElem?_eq_getElem (by omega)]))
    refine ⟨g1, fun a ha hv => ?_, lo, up⟩
    have he := (fact ha).1.mpr hv
    rw [← List.take_append_drop j table] at ha
    rcases List.mem_append.mp ha with hx | hx
    · have := (fact (List.mem_of_mem_take hx)).2.1.mpr (lo a hx); rw [he] at this; cases this
    · have := (fact (List.mem_of_mem_drop hx)).2.2.mpr (up a hx); rw [he] at this; cases this

/-- **C107 (inserting).** The same bisection with an interval finds an entry that intersects it, or, if there is none,
the one place where inserting the interval keeps the table sorted. -/
theorem c107_find_interval (h : Table table) (hq : Obtainable q) (hne : q.isEmpty = false) :
    ∃ n r, findItv table q = .ok (n, r) ∧ n ≤ Nat.log2 table.length + 1 ∧
      (∀ i, r = .ok i → ∃ a, table[i]? = some a ∧ a.intersects q = true) ∧
      ∀ j, r = .error j → (∀ a ∈ table, a.intersects q = false) ∧
        ∀ k, k ≤ table.length → (Table (table.take k ++ q :: table.drop k) ↔ k = j) := by
  obtain ⟨n, r, h1, h2, h3, h4⟩ := bisect_ok (probeItv_mono h hq) _ 0 table.length le_rfl (Nat.zero_le _) le_rfl
    (fun i a hi => by omega) (fun i a hi ha => by
      have := (List.getElem?_eq_some_iff.mp ha).1; omega)
  have fact : ∀ {a : Interval T}, a ∈ table → (probeItv q a = .eq ↔ a.intersects q = true) ∧
      (probeItv q a = .lt ↔ a.lt q = true) ∧ (probeItv q a = .gt ↔ q.lt a = true) :=
    fun ha => probeItv_eq (h.obtainable _ ha) hq (h.nonempty _ ha) hne
  refine ⟨n, r, h1, by simpa using probes_le h2, fun i hi => ?_, fun j hj => ?_⟩
  · obtain ⟨a, ha, he⟩ := h3 i hi
    exact ⟨a, ha, (fact (List.mem_of_getElem? ha)).1.mp he⟩
  · obtain ⟨g1, g2, g3⟩ := h4 j hj
    have lo : ∀ a ∈ table.take j, a.lt q = true := fun a ha => by
      obtain ⟨i, hi, rfl⟩ := List.mem_take_iff_getElem.mp ha
      exact (fact (List.getElem_mem _)).2.1.mp (g2 i _ (by omega) (List.getElem?_eq_getElem _))
    have up : ∀ a ∈ table.drop j, q.lt a = true := fun a ha => by
      obtain ⟨i, hi, rfl⟩ := List.mem_drop_iff_getElem.mp ha
      exact (fact (List.getElem_mem _)).2.2.mp (g3 (j + i) _ (by omega) (by rw [List.getElem?_eq_getElem (by omega)]))
    refine ⟨fun a ha => ?_, fun k hk => ⟨fun hT => ?_, ?_⟩⟩
    · rw [← Bool.not_eq_true]
      intro hx
      have he := (fact ha).1.mpr hx
      rw [← List.take_append_drop j table] at ha
      rcases List.mem_append.mp ha with hx | hx
      · have := (fact (List.mem_of_mem_take hx)).2.1.mpr (lo a hx); rw [he] at this; cases this
      · have := (fact (List.mem_of_mem_drop hx)).2.2.mpr (up a hx); rw [he] at this; cases this
    · have hpw := hT.pairwise
      rw [List.pairwise_append] at hpw
      obtain ⟨_, hd, hc⟩ := hpw
      rcases Nat.lt_trichotomy k j with hlt | heq | hlt
      · have hm : table[k]'(by omega) ∈ table.drop k := List.mem_drop_iff_getElem.mpr ⟨0, by omega, rfl⟩
        have hm' : table[k]'(by omega) ∈ table.take j := List.mem_take_iff_getElem.mpr ⟨k, by omega, rfl⟩
        have := ((List.pairwise_cons.mp hd).1 _ hm).2.2
        exact absurd ⟨this, lo _ hm'⟩ (c30_strict hq (h.obtainable _ (List.getElem_mem _))).2.2.2.1
      · exact heq
      · have hm : table[j]'(by omega) ∈ table.drop j := List.mem_drop_iff_getElem.mpr ⟨0, by omega, rfl⟩
        have hm' : table[j]'(by omega) ∈ table.take k := List.mem_take_iff_getElem.mpr ⟨j, by omega, rfl⟩
        have := (hc _ hm' q List.mem_cons_self).2.2
        exact absurd ⟨up _ hm, this⟩ (c30_strict hq (h.obtainable _ (List.getElem_mem _))).2.2.2.1
    · rintro rfl
      have hmem : ∀ x, x ∈ table.take k ++ q :: table.drop k → x = q ∨ x ∈ table := by
        intro x hx
        rcases List.mem_append.mp hx with hx | hx
        · exact .inr (List.mem_of_mem_take hx)
        · rcases List.mem_cons.mp hx with rfl | hx
          · exact .inl rfl
          · exact .inr (List.mem_of_mem_drop hx)
      refine ⟨fun x hx => ?_, fun x hx => ?_, List.Pairwise.isChain ?_⟩
      · rcases hmem x hx with rfl | hx
        · exact hq
        · exact h.obtainable x hx
      · rcases hmem x hx with rfl | hx
        · exact hne
        · exact h.nonempty x hx
      · have hpw := h.pairwise
        rw [← List.take_append_drop k table] at hpw
        obtain ⟨p1, p2, p3⟩ := List.pairwise_append.mp hpw
        refine List.pairwise_append.mpr ⟨p1.imp fun h => h.2.2, List.pairwise_cons.mpr ⟨up, p2.imp fun h => h.2.2⟩, ?_⟩
        intro a ha b hb
        rcases List.mem_cons.mp hb with rfl | hb
        · exact lo a ha
        · exact (p3 a ha b hb).2.2

/-- **C107 (queries).** The entries that intersect a given interval are neighbours in the table, and all of them except
the outer two lie inside the interval. -/
theorem c107_query_is_contiguous (h : Table table) (hq : Obtainable q) (hne : q.isEmpty = false) {i j k : Nat}
    (hij : i < j) (hjk : j < k) {a b c : Interval T} (ha : table[i]? = some a) (hb : table[j]? = some b)
    (hc : table[k]? = some c) (h1 : a.intersects q = true) (h2 : c.intersects q = true) :
    b.intersects q = true ∧ q.containsInterval b = true := by
  obtain ⟨p1, rfl⟩ := List.getElem?_eq_some_iff.mp ha
  obtain ⟨p2, rfl⟩ := List.getElem?_eq_some_iff.mp hb
  obtain ⟨p3, rfl⟩ := List.getElem?_eq_some_iff.mp hc
  have hpw := List.pairwise_iff_getElem.mp h.pairwise
  obtain ⟨o1, o2, l1⟩ := hpw i j p1 p2 hij
  obtain ⟨_, o3, l2⟩ := hpw j k p2 p3 hjk
  generalize table[i] = a at *
  generalize table[j] = b at *
  generalize table[k] = c at *
  rcases Interval.cases2 a with rfl | ⟨la, lac, ua, uac, rfl⟩
  · cases l1
  rcases Interval.cases2 b with rfl | ⟨lb, lbc, ub, ubc, rfl⟩
  · cases l1
  rcases Interval.cases2 c with rfl | ⟨lc, lcc, uc, ucc, rfl⟩
  · cases l2
  rcases Interval.cases2 q with rfl | ⟨lq, lqc, uq, uqc, rfl⟩
  · cases hne
  rw [Interval.lt_mk] at l1 l2
  rw [Interval.intersects_mk] at h1 h2 ⊢
  rw [Interval.containsInterval_mk]
  have w1 : la < ua ∨ la = ua ∧ lac = true ∧ uac = true := o1.wf
  have w2 : lb < ub ∨ lb = ub ∧ lbc = true ∧ ubc = true := o2.wf
  have w3 : lc < uc ∨ lc = uc ∧ lcc = true ∧ ucc = true := o3.wf
  have w4 : lq < uq ∨ lq = uq ∧ lqc = true ∧ uqc = true := hq.wf
  constructor
  · grind
  · grind

end

/-- a table of three intervals: the value 7 is found, the value 5 belongs between the second and the third, the single
value 9 can be inserted at the end, and an interval that meets all three contains the middle one -/
example : Table [demo, Interval.single 4, Interval.single 7] ∧
    (findVal [demo, Interval.single 4, Interval.single 7] 7).toOption.map (fun p => (p.1, p.2.toOption)) =
      some (2, some 2) ∧
    (findVal [demo, Interval.single 4, Interval.single 7] 5).toOption.map (fun p => (p.1, p.2.toOption)) =
      some (2, none) ∧
    (findItv [demo, Interval.single 4, Interval.single 7] (Interval.single 9)).toOption.map
      (fun p => (p.1, p.2.toOption)) = some (2, none) ∧
    (∃ q : Interval Int, Obtainable q ∧ q.isEmpty = false ∧ demo.intersects q = true ∧
      (Interval.single (7 : Int)).intersects q = true) :=
  ⟨⟨by
      intro i hi
      simp only [List.mem_cons, List.not_mem_nil, or_false] at hi
      rcases hi with rfl | rfl | rfl
      · exact demo_ok
      · exact Obtainable.single 4
      · exact Obtainable.single 7, by decide, by decide⟩, by decide +kernel, by decide +kernel,
    by decide +kernel, iv 2 true 7 true, Obtainable.closed (l := 2) (u := 7) rfl, by decide, by decide, by decide⟩

end Itv
