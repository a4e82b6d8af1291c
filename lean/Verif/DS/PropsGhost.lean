import Verif.DS.Ghost
/-!
# C66: what a panicking `clear` leaves behind
-/

open Rust
namespace DS

section
variable {T : Type} [DecidableEq T] [Cfg]

/-- C66, what a `clear` in which a destructor panics leaves behind: the set looks empty, but if it held `n` elements,
the elements added next take over their unions, again and again: the `i`-th and the `j`-th new element are together
exactly if the elements number `i % n` and `j % n` were, in the order in which they had been added. -/
theorem c66_clear_inherits {k : Nat} {st : Start T} {ops : List (Op T)} {s : DSet T} {a : Abs T}
    (h : Reached k st ops s a) {xs : List T} (hxs : xs.Nodup) :
    ∃ t, run k (xs.map fun x => .makeSet x false) (DSet.clear true s).2 = (xs.map (fun _ => .ok .unit), t) ∧
      ∀ k' i j x y u v, Nat.log2 s.len + xs.length / s.len < k' → xs[i]? = some x → xs[j]? = some y →
        (firsts (handedOver st ops))[i % s.len]? = some u → (firsts (handedOver st ops))[j % s.len]? = some v →
        (DSet.inUnion k' x y false false t).1 = (DSet.inUnion k u v false false s).1 := by
  have hr := h.rel
  have hlen : s.len = s.dataById.length := hr.len.symm
  obtain ⟨hl, hes⟩ := h.ids
  obtain ⟨h1, h2, -, h4⟩ := run_adds k xs (DSet.clear true s).2 s.dataById hxs (fun _ _ => rfl)
    (by show s.dataById = s.dataById ++ []; rw [List.append_nil])
  generalize hrun : run k (xs.map fun x => .makeSet x false) (DSet.clear true s).2 = q at h1 h2 h4
  obtain ⟨rs, t⟩ := q
  have h1 : rs = _ := h1
  subst h1
  refine ⟨t, rfl, ?_⟩
  intro k' i j x y u v hk hx hy hu hv
  have hpos : 0 < s.dataById.length := by
    rw [← hlen, hl]
    have := (List.getElem?_eq_some_iff.mp hu).1
    omega
  rw [show (DSet.clear true s).2.ids.len = 0 from rfl] at h2 h4
  simp only [Nat.zero_add] at h2 h4
  have hrank : ∀ p, p < s.dataById.length → rk s.dataById p ≤ Nat.log2 s.len := by
    intro p hp
    have := (c60_ranks h _ (List.getElem_mem hp)).2
    rw [rk, List.getElem?_eq_getElem hp]; exact this
  have hw := leads_haunted hr.good.forest hpos hrank xs.length
  rw [← h2] at hw
  have hdl : t.dataById.length = s.dataById.length + xs.length := by rw [h2, haunted_length]
  have hfar : ∀ p, p < xs.length → far s.dataById (Nat.log2 s.len) p < k' := by
    intro p hp
    unfold far
    split
    · generalize xs.length / s.len = q at hk; omega
    · have : p / s.dataById.length ≤ xs.length / s.len := by
        rw [hlen]; exact Nat.div_le_div_right (by omega)
      generalize xs.length / s.len = q at hk this
      generalize p / s.dataById.length = q' at this ⊢
      omega
  have hi : i < xs.length := (List.getElem?_eq_some_iff.mp hx).1
  have hj : j < xs.length := (List.getElem?_eq_some_iff.mp hy).1
  rw [hw.inUnion (h4 i x hx) (h4 j y hy) (by omega) (by omega) (hfar i hi) (hfar j hj)]
  obtain ⟨b, hb, hiff⟩ := c56_in_union h u v
  rw [hb]
  congr 1
  have gu := hes _ _ hu
  have gv := hes _ _ hv
  have hc := hr.conn u v _ _ gu gv
  have eu : u ∈ a.elems := (hr.elems u).mp (by rw [gu]; rfl)
  have ev : v ∈ a.elems := (hr.elems v).mp (by rw [gv]; rfl)
  rw [← hlen]
  have : rootFn s.dataById (i % s.len) = rootFn s.dataById (j % s.len) ↔
      SameRoot s.dataById (i % s.len) (j % s.len) := by
    constructor
    · intro e; exact ⟨_, rootFn_spec hr.good.forest _, e ▸ rootFn_spec hr.good.forest _⟩
    · rintro ⟨r, r1, r2⟩
      rw [(rootFn_spec hr.good.forest _).functional r1, (rootFn_spec hr.good.forest _).functional r2]
  rw [Bool.eq_iff_iff, decide_eq_true_iff, this, hc, hiff]
  exact ⟨fun h => ⟨eu, ev, h⟩, fun h => h.2.2⟩

end

/-- C66: after a panicking `clear` searches may go as deep as there are elements: whatever the size of the stack, a set
that held one element overflows it. -/
theorem c66_clear_overflows_stack [Cfg] (k : Nat) (hk : 64 ≤ k) :
    ∃ (s : DSet Nat) (a : Abs Nat), Reached k .new [.makeSet 0 false] s a ∧
      ∃ t, run k ((List.range (k + 1)).map fun x => .makeSet x false) (DSet.clear true s).2 =
          ((List.range (k + 1)).map (fun _ => .ok .unit), t) ∧
        (DSet.inUnion k k 0 false false t).1 = .error .stackOverflow := by
  have hs : Reached k (T := Nat) .new [.makeSet 0 false] ⟨⟨[(0, 0)]⟩, [⟨0, 0⟩]⟩
      (Start.abs .new |>.run [.makeSet 0 false]) :=
    ⟨hk, small_of_size _ _ (by decide), ⟨_, rfl, by rfl⟩, rfl⟩
  refine ⟨_, _, hs, ?_⟩
  obtain ⟨h1, h2, -, h4⟩ := run_adds k (List.range (k + 1)) (DSet.clear true (⟨⟨[(0, 0)]⟩, [⟨0, 0⟩]⟩ : DSet Nat)).2
    [⟨0, 0⟩] List.nodup_range (fun _ _ => rfl) rfl
  generalize hrun : run k ((List.range (k + 1)).map fun x => .makeSet x false)
    (DSet.clear true (⟨⟨[(0, 0)]⟩, [⟨0, 0⟩]⟩ : DSet Nat)).2 = q at h1 h2 h4
  obtain ⟨rs, t⟩ := q
  have h1 : rs = _ := h1
  subst h1
  refine ⟨t, rfl, ?_⟩
  have h2 : t.dataById = haunted [⟨0, 0⟩] (0 + (List.range (k + 1)).length) := h2
  have h4 : ∀ i x, (List.range (k + 1))[i]? = some x → t.ids.get x = some (0 + i) := h4
  simp only [Nat.zero_add, List.length_range] at h2 h4
  have g1 := h4 k k (List.getElem?_range (by omega))
  have g2 := h4 0 0 (List.getElem?_range (by omega))
  have hlen : t.dataById.length = 1 + (k + 1) := by rw [h2, haunted_length]; rfl
  have hf : (find k k t.dataById).1 = .error .stackOverflow := by
    apply find_chain
    · intro p hp
      rw [hlen] at hp
      rw [h2]
      by_cases h0 : p = 0
      · subst h0; rfl
      · rw [haunted_new (by show 1 ≤ p; omega) (by show p < 1 + _; omega)]; rfl
    · exact Nat.le_refl _
    · omega
  have hl : ∀ z, DSet.lookup z false t = (.ok (t.ids.get z), t) := fun z => rfl
  unfold DSet.inUnion
  rw [M.bind_ok (hl k), g1]
  simp only
  rw [M.bind_ok (hl 0), g2]
  simp only
  rw [M.bind_error (e := .stackOverflow) (s' := { t with dataById := (find k k t.dataById).2 })
    (by rw [DSet.onData]; simp only [← hf])]

open Demo in
/-- The set held 7, 3, 1, 2, 4, 5 and 6, with 1, 2, 3 and 4 together. So the second new element, 11, is together with
the third and the ninth, but not with the sixth. -/
example : Reached 64 (.fromIter [7, 3]) demoOps demoEnd (Start.abs (.fromIter [7, 3]) |>.run demoOps) ∧
    firsts (handedOver (.fromIter [7, 3]) demoOps) = [7, 3, 1, 2, 4, 5, 6] ∧
    (run 64 ([10, 11, 12, 13, 14, 15, 16, 17, 18].map (fun x => .makeSet x false) ++
      [.inUnion 11 12 false false, .inUnion 11 18 false false, .inUnion 11 15 false false])
      (DSet.clear true demoEnd).2).1.drop 9 = [.ok (.bool true), .ok (.bool true), .ok (.bool false)] :=
  ⟨demo_reached, by decide, by decide +kernel⟩

end DS
