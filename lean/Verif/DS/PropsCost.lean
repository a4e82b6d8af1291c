import Verif.DS.Flat
import Verif.DS.Props
/-!
# The disjoint set properties C68 and C69: path compression and the cost of root searches

Histories (`Reached`) are those of `Verif.DS.Props`. `A` is Ackermann's function and `alpha` its inverse
(`Verif.DS.Ack`); `Counted.run` is `run` with a counter of the calls of `find_with_path_compression`
(`Verif.DS.Counted`).
-/

open Rust
namespace DS

/-! ## C68 -/
section
variable {T : Type} [DecidableEq T] [Cfg]

/-- C68: asking `in_union(x, y)` again takes at most two stack frames per search, whatever happened before, gives
the same answer and changes nothing. -/
theorem c68_repeated_search {k : Nat} {st : Start T} {ops : List (Op T)} {s : DSet T} {a : Abs T}
    (h : Reached k st ops s a) (x y : T) :
    ∃ b s1, DSet.inUnion k x y false false s = (.ok b, s1) ∧
      ∀ k', 2 ≤ k' → DSet.inUnion k' x y false false s1 = (.ok b, s1) := by
  have r := h.rel
  have hs : s.ids.len < 2 ^ k := by rw [r.card]; exact lt_two_pow h.small_now h.stack_ge
  have hk2 : 2 ≤ k := Nat.le_trans (by decide) h.stack_ge
  have hl : ∀ z, DSet.lookup z false s = (.ok (s.ids.get z), s) := fun z => rfl
  cases hx : s.ids.get x with
  | none =>
    have : ∀ k', DSet.inUnion k' x y false false s = (.ok false, s) := fun k' => by
      rw [DSet.inUnion, M.bind_ok (hl x), hx]; rfl
    exact ⟨false, s, this k, fun k' _ => this k'⟩
  | some i =>
    cases hy : s.ids.get y with
    | none =>
      have : ∀ k', DSet.inUnion k' x y false false s = (.ok false, s) := fun k' => by
        rw [DSet.inUnion, M.bind_ok (hl x), hx]
        simp only
        rw [M.bind_ok (hl y), hy]; rfl
      exact ⟨false, s, this k, fun k' _ => this k'⟩
    | some j =>
      obtain ⟨ri, hri⟩ := Root.total r.good.forest i
      obtain ⟨rj, hrj⟩ := Root.total r.good.forest j
      obtain ⟨d1, f1, s1, p1, c1⟩ := find_shape r.good (by rw [r.len]; exact hs) (r.lt x i hx) hri
      have g1 := s1.good r.good
      obtain ⟨d2, f2, s2, p2, c2⟩ := find_shape g1 (by rw [s1.len, r.len]; exact hs)
        (by rw [s1.len]; exact r.lt y j hy) ((s1.root j rj).mpr hrj)
      have sm := s1.trans s2
      have hir : par d2 ri = ri := (sm.isRoot ri).mpr hri.is_root
      have hjr : par d2 rj = rj := (sm.isRoot rj).mpr hrj.is_root
      have pi : par d2 i = ri := by
        have := (flat_keep s2 c2 (j := i) (by rw [p1]; exact (s1.isRoot ri).mpr hri.is_root)).1
        rw [this, p1]
      have tw : Twin s { s with dataById := d2 } := ⟨rfl, sm⟩
      have o1 : (DSet.onData (find k i) : M (DSet T) Nat) s = (.ok ri, { s with dataById := d1 }) := by
        rw [DSet.onData]; simp only [f1]
      have o2 : (DSet.onData (find k j) : M (DSet T) Nat) { s with dataById := d1 } =
          (.ok rj, { s with dataById := d2 }) := by
        rw [DSet.onData]; simp only [f2]
      refine ⟨decide (ri = rj), { s with dataById := d2 }, ?_, fun k' hk' => ?_⟩
      · rw [DSet.inUnion, M.bind_ok (hl x), hx]
        simp only
        rw [M.bind_ok (hl y), hy]
        simp only
        rw [M.bind_ok o1, M.bind_ok o2, M.pure_run]
      · rw [inUnion_flat hk' (tw.rel r) x y ?_]
        · simp only [hx, hy, pi, p2]
        · simp only
          rintro q (hq | hq)
          · rw [hx] at hq; cases hq; rw [pi, hir]
          · rw [hy] at hq; cases hq; rw [p2, hjr]

/-- C68: once `in_union(x, y)` has searched two elements, searches of these two take at most two stack frames and
change nothing, whatever calls but `union` are made in between. -/
theorem c68_later_search {k : Nat} {st : Start T} {ops : List (Op T)} {s : DSet T} {a : Abs T}
    (h : Reached k st ops s a) {x y : T} (hx : x ∈ a.elems) (hy : y ∈ a.elems) {qs : List (Op T)}
    (hq : ∀ q ∈ qs, ∀ x y xp yp, q ≠ .union x y xp yp)
    (small : ∀ pre, pre <+: qs → (a.run pre).card ≤ usizeMax) :
    ∃ s1, s1 = (run k (.inUnion x y false false :: qs) s).2 ∧ ∀ k', 2 ≤ k' →
      ∀ u v, (u = x ∨ u = y) → (v = x ∨ v = y) → ∃ b, DSet.inUnion k u v false false s1 = (.ok b, s1) ∧
        DSet.inUnion k' u v false false s1 = (.ok b, s1) := by
  have r := h.rel
  have hs : s.ids.len < 2 ^ k := by rw [r.card]; exact lt_two_pow h.small_now h.stack_ge
  have hk2 : 2 ≤ k := Nat.le_trans (by decide) h.stack_ge
  obtain ⟨i, hi⟩ := Option.isSome_iff_exists.mp ((r.elems x).mpr hx)
  obtain ⟨j, hj⟩ := Option.isSome_iff_exists.mp ((r.elems y).mpr hy)
  obtain ⟨ri, hri⟩ := Root.total r.good.forest i
  obtain ⟨rj, hrj⟩ := Root.total r.good.forest j
  obtain ⟨d1, f1, s1, p1, c1⟩ := find_shape r.good (by rw [r.len]; exact hs) (r.lt x i hi) hri
  obtain ⟨d2, f2, s2, p2, c2⟩ := find_shape (s1.good r.good) (by rw [s1.len, r.len]; exact hs)
    (by rw [s1.len]; exact r.lt y j hj) ((s1.root j rj).mpr hrj)
  have sm := s1.trans s2
  have tw : Twin s { s with dataById := d2 } := ⟨rfl, sm⟩
  have hl : ∀ z, DSet.lookup z false s = (.ok (s.ids.get z), s) := fun z => rfl
  have o1 : (DSet.onData (find k i) : M (DSet T) Nat) s = (.ok ri, { s with dataById := d1 }) := by
    rw [DSet.onData]; simp only [f1]
  have o2 : (DSet.onData (find k j) : M (DSet T) Nat) { s with dataById := d1 } =
      (.ok rj, { s with dataById := d2 }) := by
    rw [DSet.onData]; simp only [f2]
  have hin : DSet.inUnion k x y false false s = (.ok (decide (ri = rj)), { s with dataById := d2 }) := by
    rw [DSet.inUnion, M.bind_ok (hl x), hi]
    simp only
    rw [M.bind_ok (hl y), hj]
    simp only
    rw [M.bind_ok o1, M.bind_ok o2, M.pure_run]
  have fx : FlatAt { s with dataById := d2 } x := by
    intro i' hi'
    have : i' = i := Option.some.inj (hi'.symm.trans hi)
    subst this
    exact (flat_keep s2 c2 (by rw [p1]; exact (s1.isRoot ri).mpr hri.is_root)).2
  have fy : FlatAt { s with dataById := d2 } y := by
    intro j' hj'
    have : j' = j := Option.some.inj (hj'.symm.trans hj)
    subst this
    show par d2 (par d2 j') = par d2 j'
    rw [p2]; exact (sm.isRoot rj).mpr hrj.is_root
  have hnu : ∀ q ∈ qs, q.isUnion = false := by
    intro q hm
    cases q with
    | union x y xp yp => exact absurd rfl (hq _ hm x y xp yp)
    | _ => rfl
  have r' := tw.rel r
  have flat : ∀ u, (u = x ∨ u = y) → FlatAt (run k qs { s with dataById := d2 }).2 u := by
    rintro u (rfl | rfl)
    · exact run_flatAt h.stack_ge r' fx hnu h.small_now small
    · exact run_flatAt h.stack_ge r' fy hnu h.small_now small
  obtain ⟨r1, _⟩ := run_ok h.stack_ge r' qs small
  have hstep : step k (.inUnion x y false false) s = (.ok (.bool (decide (ri = rj))), { s with dataById := d2 }) :=
    wrap_ok hin
  have e : (run k (.inUnion x y false false :: qs) s).2 = (run k qs { s with dataById := d2 }).2 := by
    rw [run]; simp only [hstep]
  refine ⟨_, rfl, fun k' hk' u v hu hv => ?_⟩
  rw [e]
  have hf : ∀ i, ((run k qs { s with dataById := d2 }).2.ids.get u = some i ∨
      (run k qs { s with dataById := d2 }).2.ids.get v = some i) → _ := fun i hi =>
    hi.elim (flat u hu i) (flat v hv i)
  exact ⟨_, inUnion_flat hk2 r1 u v hf, inUnion_flat hk' r1 u v hf⟩

/-- C68: after an iteration, and any calls but `union` following it, every search takes at most two stack frames
and changes nothing. -/
theorem c68_after_iteration {k : Nat} {st : Start T} {ops : List (Op T)} {s : DSet T} {a : Abs T}
    (h : Reached k st ops s a) (o : Shuffle (T × Nat)) (o' : Shuffle (Nat × List T)) {qs : List (Op T)}
    (hq : ∀ q ∈ qs, ∀ x y xp yp, q ≠ .union x y xp yp)
    (small : ∀ pre, pre <+: qs → (a.run pre).card ≤ usizeMax) :
    ∃ s1, s1 = (run k (.iterate o o' :: qs) s).2 ∧ ∀ k', 2 ≤ k' →
      (∀ x y, ∃ b, DSet.inUnion k x y false false s1 = (.ok b, s1) ∧
        DSet.inUnion k' x y false false s1 = (.ok b, s1)) ∧
      ∀ (p : Shuffle (T × Nat)) (p' : Shuffle (Nat × List T)), ∃ gs,
        DSet.iterate k p.f p'.f s1 = (.ok gs, s1) ∧ DSet.iterate k' p.f p'.f s1 = (.ok gs, s1) := by
  have r := h.rel
  have hs : s.ids.len < 2 ^ k := by rw [r.card]; exact lt_two_pow h.small_now h.stack_ge
  have hk2 : 2 ≤ k := Nat.le_trans (by decide) h.stack_ge
  have hf := iterate_flattens (stack := k) r hs o o'
  obtain ⟨s', h1, tw⟩ := iterate_ok (stack := k) r hs o o'
  have r' := tw.rel r
  rw [h1] at hf
  have hstep : step k (.iterate o o') s = (.ok (.groups (groupsOf s o o')), s') := wrap_ok h1
  have hnu : ∀ q ∈ qs, q.isUnion = false := by
    intro q hm
    cases q with
    | union x y xp yp => exact absurd rfl (hq _ hm x y xp yp)
    | _ => rfl
  have hflat := run_flat h.stack_ge r' hf hnu small
  obtain ⟨r1, _⟩ := run_ok h.stack_ge r' qs small
  have e : (run k (.iterate o o' :: qs) s).2 = (run k qs s').2 := by rw [run]; simp only [hstep]
  refine ⟨_, rfl, fun k' hk' => ?_⟩
  rw [e]
  refine ⟨fun x y => ?_, fun p p' => ?_⟩
  · exact ⟨_, inUnion_flat hk2 r1 x y fun i _ => hflat i, inUnion_flat hk' r1 x y fun i _ => hflat i⟩
  · generalize hg : (run k qs s').2 = s1 at *
    have key : ∀ {stack : Nat}, 2 ≤ stack → ∀ (es : List (T × Nat)) (m : HMap Nat (List T)),
        (∀ e ∈ es, e.2 < s1.dataById.length) → DSet.buildLoop stack es m s1 =
          (.ok (es.foldl (putIn fun e => par s1.dataById e.2) m), s1) := by
      intro stack hst es
      induction es with
      | nil => intro m _; rfl
      | cons e es ih =>
        intro m he
        obtain ⟨key, val⟩ := e
        rw [DSet.buildLoop, M.bind_ok (findOn_flat hst r1 (he _ List.mem_cons_self) (hflat _))]
        exact ih _ fun e he' => he e (List.mem_cons_of_mem _ he')
    have key' : ∀ {stack : Nat}, 2 ≤ stack → DSet.iterate stack p.f p'.f s1 = (.ok ((p'.f
        ((p.f s1.ids.entries).foldl (putIn fun e => par s1.dataById e.2) HMap.empty).entries).map
          fun (_, vect) => vect), s1) := by
      intro stack hst
      have hb : DSet.buildSets stack p.f s1 = (.ok ((p.f s1.ids.entries).foldl
          (putIn fun e => par s1.dataById e.2) HMap.empty), s1) :=
        key hst _ _ (entries_lt r1 p)
      rw [DSet.iterate, M.bind_ok hb, M.pure_run]
    exact ⟨_, key' hk2, key' hk'⟩

/-- C68: right after `union(x, y)`, `in_union(x, y)` finds out with at most three stack frames. -/
theorem c68_after_union {k : Nat} {st : Start T} {ops : List (Op T)} {s : DSet T} {a : Abs T}
    (h : Reached k st ops s a) (x y : T) (hm : (a.step (.union x y false false)).card ≤ usizeMax) :
    ∃ s1, DSet.union k x y false false s = (.ok (), s1) ∧
      ∀ k', 3 ≤ k' → (DSet.inUnion k' x y false false s1).1 = .ok true := by
  have r := h.rel
  have hs := lt_two_pow hm h.stack_ge
  obtain ⟨i, s1, h1, hi, r1, _⟩ := makeOrGetSet_ok r x
  obtain ⟨j, s2, h2, hj, r2, keep, _⟩ := makeOrGetSet_ok r1 y
  have hc : s2.ids.len = (a.step (.union x y false false)).card := by rw [r2.card]; exact card_congr rfl
  obtain ⟨s3, h3, r3⟩ := union_ids_ok (stack := k) r2 (by rw [hc]; exact hm) (by rw [hc]; exact hs)
    (keep x i hi) hj
  have hun : DSet.union k x y false false s = (.ok (), s3) := by
    rw [DSet.union, M.bind_ok h1, M.bind_ok h2, h3]
  refine ⟨s3, hun, fun k' hk' => ?_⟩
  have hd : s3.ids = s2.ids ∧ s3.dataById = (unionIds k i j s2.dataById).2 := by
    rw [DSet.onData] at h3
    have := (Prod.mk.inj h3).2
    rw [← this]; exact ⟨rfl, rfl⟩
  have hx : s3.ids.get x = some i := by rw [hd.1]; exact keep x i hi
  have hy : s3.ids.get y = some j := by rw [hd.1]; exact hj
  have short := unionIds_short (stack := k) r2.good (by rw [r2.len, hc]; exact hm) (by rw [r2.len, hc]; exact hs)
    (r2.lt x i (keep x i hi)) (r2.lt y j hj)
  rw [← hd.2] at short
  obtain ⟨q, hq1, hq2⟩ := (r3.conn x y i j hx hy).mpr (.step List.mem_cons_self)
  have hl : ∀ z, DSet.lookup z false s3 = (.ok (s3.ids.get z), s3) := fun z => rfl
  rw [DSet.inUnion, M.bind_ok (hl x), hx]
  simp only
  rw [M.bind_ok (hl y), hy]
  simp only
  -- the first search may move nodes, so the second runs in a shorter forest
  obtain ⟨d1, f1⟩ := find_short r3.good.forest (r3.lt x i hx) hq1 hk' (short i (.inl rfl))
  obtain ⟨d1', n, f1', sm, p1, c1, _⟩ := find_cost (a := rk s3.dataById q) (s3.dataById.length + k' + rk s3.dataById q + 1)
    r3.good.forest (r3.lt x i hx) hq1 (by omega) (lt_A_one _) 0
  have same : d1 = d1' := by
    obtain ⟨n', ee⟩ := Counted.erases_find (s3.dataById.length + k' + rk s3.dataById q + 1) i s3.dataById 0
    rw [f1', find_more f1 (by omega)] at ee
    exact (congrArg (fun q => q.2.1) ee).symm
  subst same
  have o1 : (DSet.onData (find k' i) : M (DSet T) Nat) s3 = (.ok q, { s3 with dataById := d1 }) := by
    rw [DSet.onData]; simp only [f1]
  have short2 : par d1 (par d1 (par d1 j)) = par d1 (par d1 j) := by
    rcases c1 j with e | ⟨e, _⟩
    · have hj2 := short j (.inr rfl)
      rw [e]
      have := (flat_keep sm (fun j => (c1 j).imp id And.left) (j := par s3.dataById j) hj2).2
      exact this
    · have : par d1 (par d1 j) = par d1 j := (sm.isRoot _).mpr e.is_root
      rw [this, this]
  obtain ⟨d2, f2⟩ := find_short sm.forest (by rw [sm.len]; exact r3.lt y j hy) ((sm.root j q).mpr hq2) hk' short2
  have o2 : (DSet.onData (find k' j) : M (DSet T) Nat) { s3 with dataById := d1 } =
      (.ok q, { s3 with dataById := d2 }) := by
    rw [DSet.onData]; simp only [f2]
  rw [M.bind_ok o1, M.bind_ok o2, M.pure_run]
  simp

end

open Demo in
/-- with two frames the search from 4 fails before it is compressed and succeeds afterwards; `deepOps` ends with
that search -/
example : ∃ s0, Start.make (T := Nat) .new = .ok s0 ∧
    (DSet.inUnion 2 4 1 false false (run 64 deepOps.dropLast s0).2).1 = .error .stackOverflow ∧
    (DSet.inUnion 2 4 1 false false (run 64 deepOps s0).2).1 = .ok true ∧
    (DSet.inUnion 2 4 1 false false (run 64 (deepOps.dropLast ++ [.iterate same rev]) s0).2).1 = .ok true ∧
    (DSet.inUnion 3 4 1 false false (run 64 (deepOps.dropLast ++ [.union 4 1 false false]) s0).2).1 = .ok true :=
  ⟨_, rfl, by decide, by decide, by decide, by decide⟩

open Demo in
/-- the hypotheses hold of the history of `Verif.DS.Props` -/
example : Reached 64 (.fromIter [7, 3]) demoOps demoEnd (Start.abs (.fromIter [7, 3]) |>.run demoOps) ∧
    3 ∈ (Start.abs (.fromIter [7, 3]) |>.run demoOps).elems ∧ 4 ∈ (Start.abs (.fromIter [7, 3]) |>.run demoOps).elems ∧
    (∀ q ∈ [Op.makeSet 8 false, .inUnion 3 4 false false], ∀ x y xp yp, q ≠ .union x y xp yp) ∧
    (∀ pre, pre <+: [Op.makeSet 8 false, .inUnion 3 4 false false] →
      ((Start.abs (.fromIter [7, 3]) |>.run demoOps).run pre).card ≤ usizeMax) := by
  refine ⟨demo_reached, by decide, by decide, ?_, ?_⟩
  · intro q hq x y xp yp h
    subst h
    simp at hq
  · apply small_of_size
    have := run_size (Start.abs (.fromIter [7, 3])) demoOps
    have e1 : (Start.abs (.fromIter [7, 3])).elems.length + (demoOps.map Op.size).sum = 14 := by decide
    have e2 : ([Op.makeSet 8 false, .inUnion 3 4 false false].map Op.size).sum = 1 := by decide
    omega

section
variable {T : Type} [DecidableEq T] [Cfg]

/-! ## C69 -/

omit [Cfg] in
/-- C69: what is counted: for a search that returns (or panics otherwise than by overflowing the stack) the
counter goes up by exactly the number of stack frames the search needs. -/
theorem c69_counts_frames (k i : Nat) (d : List Data) (t : Nat)
    (h : (find k i d).1 ≠ .error .stackOverflow) :
    ∃ n, Counted.find k i (d, t) = ((find k i d).1, ((find k i d).2, t + n)) ∧ find n i d = find k i d ∧
      ∀ m, m < n → find m i d = (.error .stackOverflow, d) := by
  induction k generalizing i d t with
  | zero => exact absurd rfl h
  | succ k ih =>
    have htick : (Counted.tick : M (List Data × Nat) Unit) (d, t) = (.ok (), (d, t + 1)) := rfl
    have hzero : ∀ m, m < 1 → find m i d = (.error .stackOverflow, d) := fun m hm => by
      have : m = 0 := by omega
      subst this; rfl
    cases hd : d[i]? with
    | none =>
      have hat : at' i d = (.error .indexOutOfBounds, d) := by rw [at', hd]
      have hf : ∀ n, find (n + 1) i d = (.error .indexOutOfBounds, d) := fun n => by
        rw [find, M.bind_error hat]
      refine ⟨1, ?_, by rw [hf 0, hf k], hzero⟩
      have hat' : Counted.lift (at' i) (d, t + 1) = (.error .indexOutOfBounds, (d, t + 1)) := by
        rw [Counted.lift, hat]
      rw [Counted.find, M.bind_ok htick, M.bind_error hat', hf k]
    | some x =>
      have hat : at' i d = (.ok x, d) := by rw [at', hd]
      have hat' : Counted.lift (at' i) (d, t + 1) = (.ok x, (d, t + 1)) := by rw [Counted.lift, hat]
      by_cases hp : x.parent ≠ i
      · have hf : ∀ n, find (n + 1) i d = (find n x.parent >>= fun p => do
            setParent i p
            return p) d := fun n => by
          rw [find, M.bind_ok hat, if_pos hp]
        have hne : (find k x.parent d).1 ≠ .error .stackOverflow := by
          intro he
          apply h
          have : find k x.parent d = (.error .stackOverflow, (find k x.parent d).2) := by rw [← he]
          rw [hf, M.bind_error this]
        obtain ⟨n, h1, h2, h3⟩ := ih x.parent d (t + 1) hne
        refine ⟨n + 1, ?_, ?_, fun m hm => ?_⟩
        · rw [Counted.find, M.bind_ok htick, M.bind_ok hat', if_pos hp, M.bind_run, h1, hf, M.bind_run]
          rcases find k x.parent d with ⟨q, d'⟩
          cases q with
          | error e => simp only; rw [Nat.add_assoc, Nat.add_comm 1 n]
          | ok p =>
            simp only [M.bind_run, Counted.lift]
            rcases setParent i p d' with ⟨w, d''⟩
            cases w with
            | error e => simp only; rw [Nat.add_assoc, Nat.add_comm 1 n]
            | ok _ => simp only [M.pure_run]; rw [Nat.add_assoc, Nat.add_comm 1 n]
        · rw [hf, hf, M.bind_run, M.bind_run, h2]
        · cases m with
          | zero => rfl
          | succ m => rw [hf, M.bind_error (h3 m (by omega))]
      · have hf : ∀ n, find (n + 1) i d = (.ok x.parent, d) := fun n => by
          rw [find, M.bind_ok hat, if_neg hp, M.pure_run]
        refine ⟨1, ?_, by rw [hf 0, hf k], hzero⟩
        rw [Counted.find, M.bind_ok htick, M.bind_ok hat', if_neg hp, M.pure_run, hf k]

/-- C69: counting changes nothing: the history runs as it does without the counter. -/
theorem c69_counting_is_invisible (k : Nat) (ops : List (Op T)) (s : DSet T) (t : Nat) :
    (Counted.run k ops (s, t)).1 = (run k ops s).1 ∧ (Counted.run k ops (s, t)).2.1 = (run k ops s).2 := by
  obtain ⟨n, hn⟩ := Counted.erases_run k ops s t
  rw [hn]; exact ⟨rfl, rfl⟩

/-- C69: a history that never holds more than `n` elements calls `find_with_path_compression`, recursive calls
included, at most `α(n) + 2` times per root searched and `α(n)` times per `union`: the amortised cost is
`O(α(n))`. -/
theorem c69_amortised {n k : Nat} (hk : Nat.log2 n + 1 ≤ k) {st : Start T} {ops : List (Op T)}
    (hn : ∀ pre, pre <+: ops → (st.abs.run pre).card ≤ n) (hu : n ≤ usizeMax) :
    ∃ s0, st.make = .ok s0 ∧
      (Counted.run k ops (s0, 0)).2.2 ≤ (alpha n + 2) * searches st.abs ops + alpha n * links ops := by
  obtain ⟨s0, h1, h2⟩ := start_ok st
  obtain ⟨m, s', h3, h4⟩ := Counted.run_cost (a := alpha n) (stack := k) h2 ops
    (fun pre hp => Nat.le_trans (hn pre hp) hu)
    (fun pre hp => Nat.lt_of_le_of_lt (hn pre hp) (log_lt hk))
    (fun pre hp => Nat.le_trans (hn pre hp) (le_A_alpha n)) 0
  refine ⟨s0, h1, ?_⟩
  have h0 : Phi (alpha n) s0.dataById = 0 := by
    cases st with
    | new => cases h1; rfl
    | fromIter items =>
      have := Counted.extendLoop_potential (alpha n) items false (rel_new (T := T))
      simp only [Start.make, DSet.fromIter, fromIterLoop_eq] at h1
      obtain ⟨w, hw, _⟩ := extendLoop_ok items false (rel_new (T := T))
      rw [hw] at this h1
      cases h1
      rw [this]; rfl
    | fromIterRef items =>
      have := Counted.extendLoop_potential (alpha n) items false (rel_new (T := T))
      simp only [Start.make, DSet.fromIterRef, fromIterRefLoop_eq] at h1
      obtain ⟨w, hw, _⟩ := extendLoop_ok items false (rel_new (T := T))
      rw [hw] at this h1
      cases h1
      rw [this]; rfl
  rw [h3]
  rw [h0] at h4
  simp only
  omega

omit [DecidableEq T] in
/-- C69: `α` of anything that fits in memory is at most 4. -/
theorem c69_alpha_small : (∀ n, n ≤ usizeMax → alpha n ≤ 4) ∧ alpha 3 = 1 ∧ alpha 7 = 2 ∧ alpha 8 = 3 := by
  refine ⟨fun n hn => alpha_le (Nat.le_trans (Nat.le_of_lt (lt_two_pow hn (Nat.le_refl 64))) ?_), ?_, ?_, ?_⟩
  · exact Nat.le_trans (Nat.pow_le_pow_right (by decide) (by decide)) A_four_one
  · refine Nat.le_antisymm (alpha_le (by decide)) ?_
    have := le_A_alpha 3
    by_contra h
    have h0 : alpha 3 = 0 := by omega
    rw [h0] at this; exact absurd this (by decide)
  · refine Nat.le_antisymm (alpha_le (by decide)) ?_
    have := le_A_alpha 7
    by_contra h
    have h0 : alpha 7 ≤ 1 := by omega
    exact absurd (Nat.le_trans this (A_le_of_le h0 1)) (by decide)
  · refine Nat.le_antisymm (alpha_le (Nat.le_trans (by decide) A_three_one)) ?_
    have := le_A_alpha 8
    by_contra h
    have h0 : alpha 8 ≤ 2 := by omega
    exact absurd (Nat.le_trans this (A_le_of_le h0 1)) (by decide)

/-- C69: one node is stored per element: memory is linear. -/
theorem c69_memory {k : Nat} {st : Start T} {ops : List (Op T)} {s : DSet T} {a : Abs T}
    (h : Reached k st ops s a) : s.dataById.length = a.card ∧ s.ids.entries.length = a.card := by
  have h1 : s.ids.len = a.card := h.rel.card
  exact ⟨by rw [h.rel.len, h1], h1⟩

/-- C69: in practice: on every machine a history costs at most 16 calls per `union`, 12 per `in_union` and 6 per
element iterated over, summed over the history. -/
theorem c69_practical {k : Nat} (hk : 64 ≤ k) {st : Start T} {ops : List (Op T)}
    (small : ∀ pre, pre <+: ops → (st.abs.run pre).card ≤ usizeMax) :
    ∃ s0, st.make = .ok s0 ∧ (Counted.run k ops (s0, 0)).2.2 ≤ 6 * searches st.abs ops + 4 * links ops := by
  obtain ⟨s0, h1, h2⟩ := c69_amortised (Nat.le_trans (log_le_64 (Nat.le_refl _)) hk) small (Nat.le_refl _)
  have ha := c69_alpha_small.1 usizeMax (Nat.le_refl _)
  exact ⟨s0, h1, Nat.le_trans h2 (Nat.add_le_add (Nat.mul_le_mul_right _ (by omega)) (Nat.mul_le_mul_right _ ha))⟩

end

open Demo in
/-- `deepOps` searches eight roots in ten calls -/
example : (Counted.run 64 deepOps (DSet.new, 0)).2.2 = 10 := by decide +kernel

open Demo in
/-- the last search of `deepOps` is three calls deep -/
example : (Counted.find 64 3 ((run 64 deepOps.dropLast DSet.new).2.dataById, 0)).2.2 = 3 := by decide

open Demo in
example : (∀ pre, pre <+: deepOps → ((Start.new : Start Nat).abs.run pre).card ≤ 6) ∧
    searches (Start.new : Start Nat).abs deepOps = 8 ∧ links deepOps = 3 := by
  refine ⟨?_, ?_, by decide⟩
  · rintro pre ⟨suf, h⟩
    have h1 := run_size (Start.new : Start Nat).abs pre
    have h2 : ((Start.new : Start Nat).abs.run pre).card ≤ ((Start.new : Start Nat).abs.run pre).elems.length :=
      (List.dedup_sublist _).length_le
    have h3 : ((pre ++ suf).map Op.size).sum = 6 := by rw [h]; decide
    rw [List.map_append, List.sum_append] at h3
    have h4 : (Start.new : Start Nat).abs.elems.length = 0 := rfl
    omega
  · simp [searches, deepOps, Op.searches]

end DS
