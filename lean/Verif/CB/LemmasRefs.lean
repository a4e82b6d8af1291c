import Verif.CB.SpecRefs
import Verif.CB.LemmasSlices
/-!
# Helper lemmas for C133
-/

set_option linter.unusedSectionVars false

open Rust
namespace CB
variable {α : Type}

theorem Boxes.Show.of (xs dr : List α) : (Boxes.of xs dr).Show xs := by
  refine ⟨?_, ?_⟩
  · have : ((Boxes.of xs dr).held ++ (Boxes.of xs dr).rest).map Prod.fst = List.range xs.length := by
      simp only [Boxes.of, List.nil_append, List.map_map]
      apply List.ext_getElem (by simp)
      intro i h1 h2
      simp
    rw [this]
  · intro p hp
    simp only [Boxes.of, List.nil_append, List.mem_map] at hp
    obtain ⟨q, hq, rfl⟩ := hp
    have := List.mem_zipIdx_iff_getElem?.mp hq
    simpa using this

/-- writing one box writes one element -/
theorem show_set {all : List (Nat × α)} {ys : List α} {i : Nat} {p : Nat × α} (v : α)
    (hn : (all.map Prod.fst).Perm (List.range ys.length)) (hs : ∀ p ∈ all, ys[p.1]? = some p.2) (hi : all[i]? = some p) :
    ((all.set i (p.1, v)).map Prod.fst).Perm (List.range (ys.set p.1 v).length) ∧
      (∀ q ∈ all.set i (p.1, v), (ys.set p.1 v)[q.1]? = some q.2) := by
  have hnd : (all.map Prod.fst).Nodup := hn.nodup_iff.mpr List.nodup_range
  have hil : i < all.length := by
    rcases List.getElem?_eq_some_iff.mp hi with ⟨h, _⟩; exact h
  have hpi : all[i] = p := by
    rcases List.getElem?_eq_some_iff.mp hi with ⟨_, h⟩; exact h
  have hpl : p.1 < ys.length := by
    have := hs p (List.mem_of_getElem? hi)
    rcases List.getElem?_eq_some_iff.mp this with ⟨h, _⟩; exact h
  refine ⟨?_, ?_⟩
  · have : (all.set i (p.1, v)).map Prod.fst = all.map Prod.fst := by
      rw [List.map_set]
      apply List.ext_getElem (by simp)
      intro k h1 h2
      rw [List.getElem_set]
      split
      · rename_i hk; subst hk; simp [hpi]
      · rfl
    rw [this, List.length_set]; exact hn
  · intro q hq
    obtain ⟨k, hk, hqk⟩ := List.mem_iff_getElem.mp hq
    rw [List.length_set] at hk
    rw [List.getElem_set] at hqk
    split at hqk
    · subst hqk
      simp [hpl]
    · rename_i hik
      subst hqk
      have hne : p.1 ≠ all[k].1 := by
        intro he
        apply hik
        have h1 : (all.map Prod.fst)[i]'(by simpa using hil) = (all.map Prod.fst)[k]'(by simpa using hk) := by
          simp [hpi, he]
        exact List.getElem_inj hnd |>.mp h1
      rw [List.getElem?_set_ne hne]
      exact hs _ (List.getElem_mem hk)

section
variable [Cfg] [Elem α]

/-- memory and boxes agree -/
structure Agree (n st len : Nat) (h : Hold α) (b : Boxes α) (ys : List α) : Prop where
  rep : Rep h.st.cb ⟨n, ys⟩
  start : h.st.cb.start = st
  len : ys.length = len
  dropped : h.st.dropped = b.dropped
  it : h.it.collect = b.rest.map fun p => wrap (n + 1) (st + p.1)
  refs : h.refs = b.held.map fun p => wrap (n + 1) (st + p.1)
  shows : b.Show ys

variable {n st len : Nat} {h : Hold α} {b : Boxes α} {ys : List α}

theorem onSt_bind {β γ : Type} {m : M (St α) β} {k : β → M (Hold α) γ} {x : β} {s : St α}
    (e : m h.st = (.ok x, s)) : (onSt m >>= k) h = k x { h with st := s } :=
  M.bind_ok (by simp [onSt, e])

theorem refAt_some {γ : Type} {k : Nat → M (Hold α) γ} {i p : Nat} (hi : h.refs[i]? = some p) :
    (refAt i >>= k) h = k p h := M.bind_ok (by simp [refAt, M.ask, hi])

theorem refAt_none {γ : Type} {k : Nat → M (Hold α) γ} {i : Nat} (hi : h.refs[i]? = none) :
    (refAt i >>= k) h = (.error .indexOutOfBounds, h) := M.bind_error (by simp [refAt, M.ask, hi])

theorem Agree.refs_get (a : Agree n st len h b ys) (i : Nat) :
    h.refs[i]? = b.held[i]?.map fun p => wrap (n + 1) (st + p.1) := by
  rw [a.refs, List.getElem?_map]

/-- a held box leads to its element -/
theorem Agree.box (a : Agree n st len h b ys) {p : Nat × α} (hp : p ∈ b.held ++ b.rest) :
    ∃ hl : p.1 < ys.length, ys[p.1] = p.2 ∧ readCell h.st.cb.buf (wrap (n + 1) (st + p.1)) = .ok p.2 := by
  have h1 := a.shows.2 p hp
  obtain ⟨hl, he⟩ := List.getElem?_eq_some_iff.mp h1
  refine ⟨hl, he, ?_⟩
  have h2 := a.rep.cells p.1 (by have := a.rep.le_cap; simp only at this ⊢; omega)
  simp only at h2
  rw [a.start, h1] at h2
  unfold readCell
  rw [h2]

/-- storing through a held reference -/
theorem Agree.write (a : Agree n st len h b ys) {i : Nat} {p : Nat × α} (hi : b.held[i]? = some p) (v : α) (dr : List α) :
    ∃ cb', replacePos (wrap (n + 1) (st + p.1)) v h.st = (.ok p.2, ⟨cb', h.st.dropped⟩) ∧
      Agree n st len { h with st := ⟨cb', dr⟩ } { b with held := b.held.set i (p.1, v), dropped := dr } (ys.set p.1 v) := by
  obtain ⟨hl, he, _⟩ := a.box (List.mem_append_left _ (List.mem_of_getElem? hi))
  obtain ⟨cb', e, r, hs⟩ := replacePos_sim (s := h.st) a.rep (i := p.1) (by simpa using hl) v
  simp only [a.start] at e
  refine ⟨cb', by rw [e]; simp [he], ⟨r, hs.trans a.start, by rw [List.length_set, a.len], rfl, a.it, ?_, ?_⟩⟩
  · rw [a.refs, List.map_set]
    apply List.ext_getElem (by simp)
    intro k h1 h2
    rw [List.getElem_set]
    split
    · rename_i hk
      subst hk
      have := (List.getElem?_eq_some_iff.mp hi).2
      simp [this]
    · rfl
  · have hil : i < b.held.length := (List.getElem?_eq_some_iff.mp hi).1
    have := show_set v a.shows.1 a.shows.2 (i := i) (p := p) (by rw [List.getElem?_append_left hil]; exact hi)
    rw [List.set_append_left _ _ hil] at this
    exact this

theorem step_agrees (a : Agree n st len h b ys) (o : RefOp α) :
    (stepRef o h).1 = (b.step o).1 ∧ ∃ ys', Agree n st len (stepRef o h).2 (b.step o).2 ys' := by
  cases o with
  | next =>
    obtain ⟨h1, h2⟩ := h.it.next_collect
    rw [a.it] at h1 h2
    unfold stepRef Boxes.step
    dsimp only
    cases hr : b.rest with
    | nil =>
      rw [hr] at h1 h2
      simp only [List.map_nil, List.head?_nil, List.tail_nil] at h1 h2
      rw [h1]
      exact ⟨rfl, ys, ⟨a.rep, a.start, a.len, a.dropped, by simp [h2, hr], by simp [a.refs], a.shows⟩⟩
    | cons p r =>
      rw [hr] at h1 h2
      simp only [List.map_cons, List.head?_cons, List.tail_cons] at h1 h2
      rw [h1]
      refine ⟨rfl, ys, ⟨a.rep, a.start, a.len, a.dropped, h2, by simp [a.refs], ?_⟩⟩
      have := a.shows
      unfold Boxes.Show at this ⊢
      rw [hr] at this
      simpa using this
  | nextBack =>
    obtain ⟨h1, h2⟩ := h.it.nextBack_collect
    rw [a.it] at h1 h2
    unfold stepRef Boxes.step
    dsimp only
    rcases List.eq_nil_or_concat b.rest with hr | ⟨r, p, hr⟩
    · rw [hr] at h1 h2
      simp only [List.map_nil, List.getLast?_nil, List.dropLast_nil] at h1 h2
      rw [h1, hr]
      exact ⟨rfl, ys, ⟨a.rep, a.start, a.len, a.dropped, by simp [h2, hr], by simp [a.refs], a.shows⟩⟩
    · rw [List.concat_eq_append] at hr
      rw [hr] at h1 h2
      simp only [List.map_append, List.map_cons, List.map_nil, List.getLast?_append, List.getLast?_singleton,
        Option.some_or, List.dropLast_concat] at h1 h2
      rw [h1, hr]
      simp only [List.getLast?_append, List.getLast?_singleton, Option.some_or, List.dropLast_concat]
      refine ⟨rfl, ys, ⟨a.rep, a.start, a.len, a.dropped, h2, by simp [a.refs], ?_⟩⟩
      have hp : (b.held ++ [p] ++ r).Perm (b.held ++ b.rest) := by
        rw [hr, List.append_assoc]
        exact List.Perm.append_left _ List.perm_append_comm
      exact ⟨(hp.map _).trans a.shows.1, fun q hq => a.shows.2 q (hp.mem_iff.mp hq)⟩
  | read i =>
    unfold stepRef Boxes.step
    dsimp only
    have hg := a.refs_get i
    cases hi : b.held[i]? with
    | none =>
      rw [hi] at hg
      rw [refAt_none hg]
      exact ⟨rfl, ys, a⟩
    | some p =>
      rw [hi] at hg
      rw [refAt_some hg]
      obtain ⟨_, _, hc⟩ := a.box (List.mem_append_left _ (List.mem_of_getElem? hi))
      rw [onSt_bind (x := p.2) (s := h.st) (by rw [self_run]; simp only; rw [hc])]
      exact ⟨rfl, ys, a⟩
  | assign i v =>
    unfold stepRef Boxes.step
    dsimp only
    have hg := a.refs_get i
    cases hi : b.held[i]? with
    | none =>
      rw [hi] at hg
      rw [refAt_none hg]
      exact ⟨rfl, ys, a⟩
    | some p =>
      rw [hi] at hg
      rw [refAt_some hg]
      obtain ⟨cb', e, a'⟩ := a.write hi v (h.st.dropped ++ [p.2])
      rw [onSt_bind e]
      by_cases hd : Elem.dropPanics p.2
      · rw [M.bind_error (e := .user) (s' := { h with st := ⟨cb', h.st.dropped ++ [p.2]⟩ }) (by simp [onSt, dropVal, hd])]
        simp only [hd, if_true]
        exact ⟨trivial, _, by rw [← a.dropped]; exact a'⟩
      · rw [M.bind_ok (a := ()) (s' := { h with st := ⟨cb', h.st.dropped ++ [p.2]⟩ }) (by simp [onSt, dropVal, hd])]
        simp only [hd]
        exact ⟨rfl, _, by rw [← a.dropped]; exact a'⟩
  | replace i v =>
    unfold stepRef Boxes.step
    dsimp only
    have hg := a.refs_get i
    cases hi : b.held[i]? with
    | none =>
      rw [hi] at hg
      rw [refAt_none hg]
      exact ⟨rfl, ys, a⟩
    | some p =>
      rw [hi] at hg
      rw [refAt_some hg]
      obtain ⟨cb', e, a'⟩ := a.write hi v h.st.dropped
      rw [onSt_bind e]
      exact ⟨rfl, _, by rw [a.dropped] at a'; rw [a.dropped]; exact a'⟩
  | swap i j =>
    unfold stepRef Boxes.step
    dsimp only
    by_cases hij : i < j
    · simp only [hij, if_true]
      have hg := a.refs_get i
      have hg' := a.refs_get j
      cases hi : b.held[i]? with
      | none =>
        rw [hi] at hg
        rw [refAt_none hg]
        exact ⟨rfl, ys, a⟩
      | some p =>
        rw [hi] at hg
        rw [refAt_some hg]
        cases hj : b.held[j]? with
        | none =>
          rw [hj] at hg'
          rw [refAt_none hg']
          exact ⟨rfl, ys, a⟩
        | some q =>
          rw [hj] at hg'
          rw [refAt_some hg']
          obtain ⟨_, _, hc⟩ := a.box (List.mem_append_left _ (List.mem_of_getElem? hi))
          rw [onSt_bind (x := p.2) (s := h.st) (by rw [self_run]; simp only; rw [hc])]
          obtain ⟨cb1, e1, a1⟩ := a.write hj p.2 h.st.dropped
          rw [onSt_bind e1]
          obtain ⟨cb2, e2, a2⟩ := a1.write (i := i) (p := p) (by simp only; rw [List.getElem?_set_ne (by omega)]; exact hi) q.2
            h.st.dropped
          rw [onSt_bind e2]
          exact ⟨rfl, _, by rw [a.dropped] at a2; rw [a.dropped]; exact a2⟩
    · simp only [hij, if_false]
      exact ⟨rfl, ys, a⟩
  | reorder i j =>
    unfold stepRef Boxes.step
    dsimp only
    have hg := a.refs_get i
    have hg' := a.refs_get j
    cases hi : b.held[i]? with
    | none =>
      rw [hi] at hg
      rw [refAt_none hg]
      exact ⟨rfl, ys, a⟩
    | some p =>
      rw [hi] at hg
      rw [refAt_some hg]
      cases hj : b.held[j]? with
      | none =>
        rw [hj] at hg'
        rw [refAt_none hg']
        exact ⟨rfl, ys, a⟩
      | some q =>
        rw [hj] at hg'
        rw [refAt_some hg']
        refine ⟨rfl, ys, ⟨a.rep, a.start, a.len, a.dropped, a.it, ?_, ?_⟩⟩
        · show (h.refs.set i _).set j _ = _
          rw [a.refs, List.map_set, List.map_set]
        · obtain ⟨hil, rfl⟩ := List.getElem?_eq_some_iff.mp hi
          obtain ⟨hjl, rfl⟩ := List.getElem?_eq_some_iff.mp hj
          have hp : ((b.held.set i b.held[j]).set j b.held[i] ++ b.rest).Perm (b.held ++ b.rest) :=
            (List.set_set_perm hil hjl).append_right _
          exact ⟨(hp.map _).trans a.shows.1, fun x hx => a.shows.2 x (hp.mem_iff.mp hx)⟩

theorem run_agrees (os : List (RefOp α)) : ∀ {h : Hold α} {b : Boxes α} {ys : List α}, Agree n st len h b ys →
    (runRef os h).1 = (b.run os).1 ∧ ∃ ys', Agree n st len (runRef os h).2 (b.run os).2 ys' := by
  induction os with
  | nil => intro h b ys a; exact ⟨rfl, ys, a⟩
  | cons o os ih =>
    intro h b ys a
    obtain ⟨e, ys1, a1⟩ := step_agrees a o
    obtain ⟨e2, a2⟩ := ih a1
    exact ⟨by simp only [runRef, Boxes.run]; rw [e, e2], a2⟩

/-- the first moment -/
theorem start_agrees {cb : Buf α} {xs : List α} (h : Reachable cb) (hx : cb.contents = .ok xs) (dr : List α) :
    ∃ it n, cb.iterMutPlaces = .ok it ∧ cb.capacity = .ok n ∧ Rep cb ⟨n, xs⟩ ∧
      Agree n cb.start xs.length ⟨⟨cb, dr⟩, it, []⟩ (Boxes.of xs dr) xs := by
  obtain ⟨xs', n, hx', hn, hl, r⟩ := h.shows
  rw [hx] at hx'; cases hx'
  have him := r.iterMut_eq
  obtain ⟨⟨a, b⟩, hab⟩ := (c07_views_never_fault h).2.1
  unfold Buf.iterMut at him
  rw [hab] at him
  simp only [bind, Except.bind, pure, Except.pure, Except.ok.injEq] at him
  refine ⟨⟨Buf.regionPositions a, Buf.regionPositions b⟩, n, by unfold Buf.iterMutPlaces; rw [hab]; rfl, hn, r,
    ⟨r, rfl, rfl, rfl, ?_, rfl, .of xs dr⟩⟩
  show Buf.regionPositions a ++ Buf.regionPositions b = _
  rw [him]
  simp only [Boxes.of, List.map_map]
  apply List.ext_getElem (by simp)
  intro i h1 h2
  simp

end
end CB
