import Verif.CB.LemmasSlices
/-!
# C125: editing the elements in place through `slices_mut` and `linearize`
-/

open Rust
namespace CB
section
variable {α β : Type} [Cfg] [Elem α] {cb : Buf α} {xs : List α}

/-- **C125 (`slices_mut`).** Whatever client code does with the two slices, it sees the content cut in two, and afterwards
the content is what it has left in them, in that order. Capacity and the cut stay, nothing is dropped, and the buffer is as
good as one that the other calls have produced. This holds as well when the client code panics. -/
theorem c125_slices_mut (h : Reachable cb) (hx : cb.contents = .ok xs) (f : Edit2 α β) (hf : f.Keeps) (dr : List α) :
    ∃ as bs cb', cb.slices = .ok (as, bs) ∧ as ++ bs = xs ∧
      editSlices f ⟨cb, dr⟩ = ((f as bs).1, ⟨cb', dr⟩) ∧
      cb'.contents = .ok ((f as bs).2.1 ++ (f as bs).2.2) ∧ cb'.slices = .ok (f as bs).2 ∧
      cb'.capacity = cb.capacity ∧ Reachable cb' := by
  obtain ⟨xs', n, hx', hn, hl, r⟩ := h.shows
  rw [hx] at hx'; cases hx'
  obtain ⟨⟨a, b⟩, hab⟩ := (c07_views_never_fault h).2.1
  obtain ⟨⟨as, bs⟩, hs⟩ := (c07_views_never_fault h).1
  obtain ⟨h1, h2, h3, h4⟩ := r.store hab hs (hf as bs).1 (hf as bs).2
  have hr := reachable_of_rewritten h r h3 (by rw [List.length_append, (hf as bs).1, (hf as bs).2, ← h4, List.length_append]) rfl
  refine ⟨as, bs, _, hs, h4, ?_, h3.contents_eq, ?_, by rw [h3.capacity_eq, hn], hr⟩
  · unfold editSlices
    rw [self_bind _ _ hab]
    dsimp only
    rw [self_bind _ _ h1, self_bind _ _ h2, setBuf_bind]
    rfl
  · rw [h3.slices_eq]
    have hs2 := hs
    rw [r.slices_eq] at hs2
    simp only
    by_cases hle : cb.start ≤ cb.end_
    · rw [if_pos hle] at hs2 ⊢
      cases hs2
      have hb : (f xs []).2.2 = [] := List.length_eq_zero_iff.mp (hf xs []).2
      rw [hb, List.append_nil]
      congr 1
      exact Prod.ext rfl hb.symm
    · rw [if_neg hle] at hs2 ⊢
      have he : cb.end_ + (n + 1) = cb.start + xs.length := by
        have h5 := r.end_eq
        have := r.start_le
        simp only at h5 this
        unfold wrap at h5; split at h5 <;> omega
      cases hs2
      have hlen : (f (xs.take (n + 1 - cb.start)) (xs.drop (n + 1 - cb.start))).2.1.length = n + 1 - cb.start := by
        rw [(hf _ _).1, List.length_take]; omega
      rw [List.take_left' hlen, List.drop_left' hlen]

/-- **C125 (`linearize`).** Whatever client code does with the slice that `linearize` returns, it sees the whole content, and
afterwards the content is what it has left there. -/
theorem c125_linearize (h : Reachable cb) (hx : cb.contents = .ok xs) (f : Edit α β) (hf : f.Keeps) (dr : List α) :
    ∃ cb', editLinear f ⟨cb, dr⟩ = ((f xs).1, ⟨cb', dr⟩) ∧ cb'.contents = .ok (f xs).2 ∧
      cb'.slices = .ok ((f xs).2, []) ∧ cb'.capacity = cb.capacity ∧ Reachable cb' := by
  obtain ⟨xs', n, hx', hn, hl, r⟩ := h.shows
  rw [hx] at hx'; cases hx'
  obtain ⟨cb1, e, r1, hs⟩ := linearize_sim (s := ⟨cb, dr⟩) r
  simp only at e hs
  have hr1 : Reachable cb1 := by
    have h2 := Reachable.step .linearize dr h trivial
    have h3 : (step .linearize ⟨cb, dr⟩).2.cb = cb1 := by rw [step, M.bind_ok e]; rfl
    rwa [h3] at h2
  have hs1 : cb1.slices = .ok (xs, []) := by rw [r1.slices_eq, hs, if_pos (Nat.zero_le _)]
  obtain ⟨⟨a, b⟩, hab⟩ := (c07_views_never_fault hr1).2.1
  have hlt := r1.end_lt
  have hlb := r1.len_buf
  have ha : a = (0, cb1.end_) ∧ b = (cb1.end_, 0) := by
    unfold Buf.slicesMut at hab
    rw [hs, if_pos (Nat.zero_le _), if_pos (by omega)] at hab
    cases hab
    exact ⟨rfl, rfl⟩
  obtain ⟨rfl, rfl⟩ := ha
  obtain ⟨_, _, h3, _⟩ := r1.store (bs' := []) hab hs1 (hf xs) rfl
  rw [List.append_nil] at h3
  have hst : storeRegion (cb1.end_, 0) [] (storeRegion (0, cb1.end_) (f xs).2 cb1.buf)
      = storeRegion (0, cb1.end_) (f xs).2 cb1.buf := by
    unfold storeRegion; simp
  rw [hst] at h3
  refine ⟨_, ?_, h3.contents_eq, ?_, by rw [h3.capacity_eq, hn],
    reachable_of_rewritten hr1 r1 h3 (hf xs) rfl⟩
  · unfold editLinear
    rw [M.bind_ok e, setBuf_bind]
    rfl
  · rw [h3.slices_eq]
    simp only
    rw [hs, if_pos (Nat.zero_le _)]

/-- **C125 (sorting).** If the client sorts the slice that `linearize` returns, then afterwards the buffer holds the same
elements in order: `first()` is a least element, `last()` a greatest, and of two elements the one with the smaller index is
not greater. -/
theorem c125_sort (h : Reachable cb) (hx : cb.contents = .ok xs) (le : α → α → Prop) (f : Edit α Unit)
    (hf : ∀ ys, (f ys).1 = .ok () ∧ (f ys).2.Perm ys ∧ (f ys).2.Pairwise le) (dr : List α) :
    ∃ cb' ys, editLinear f ⟨cb, dr⟩ = (.ok (), ⟨cb', dr⟩) ∧ cb'.contents = .ok ys ∧ ys.Perm xs ∧
      (∀ i j x y, i < j → cb'.index i = .ok x → cb'.index j = .ok y → le x y) ∧
      (∀ x, cb'.first = .ok (some x) → ∀ y ∈ xs, y = x ∨ le x y) ∧
      (∀ x, cb'.last = .ok (some x) → ∀ y ∈ xs, y = x ∨ le y x) ∧
      cb'.capacity = cb.capacity ∧ Reachable cb' := by
  obtain ⟨cb', e, h1, _, h3, h4⟩ := c125_linearize h hx f (fun ys => (hf ys).2.1.length_eq) dr
  obtain ⟨hok, hp, hw⟩ := hf xs
  rw [hok] at e
  obtain ⟨_, _, hi, hfst, hlst⟩ := c10_views_agree h4 h1
  obtain ⟨ys, n, hy, hn, hl, r⟩ := h4.shows
  rw [h1] at hy
  injection hy with hy
  have hget : ∀ {i x}, cb'.index i = .ok x → ∃ hlt : i < (f xs).2.length, (f xs).2[i] = x := by
    intro i x hx
    by_cases hlt : i < (f xs).2.length
    · rw [hi i hlt] at hx
      injection hx with hx
      exact ⟨hlt, hx⟩
    · rw [r.index_err (by simp only; rw [← hy]; omega)] at hx
      cases hx
  refine ⟨cb', (f xs).2, e, h1, hp, ?_, ?_, ?_, h3, h4⟩
  · intro i j x y hij hx hy
    obtain ⟨hi1, rfl⟩ := hget hx
    obtain ⟨hj1, rfl⟩ := hget hy
    exact List.pairwise_iff_getElem.mp hw i j hi1 hj1 hij
  · intro x hx y hy
    rw [hfst] at hx
    injection hx with hx
    have hy' := hp.mem_iff.mpr hy
    cases hz : (f xs).2 with
    | nil => rw [hz] at hx; cases hx
    | cons z zs =>
      rw [hz] at hx hy' hw
      injection hx with hx
      subst hx
      rcases List.mem_cons.mp hy' with rfl | hm
      · exact .inl rfl
      · exact .inr ((List.pairwise_cons.mp hw).1 y hm)
  · intro x hx y hy
    rw [hlst] at hx
    injection hx with hx
    have hy' := hp.mem_iff.mpr hy
    obtain ⟨zs, hz⟩ := List.getLast?_eq_some_iff.mp hx
    rw [hz] at hy' hw
    rcases List.mem_append.mp hy' with hm | hm
    · exact .inr ((List.pairwise_append.mp hw).2.2 y hm x (by simp))
    · exact .inl (by simpa using hm)

/-- **C125 (a panic while sorting).** If the comparison function panics, the elements are left in some order. The buffer
keeps them all. -/
theorem c125_sort_panics (h : Reachable cb) (hx : cb.contents = .ok xs) (f : Edit α Unit) (hf : ∀ ys, (f ys).2.Perm ys)
    (he : (f xs).1 = .error .user) (dr : List α) :
    ∃ cb' ys, editLinear f ⟨cb, dr⟩ = (.error .user, ⟨cb', dr⟩) ∧ cb'.contents = .ok ys ∧ ys.Perm xs ∧
      cb'.capacity = cb.capacity ∧ Reachable cb' := by
  obtain ⟨cb', e, h1, _, h3, h4⟩ := c125_linearize h hx f (fun ys => (hf ys).length_eq) dr
  rw [he] at e
  exact ⟨cb', _, e, h1, hf xs, h3, h4⟩

end

/-! ## Cases that meet the hypotheses -/

section
open Demo

/-- `|a, b| { a.reverse(); b.reverse() }` -/
def Demo.reverseBoth : Edit2 Nat Unit := fun xs ys => (.ok (), xs.reverse, ys.reverse)

/-- `|s| s.sort_by(|x, y| y.cmp(x))` -/
def Demo.sortDown : Edit Nat Unit := fun xs => (.ok (), xs.mergeSort fun x y => decide (y ≤ x))

/-- Code that exchanges the first two elements, and then panics -/
def Demo.halfSorted : Edit Nat Unit := fun xs =>
  match xs with
  | x :: y :: r => (.error .user, y :: x :: r)
  | r => (.ok (), r)

example : Reachable Demo.buf ∧ Demo.buf.contents = .ok [3, 4, 5] ∧ Demo.buf.slices = .ok ([3, 4], [5]) ∧
    reverseBoth.Keeps ∧ reverseBoth [3, 4] [5] = (.ok (), [4, 3], [5]) :=
  ⟨buf_reachable, buf_contents, rfl, fun _ _ => by simp [reverseBoth], rfl⟩

example : ∀ ys, (sortDown ys).1 = .ok () ∧ (sortDown ys).2.Perm ys ∧ (sortDown ys).2.Pairwise fun x y => y ≤ x := by
  intro ys
  refine ⟨rfl, List.mergeSort_perm _ _, ?_⟩
  have := List.pairwise_mergeSort (le := fun x y : Nat => decide (y ≤ x)) (by simp; omega) (by simp; omega) ys
  simpa [sortDown] using this

example : ∃ cb', editLinear sortDown ⟨Demo.buf, []⟩ = (.ok (), ⟨cb', []⟩) ∧ cb'.contents = .ok [5, 4, 3] := by
  obtain ⟨cb', h1, h2, _⟩ := c125_linearize buf_reachable buf_contents sortDown
    (fun xs => List.length_mergeSort xs) []
  exact ⟨cb', h1, by rw [h2]; simp [sortDown, List.mergeSort, List.MergeSort.Internal.splitInTwo]⟩

example : (∀ ys, (halfSorted ys).2.Perm ys) ∧ (halfSorted [3, 4, 5]).1 = .error .user := by
  refine ⟨fun ys => ?_, rfl⟩
  unfold halfSorted
  split
  · exact .swap ..
  · exact .refl _

end
end CB
