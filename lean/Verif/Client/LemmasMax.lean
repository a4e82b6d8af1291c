import Verif.Client.SpecMax
import Verif.CB.Props
import Mathlib.Data.List.Pairwise
import Mathlib.Order.Basic
/-!
# Lemmas for C116
-/

open Rust CB
namespace Client

/-- positions that increase between two bounds -/
theorem increasing_length {α : Type} {l : List (Nat × α)} {lo hi : Nat} (hs : l.Pairwise fun a b => a.1 < b.1)
    (h : ∀ e ∈ l, lo ≤ e.1 ∧ e.1 < hi) : l.length ≤ hi - lo := by
  induction l generalizing lo with
  | nil => exact Nat.zero_le _
  | cons e l ih =>
    have h0 := h e List.mem_cons_self
    have hp := List.pairwise_cons.mp hs
    have := ih (lo := e.1 + 1) hp.2 fun f hf => ⟨hp.1 f hf, (h f (List.mem_cons_of_mem _ hf)).2⟩
    rw [List.length_cons]
    omega

section
variable {α : Type} [LinearOrder α]

/-- what the buffer holds after the items `done` -/
structure Records (w : Nat) (done : List α) (items : List (Nat × α)) : Prop where
  sorted : items.Pairwise fun a b => a.1 < b.1 ∧ b.2 < a.2
  real : ∀ e ∈ items, done[e.1]? = some e.2 ∧ done.length ≤ e.1 + w
  cover : ∀ j v, done[j]? = some v → done.length ≤ j + w → ∃ e ∈ items, j ≤ e.1 ∧ v ≤ e.2

/-- the first record is the greatest of the window -/
theorem Records.head {w : Nat} {done : List α} {e : Nat × α} {items : List (Nat × α)} (h : Records w done (e :: items)) :
    e.2 ∈ lastN w done ∧ ∀ v ∈ lastN w done, v ≤ e.2 := by
  have he := h.real e List.mem_cons_self
  constructor
  · rw [lastN, List.mem_drop_iff_getElem]
    obtain ⟨h1, h2⟩ := List.getElem?_eq_some_iff.mp he.1
    refine ⟨e.1 - (done.length - w), by omega, ?_⟩
    have : done.length - w + (e.1 - (done.length - w)) = e.1 := by omega
    simp only [this]
    exact h2
  · intro v hv
    rw [lastN, List.mem_drop_iff_getElem] at hv
    obtain ⟨j, hj, rfl⟩ := hv
    obtain ⟨f, hf, _, h2⟩ := h.cover (done.length - w + j) _ (List.getElem?_eq_getElem (by omega)) (by omega)
    rcases List.mem_cons.mp hf with rfl | hf
    · exact h2
    · exact h2.trans ((List.pairwise_cons.mp h.sorted).1 f hf).2.le

theorem Records.nil {w : Nat} : Records w ([] : List α) [] :=
  ⟨.nil, (fun e h => by cases h), fun j v h => by cases h⟩

/-- a record exceeds the later ones -/
theorem Records.later {w : Nat} {done : List α} {items : List (Nat × α)} (h : Records w done items) {e f : Nat × α}
    (he : e ∈ items) (hf : f ∈ items) (hlt : e.1 < f.1) : f.2 < e.2 := by
  obtain ⟨i, hi, rfl⟩ := List.mem_iff_getElem.mp he
  obtain ⟨j, hj, rfl⟩ := List.mem_iff_getElem.mp hf
  have hp := List.pairwise_iff_getElem.mp h.sorted
  rcases Nat.lt_trichotomy i j with hij | rfl | hij
  · exact (hp i j hi hj hij).2
  · omega
  · have := (hp j i hj hi hij).1
    omega

/-- a round: what has left the window goes, what is not greater than the new item goes, the new item comes -/
theorem Records.round {w : Nat} {done : List α} {items kept removed : List (Nat × α)} {x : α}
    (hs : (kept ++ removed).Pairwise fun a b => a.1 < b.1 ∧ b.2 < a.2)
    (hr : ∀ e ∈ kept ++ removed, done[e.1]? = some e.2 ∧ done.length < e.1 + w)
    (hc : ∀ j v, done[j]? = some v → done.length < j + w → ∃ e ∈ kept ++ removed, j ≤ e.1 ∧ v ≤ e.2)
    (h1 : ∀ e ∈ removed, e.2 ≤ x) (h2 : ∀ e ∈ kept, x < e.2) (hw : 0 < w) (hi : items = kept ++ [(done.length, x)]) :
    Records w (done ++ [x]) items := by
  subst hi
  have lt : ∀ e ∈ kept ++ removed, e.1 < done.length := fun e he => (List.getElem?_eq_some_iff.mp (hr e he).1).1
  refine ⟨?_, ?_, ?_⟩
  · refine List.pairwise_append.mpr ⟨(List.pairwise_append.mp hs).1, List.pairwise_singleton _ _, fun e he f hf => ?_⟩
    rw [List.mem_singleton.mp hf]
    exact ⟨lt e (List.mem_append_left _ he), h2 e he⟩
  · intro e he
    rcases List.mem_append.mp he with he | he
    · have he := List.mem_append_left removed he
      refine ⟨?_, ?_⟩
      · rw [List.getElem?_append_left (lt e he)]
        exact (hr e he).1
      · have := (hr e he).2
        rw [List.length_append, List.length_singleton]; omega
    · rw [List.mem_singleton.mp he]
      refine ⟨by simp, ?_⟩
      rw [List.length_append, List.length_singleton]
      show done.length + 1 ≤ done.length + w
      omega
  · intro j v hj hjw
    rw [List.length_append, List.length_singleton] at hjw
    have hn : (done.length, x) ∈ kept ++ [(done.length, x)] := List.mem_append_right _ (List.mem_singleton.mpr rfl)
    by_cases hlt : j < done.length
    · rw [List.getElem?_append_left hlt] at hj
      obtain ⟨e, he, e1, e2⟩ := hc j v hj (by omega)
      rcases List.mem_append.mp he with he | he
      · exact ⟨e, List.mem_append_left _ he, e1, e2⟩
      · exact ⟨_, hn, Nat.le_of_lt hlt, e2.trans (h1 e he)⟩
    · have : j < (done ++ [x]).length := (List.getElem?_eq_some_iff.mp hj).1
      rw [List.length_append, List.length_singleton] at this
      have : j = done.length := by omega
      subst this
      rw [List.getElem?_concat_length] at hj
      cases hj
      exact ⟨_, hn, Nat.le_refl _, le_rfl⟩

end

section
variable {α : Type} [LinearOrder α] [Cfg] [Elem (Nat × α)] {w : Nat}

omit [LinearOrder α] [Cfg] in
theorem drop_calm {e : Nat × α} (h : Elem.dropPanics e = false) (s : St (Nat × α)) :
    dropOpt (some e) s = (.ok (), ⟨s.cb, s.dropped ++ [e]⟩) := by
  show dropVal e s = _
  unfold dropVal
  rw [h]
  rfl

theorem popSmaller_ok (x : α) : ∀ (fuel : Nat) {items : List (Nat × α)} {s : St (Nat × α)}, Rep s.cb ⟨w, items⟩ →
    items.length < fuel → Calm items →
    ∃ cb kept removed, popSmaller x fuel s = (.ok (), ⟨cb, s.dropped ++ removed.reverse⟩) ∧ Rep cb ⟨w, kept⟩ ∧
      items = kept ++ removed ∧ (∀ e ∈ removed, e.2 ≤ x) ∧ ∀ e ∈ kept.getLast?, x < e.2 := by
  intro fuel
  induction fuel with
  | zero => intro items s _ h; omega
  | succ fuel ih =>
    intro items s hr hf hc
    have hl : (self_ Buf.last : M (St (Nat × α)) _) s = (.ok items.getLast?, s) := by
      show (s.cb.last, s) = _
      rw [hr.last_eq]
    rw [popSmaller, M.bind_ok hl]
    rcases List.eq_nil_or_concat items with rfl | ⟨init, e, rfl⟩
    · refine ⟨s.cb, [], [], ?_, hr, rfl, (fun e h => by cases h), fun e h => by cases h⟩
      simp only [List.getLast?_nil, List.reverse_nil, List.append_nil]
      rfl
    · rw [List.concat_eq_append] at hr hf hc ⊢
      rw [List.getLast?_concat]
      by_cases hx : e.2 ≤ x
      · obtain ⟨cb, h1, h2⟩ := popBack_sim (s := s) hr
        simp only [List.getLast?_concat, List.dropLast_concat] at h1 h2
        have h3 := drop_calm (hc e (by simp)) ⟨cb, s.dropped⟩
        obtain ⟨cb', kept, removed, g1, g2, g3, g4, g5⟩ := ih (s := ⟨cb, s.dropped ++ [e]⟩) h2
          (by simp at hf; omega) fun f hf => hc f (by simp [hf])
        refine ⟨cb', kept, removed ++ [e], ?_, g2, by rw [g3, List.append_assoc], ?_, g5⟩
        · simp only [hx, if_true]
          rw [M.bind_ok h1, M.bind_ok h3, g1]
          simp
        · intro f hf
          rcases List.mem_append.mp hf with hf | hf
          · exact g4 f hf
          · rw [List.mem_singleton.mp hf]; exact hx
      · refine ⟨s.cb, init ++ [e], [], ?_, hr, by simp, (fun e h => by cases h), fun f hf => ?_⟩
        · simp only [hx, if_false, List.reverse_nil, List.append_nil]
          rfl
        · rw [List.getLast?_concat] at hf
          cases hf
          exact not_le.mp hx

theorem popExpired_ok {done : List α} {items : List (Nat × α)} {s : St (Nat × α)} (hr : Rep s.cb ⟨w, items⟩)
    (hi : Records w done items) (hn : done.length + w ≤ usizeMax) (hc : Calm items) :
    ∃ cb gone left, popExpired done.length s = (.ok (), ⟨cb, s.dropped ++ gone⟩) ∧ Rep cb ⟨w, left⟩ ∧
      items = gone ++ left ∧ (∀ e ∈ gone, e.1 + w ≤ done.length) ∧ ∀ e ∈ left, done.length < e.1 + w := by
  have hl : (self_ Buf.first : M (St (Nat × α)) _) s = (.ok items.head?, s) := by
    show (s.cb.first, s) = _
    rw [hr.first_eq]
  rw [popExpired, M.bind_ok hl]
  cases items with
  | nil =>
    refine ⟨s.cb, [], [], ?_, hr, rfl, (fun e h => by cases h), fun e h => by cases h⟩
    simp only [List.head?_nil, List.append_nil]
    rfl
  | cons e rest =>
    have he := hi.real e List.mem_cons_self
    have hp := List.pairwise_cons.mp hi.sorted
    have hlt : e.1 < done.length := (List.getElem?_eq_some_iff.mp he.1).1
    have hcap : (self_ Buf.capacity : M (St (Nat × α)) _) s = (.ok w, s) := by
      show (s.cb.capacity, s) = _
      rw [hr.capacity_eq]
    have hadd : (M.lift (uadd e.1 w) : M (St (Nat × α)) _) s = (.ok (e.1 + w), s) := by
      rw [uadd_ok (by omega)]; rfl
    simp only [List.head?_cons]
    rw [M.bind_ok hcap, M.bind_ok hadd]
    by_cases hx : e.1 + w ≤ done.length
    · obtain ⟨cb, h1, h2⟩ := popFront_sim (s := s) hr
      simp only [List.head?_cons, List.tail_cons] at h1 h2
      have h3 := drop_calm (hc e List.mem_cons_self) ⟨cb, s.dropped⟩
      refine ⟨cb, [e], rest, ?_, h2, rfl, ?_, ?_⟩
      · simp only [hx, if_true]
        rw [M.bind_ok h1, h3]
      · intro f hf; rw [List.mem_singleton.mp hf]; exact hx
      · intro f hf
        have := (hp.1 f hf).1
        omega
    · refine ⟨s.cb, [], e :: rest, ?_, hr, rfl, (fun e h => by cases h), ?_⟩
      · simp only [hx, if_false, List.append_nil]
        rfl
      · intro f hf
        rcases List.mem_cons.mp hf with rfl | hf
        · omega
        · have := (hp.1 f hf).1
          omega

theorem feedMax_ok {done : List α} {items : List (Nat × α)} {s : St (Nat × α)} {x : α} (hw : 0 < w)
    (hr : Rep s.cb ⟨w, items⟩) (hi : Records w done items) (hn : done.length + w ≤ usizeMax)
    (hc : Calm (items ++ [(done.length, x)])) :
    ∃ cb e rest gone, feedMax done.length x s = (.ok e.2, ⟨cb, s.dropped ++ gone⟩) ∧ Rep cb ⟨w, e :: rest⟩ ∧
      Records w (done ++ [x]) (e :: rest) ∧ (gone ++ e :: rest).Perm (items ++ [(done.length, x)]) := by
  have hci : Calm items := fun e he => hc e (List.mem_append_left _ he)
  obtain ⟨cb1, gone, left, a1, a2, rfl, a4, a5⟩ := popExpired_ok hr hi hn hci
  have hlen : left.length + 1 ≤ cb1.buf.length + 1 := by
    have := a2.len_buf
    have := a2.le_cap
    simp only at *
    omega
  obtain ⟨cb2, kept, removed, b1, b2, rfl, b4, b5⟩ := popSmaller_ok x (cb1.buf.length + 1) (s := ⟨cb1, s.dropped ++ gone⟩) a2
    (by omega) fun e he => hci e (List.mem_append_right _ he)
  have hs := (List.pairwise_append.mp hi.sorted).2.1
  have hreal : ∀ e ∈ kept ++ removed, done[e.1]? = some e.2 ∧ done.length < e.1 + w := fun e he =>
    ⟨(hi.real e (List.mem_append_right _ he)).1, a5 e he⟩
  have hcov : ∀ j v, done[j]? = some v → done.length < j + w → ∃ e ∈ kept ++ removed, j ≤ e.1 ∧ v ≤ e.2 := by
    intro j v hj hjw
    obtain ⟨e, he, e1, e2⟩ := hi.cover j v hj (by omega)
    rcases List.mem_append.mp he with he | he
    · have := a4 e he; omega
    · exact ⟨e, he, e1, e2⟩
  have hk : ∀ e ∈ kept, x < e.2 := by
    intro e he
    rcases List.eq_nil_or_concat kept with rfl | ⟨init, f, rfl⟩
    · cases he
    · rw [List.concat_eq_append] at he b5 hs
      have hf := b5 f (by simp)
      rcases List.mem_append.mp he with he | he
      · have := (List.pairwise_append.mp (List.pairwise_append.mp hs).1).2.2 e he f (by simp)
        exact hf.trans this.2
      · rw [List.mem_singleton.mp he]; exact hf
  have hrec := Records.round hs hreal hcov b4 hk hw rfl
  have hcount : (kept ++ [(done.length, x)]).length ≤ w := by
    have h1 := increasing_length (lo := done.length + 1 - w) (hi := done.length + 1)
      (hrec.sorted.imp fun h => h.1) fun e he => by
        have := hrec.real e he
        have hlt := (List.getElem?_eq_some_iff.mp this.1).1
        simp only [List.length_append, List.length_singleton] at this hlt
        omega
    omega
  obtain ⟨cb3, c1, c2⟩ := pushBack_sim (s := ⟨cb2, s.dropped ++ gone ++ removed.reverse⟩) b2 (done.length, x)
  rw [pushBack_calm b2.le_cap fun e he => hc e (by
    rcases List.mem_append.mp he with he | he
    · exact List.mem_append_left _ (List.mem_append_right _ (List.mem_append_left _ he))
    · exact List.mem_append_right _ he)] at c1 c2
  have hz : (kept ++ [(done.length, x)]).length - w = 0 := by omega
  simp only [hz, List.take_zero, List.append_nil, lastN, List.drop_zero] at c1 c2
  obtain ⟨e, rest, hhead⟩ : ∃ e rest, kept ++ [(done.length, x)] = e :: rest := by
    cases kept with
    | nil => exact ⟨_, _, rfl⟩
    | cons a l => exact ⟨_, _, rfl⟩
  have hfirst : (self_ Buf.first : M (St (Nat × α)) _) ⟨cb3, s.dropped ++ gone ++ removed.reverse⟩
      = (.ok (some e), ⟨cb3, s.dropped ++ gone ++ removed.reverse⟩) := by
    show (cb3.first, _) = _
    rw [c2.first_eq, hhead]
    rfl
  refine ⟨cb3, e, rest, gone ++ removed.reverse, ?_, by rw [← hhead]; exact c2, by rw [← hhead]; exact hrec, ?_⟩
  · unfold feedMax
    have hg : (M.get : M (St (Nat × α)) _) ⟨cb1, s.dropped ++ gone⟩ = (.ok ⟨cb1, s.dropped ++ gone⟩, ⟨cb1, s.dropped ++ gone⟩) := rfl
    rw [M.bind_ok a1, M.bind_ok hg, M.bind_ok b1, M.bind_ok c1, M.bind_ok hfirst, List.append_assoc]
    rfl
  · rw [← hhead, List.append_assoc, List.append_assoc]
    refine List.Perm.append_left _ ?_
    rw [← List.append_assoc]
    exact List.Perm.append_right _ ((List.perm_append_comm).trans (List.Perm.append_left _ (List.reverse_perm _)))

theorem maxima_ok (hw : 0 < w) (stream : List α) : ∀ {done : List α} {items : List (Nat × α)} {s : St (Nat × α)},
    Rep s.cb ⟨w, items⟩ → Records w done items → done.length + stream.length + w ≤ usizeMax →
    (∀ v ∈ done ++ stream, ∀ n : Nat, Elem.dropPanics (n, v) = false) →
    ∃ ms cb items' gone, maxima done.length stream s = (.ok ms, ⟨cb, s.dropped ++ gone⟩) ∧ Rep cb ⟨w, items'⟩ ∧
      Records w (done ++ stream) items' ∧ (gone ++ items').Perm (items ++ (stream.zipIdx done.length).map Prod.swap) ∧
      ms.length = stream.length ∧
      ∀ t m, ms[t]? = some m → m ∈ lastN w (done ++ stream.take (t + 1)) ∧ ∀ v ∈ lastN w (done ++ stream.take (t + 1)), v ≤ m := by
  induction stream with
  | nil =>
    intro done items s hr hi _ _
    refine ⟨[], s.cb, items, [], ?_, hr, by simpa using hi, by simp, rfl, fun t m h => by cases h⟩
    simp only [List.append_nil]
    rfl
  | cons x xs ih =>
    intro done items s hr hi hn hc
    have hcx : Calm (items ++ [(done.length, x)]) := by
      intro e he
      rcases List.mem_append.mp he with he | he
      · exact hc e.2 (List.mem_append_left _ (List.mem_of_getElem? (hi.real e he).1)) e.1
      · rw [List.mem_singleton.mp he]
        exact hc x (by simp) _
    rw [List.length_cons] at hn
    obtain ⟨cb, e, rest, gone, a1, a2, a3, a4⟩ := feedMax_ok hw hr hi (by omega) hcx
    obtain ⟨ms, cb', items', gone', b1, b2, b3, b4, b5, b6⟩ := ih (s := ⟨cb, s.dropped ++ gone⟩) a2 a3
      (by simp only [List.length_append, List.length_singleton]; omega) (by simpa using hc)
    have hl : (done ++ [x]).length = done.length + 1 := by simp
    rw [hl] at b1 b4
    refine ⟨e.2 :: ms, cb', items', gone ++ gone', ?_, b2, by simpa using b3, ?_, by simp [b5], ?_⟩
    · rw [maxima, M.bind_ok a1, M.bind_ok b1]
      simp [M.pure_run]
    · rw [List.append_assoc]
      refine (b4.append_left gone).trans ?_
      rw [← List.append_assoc, List.zipIdx_cons, List.map_cons]
      refine (a4.append_right _).trans ?_
      rw [List.append_assoc]
      rfl
    · intro t m ht
      cases t with
      | zero =>
        cases ht
        simpa using a3.head
      | succ t =>
        have := b6 t m ht
        simpa using this

end
end Client
