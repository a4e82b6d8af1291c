import Verif.Client.SpecWindow
import Verif.CB.Props
import Verif.Cnt.Props
import Verif.Itv.PropsFold
/-!
# Lemmas for C106
-/

open Rust CB Cnt
namespace Client

section
variable {α : Type} [Cfg] [Elem α] [DecidableEq α]

omit [Cfg] [Elem α] [DecidableEq α] in
theorem onBuf_ok {β : Type} {m : M (St α) β} {w : Window α} {b : β} {s : St α} (h : m w.st = (.ok b, s)) :
    onBuf m w = (.ok b, { w with st := s }) := by rw [onBuf, h]

omit [Cfg] [Elem α] [DecidableEq α] in
theorem onCounts_ok {β : Type} {m : M (Counter α) β} {w : Window α} {b : β} {c : Counter α}
    (h : m w.counts = (.ok b, c)) : onCounts m w = (.ok b, { w with counts := c }) := by rw [onCounts, h]

omit [Elem α] in
theorem fromIter_ok {xs : List α} (h : ∀ k, xs.count k ≤ usizeMax) :
    ∃ c, Counter.fromIter xs = .ok c ∧ Valid c ∧ Holds c xs ∧ c.len = xs.dedup.length := by
  obtain ⟨c0, c, h1, _, h2, h3, h4⟩ := c45_counts_multiplicities xs [] (by simpa using h)
  cases h2
  simp only [List.flatMap_nil, List.append_nil] at h3 h4
  exact ⟨_, h1, built_valid (.fromIter h1), h3, h4⟩

/-- one item -/
theorem feed_ok {n : Nat} (hpos : 0 < n) (hn : n ≤ usizeMax) {w : Window α} {xs : List α}
    (hr : Rep w.st.cb ⟨n, xs⟩) (hv : Valid w.counts) (hh : Holds w.counts xs) (x : α) (hc : Calm (xs ++ [x])) :
    ∃ cb c, feed x w = (.ok (), ⟨⟨cb, w.st.dropped⟩, c⟩) ∧ Rep cb ⟨n, lastN n (xs ++ [x])⟩ ∧ Valid c ∧
      Holds c (lastN n (xs ++ [x])) := by
  have hle := hr.le_cap
  simp only at hle
  have hmult : ∀ (ys : List α), ys.length ≤ n → ∀ k, ys.count k ≤ usizeMax := fun ys hy k =>
    (List.count_le_length.trans hy).trans hn
  -- the end of the round, when there is space
  have fin : ∀ (w' : Window α) (ys : List α), Rep w'.st.cb ⟨n, ys⟩ → Valid w'.counts → Holds w'.counts ys →
      ys.length < n → Calm (ys ++ [x]) →
      ∃ cb c, (do onCounts (Counter.push x); onBuf (pushBack x) : M (Window α) Unit) w'
          = (.ok (), ⟨⟨cb, w'.st.dropped⟩, c⟩) ∧ Rep cb ⟨n, ys ++ [x]⟩ ∧ Valid c ∧ Holds c (ys ++ [x]) := by
    intro w' ys hr hv hh hlt hc
    obtain ⟨c, h1, h2, h3⟩ := feed_run (.push x) hv (fun k => by
      have := hmult (ys ++ [x]) (by simp; omega) k
      rw [hh.mult]; simpa [Feed.items] using this)
    have h1 : Counter.push x w'.counts = (.ok (), c) := h1
    obtain ⟨cb, g1, g2⟩ := pushBack_sim (s := w'.st) hr x
    rw [pushBack_calm hr.le_cap hc] at g1 g2
    have hz : (ys ++ [x]).length - n = 0 := by simp; omega
    simp only [hz, List.take_zero, List.append_nil, lastN, List.drop_zero] at g1 g2
    refine ⟨cb, c, ?_, g2, h2, fun k => ?_⟩
    · rw [M.bind_ok (onCounts_ok h1), onBuf_ok (w := ⟨w'.st, c⟩) g1]
    · rw [h3, hh.mult, hh]
      simp only [Feed.items, List.mem_singleton, List.count_append, List.count_singleton]
      by_cases hk : k = x
      · subst hk; simp
      · simp [hk, Ne.symm hk]
  have hfull := hr.isFull_eq
  unfold feed
  have hask : (self_ Buf.isFull : M (St α) Bool) w.st = (.ok (xs.length == n), w.st) := by
    show (w.st.cb.isFull, w.st) = _
    rw [hfull]
  rw [M.bind_ok (onBuf_ok hask)]
  by_cases hlt : xs.length < n
  · have hz : (xs ++ [x]).length - n = 0 := by simp; omega
    have hb : (xs.length == n) = false := by simp; omega
    rw [hb, lastN, hz, List.drop_zero]
    exact fin w xs hr hv hh hlt hc
  · have hlen : xs.length = n := by omega
    have hb : (xs.length == n) = true := by simp [hlen]
    obtain ⟨y, ys, rfl⟩ : ∃ y ys, xs = y :: ys := by
      cases xs with
      | nil => simp at hlen; omega
      | cons y ys => exact ⟨y, ys, rfl⟩
    have hz : (y :: ys ++ [x]).length - n = 1 := by simp at hlen ⊢; omega
    rw [hb, lastN, hz]
    obtain ⟨cb, h1, h2⟩ := popFront_sim (s := w.st) hr
    obtain ⟨one, h3, h4, h5, _⟩ := fromIter_ok (xs := [y]) (hmult [y] (by simpa using Nat.succ_le_of_lt hpos))
    obtain ⟨c, h6, h7, h8⟩ := subAssign_diff hv h4 (List.Perm.refl one.counter.entries)
    simp only [List.head?_cons, List.tail_cons] at h1 h2
    simp only [if_true]
    rw [M.bind_ok (onBuf_ok h1)]
    have h3' : (M.lift (Counter.fromIter [y]) : M (Window α) _) ⟨⟨cb, w.st.dropped⟩, w.counts⟩
        = (.ok one, ⟨⟨cb, w.st.dropped⟩, w.counts⟩) := by rw [M.lift, h3]
    dsimp only
    rw [M.bind_ok h3', M.bind_ok (onCounts_ok (w := ⟨⟨cb, w.st.dropped⟩, w.counts⟩) h6)]
    refine fin ⟨⟨cb, w.st.dropped⟩, c⟩ ys h2 h7 (fun k => ?_) (by simp at hlen; omega)
      fun z hz => hc z (by simp at hz ⊢; tauto)
    rw [h8, h5, hh.mult, h5.mult, hh]
    simp only [List.count_cons, List.count_nil]
    by_cases hk : y = k
    · subst hk; by_cases h0 : List.count y ys = 0 <;> simp [h0, Nat.pos_iff_ne_zero]
    · simp [hk]

theorem feedAll_ok {n : Nat} (hpos : 0 < n) (hn : n ≤ usizeMax) (stream : List α) (hc : Calm stream) :
    ∀ (done : List α) {w : Window α}, Calm done → Rep w.st.cb ⟨n, lastN n done⟩ → Valid w.counts →
      Holds w.counts (lastN n done) →
      ∃ cb c, feedAll stream w = (.ok (), ⟨⟨cb, w.st.dropped⟩, c⟩) ∧ Rep cb ⟨n, lastN n (done ++ stream)⟩ ∧ Valid c ∧
        Holds c (lastN n (done ++ stream)) := by
  induction stream with
  | nil =>
    intro done w _ hr hv hh
    rw [List.append_nil]
    exact ⟨_, _, rfl, hr, hv, hh⟩
  | cons x xs ih =>
    intro done w hd hr hv hh
    have hx : Calm (lastN n done ++ [x]) := by
      intro z hz
      rcases List.mem_append.mp hz with hz | hz
      · exact hd z (List.mem_of_mem_drop hz)
      · exact hc z (by simp at hz; simp [hz])
    have hl : lastN n (lastN n done ++ [x]) = lastN n (done ++ [x]) := lastN_append_lastN n done [x]
    obtain ⟨cb, c, h1, h2, h3, h4⟩ := feed_ok hpos hn hr hv hh x hx
    rw [hl] at h2 h4
    obtain ⟨cb', c', g1, g2, g3, g4⟩ := ih (fun z hz => hc z (List.mem_cons_of_mem _ hz)) (done ++ [x])
      (w := ⟨⟨cb, w.st.dropped⟩, c⟩) (by
        intro z hz
        rcases List.mem_append.mp hz with hz | hz
        · exact hd z hz
        · exact hc z (by simp at hz; simp [hz])) h2 h3 h4
    rw [List.append_assoc] at g2 g4
    refine ⟨cb', c', ?_, g2, g3, g4⟩
    unfold feedAll
    rw [M.bind_ok h1, g1]

variable {n : Nat}

/-- the client after a stream -/
theorem fed (hu : Elem.uninitOk α = true) (hpos : 0 < n) (hn : n ≤ isizeMax)
    (hs : (n + 1) * Elem.size α ≤ isizeMax) (stream : List α) (hc : Calm stream) :
    ∃ cb cb' c, withCapacity n = .ok cb ∧ feedAll stream ⟨⟨cb, []⟩, Counter.new⟩ = (.ok (), ⟨⟨cb', []⟩, c⟩) ∧
      Rep cb' ⟨n, lastN n stream⟩ ∧ Valid c ∧ Holds c (lastN n stream) := by
  have h6 := two_isizeMax
  obtain ⟨cb, e, r⟩ := withCapacity_rep hu hn hs
  obtain ⟨cb', c, h1, h2, h3, h4⟩ := feedAll_ok hpos (by omega) stream hc [] (w := ⟨⟨cb, []⟩, Counter.new⟩)
    (fun z hz => by simp at hz) (by simpa [lastN] using r) valid_new fun k => by
      simp [lastN, Counter.new, Counter.get, HMap.get, HMap.empty, HMap.lookup]
  exact ⟨cb, cb', c, e, h1, h2, h3, h4⟩

end

section
variable {α : Type} [LinearOrder α]

theorem span_step {lo up : α} (h : lo ≤ up) (x : α) :
    Itv.Interval.intoSpan (Itv.iv lo true up true) (Itv.Interval.single x)
      = .ok (Itv.iv (min lo x) true (max up x) true) := by
  have h1 : Itv.WellFormed (Itv.iv lo true up true) := h.lt_or_eq.imp id fun h => ⟨h, rfl, rfl⟩
  have h2 : Itv.WellFormed (Itv.iv x true x true) := .inr ⟨rfl, rfl, rfl⟩
  have := Itv.Interval.intoSpan_mk h1 h2
  refine this.trans ?_
  unfold Itv.Interval.hull
  have e1 : (Itv.LowerBound.le ⟨⟨lo, true⟩⟩ ⟨⟨x, true⟩⟩ = true) = (lo ≤ x) := by
    rw [Itv.LowerBound.le_iff]
    exact propext ⟨fun h => h.elim le_of_lt fun h => le_of_eq h.1, fun h => h.lt_or_eq.imp id fun h => ⟨h, .inl rfl⟩⟩
  have e2 : (Itv.UpperBound.le ⟨⟨up, true⟩⟩ ⟨⟨x, true⟩⟩ = true) = (up ≤ x) := by
    rw [Itv.UpperBound.le_iff]
    exact propext ⟨fun h => h.elim le_of_lt fun h => le_of_eq h.1, fun h => h.lt_or_eq.imp id fun h => ⟨h, .inr rfl⟩⟩
  simp only [e1, e2]
  have e3 : (if lo ≤ x then ⟨⟨lo, true⟩⟩ else ⟨⟨x, true⟩⟩ : Itv.LowerBound α) = ⟨⟨min lo x, true⟩⟩ := by
    split
    · rename_i hl; rw [min_eq_left hl]
    · rename_i hl; rw [min_eq_right (le_of_not_ge hl)]
  have e4 : (if up ≤ x then ⟨⟨x, true⟩⟩ else ⟨⟨up, true⟩⟩ : Itv.UpperBound α) = ⟨⟨max up x, true⟩⟩ := by
    split
    · rename_i hl; rw [max_eq_right hl]
    · rename_i hl; rw [max_eq_left (le_of_not_ge hl)]
  rw [e3, e4]

theorem span_all (xs : List α) : ∀ {lo up : α}, lo ≤ up →
    ∃ lo' up', Itv.spanAll (Itv.iv lo true up true) (xs.map Itv.Interval.single) = .ok (Itv.iv lo' true up' true) ∧
      (lo' = lo ∨ lo' ∈ xs) ∧ (up' = up ∨ up' ∈ xs) ∧ lo' ≤ lo ∧ up ≤ up' ∧ ∀ v ∈ xs, lo' ≤ v ∧ v ≤ up' := by
  induction xs with
  | nil => intro lo up h; exact ⟨lo, up, rfl, .inl rfl, .inl rfl, le_rfl, le_rfl, by simp⟩
  | cons x xs ih =>
    intro lo up h
    obtain ⟨lo', up', h1, h2, h3, h4, h5, h6⟩ := ih (lo := min lo x) (up := max up x) (by grind)
    refine ⟨lo', up', ?_, ?_, ?_, h4.trans (min_le_left _ _), (le_max_left _ _).trans h5, ?_⟩
    · unfold Itv.spanAll at h1 ⊢
      rw [List.map_cons, List.foldlM_cons, span_step h]
      exact h1
    · rcases h2 with h2 | h2
      · rcases min_choice lo x with e | e <;> rw [e] at h2 <;> simp [h2]
      · exact .inr (List.mem_cons_of_mem _ h2)
    · rcases h3 with h3 | h3
      · rcases max_choice up x with e | e <;> rw [e] at h3 <;> simp [h3]
      · exact .inr (List.mem_cons_of_mem _ h3)
    · intro v hv
      rcases List.mem_cons.mp hv with rfl | hv
      · exact ⟨h4.trans (min_le_right _ _), (le_max_right _ _).trans h5⟩
      · exact h6 v hv

end
end Client
