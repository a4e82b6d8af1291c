import Verif.Client.SpecAnagram
import Verif.Client.LemmasWindow
import Mathlib.Data.List.Perm.Basic
/-!
# C119: searching for rearrangements of a pattern
-/

open Rust CB Cnt
namespace Client

section
variable {α : Type} [Cfg] [Elem α] [DecidableEq α]

/-! ## helper lemmas -/

omit [Cfg] [Elem α] [DecidableEq α] in
/-- the last `n` items of the text so far are the part of the text that ends here -/
theorem lastN_part {n : Nat} {done rest : List α} (h : n ≤ done.length) :
    ((done ++ rest).drop (done.length - n)).take n = lastN n done := by
  rw [lastN, List.drop_append_of_le_length (Nat.sub_le _ _), List.take_append_of_le_length (by rw [List.length_drop]; omega),
    List.take_of_length_le (by rw [List.length_drop]; omega)]

omit [Elem α] in
theorem holds_perm {a b : Counter α} {xs ys : List α} (ha : Valid a) (hb : Valid b) (hx : Holds a xs) (hy : Holds b ys) :
    a.eq b = true ↔ xs.Perm ys := by
  rw [eq_iff ha hb, List.perm_iff_count]
  refine forall_congr' fun k => ?_
  rw [hx, hy]
  rcases Nat.eq_zero_or_pos (xs.count k) with h1 | h1 <;> rcases Nat.eq_zero_or_pos (ys.count k) with h2 | h2
  · simp [h1, h2]
  · rw [h1, if_pos h2]; simp; omega
  · rw [h2, if_pos h1]; simp; omega
  · rw [if_pos h1, if_pos h2]; simp

theorem scan_ok {n : Nat} (hpos : 0 < n) (hn : n ≤ usizeMax) {c : Counter α} {pattern : List α} (hcv : Valid c)
    (hch : Holds c pattern) (hlen : pattern.length = n) (text : List α) :
    ∀ (done : List α) {w : Window α}, Calm done → Calm text → Rep w.st.cb ⟨n, lastN n done⟩ → Valid w.counts →
      Holds w.counts (lastN n done) → (done ++ text).length ≤ usizeMax →
      ∃ r w', scan c n text done.length w = (.ok r, w') ∧ r.Pairwise (· < ·) ∧
        ∀ s, s ∈ r ↔ done.length < s + n ∧ s + n ≤ (done ++ text).length ∧
          (((done ++ text).drop s).take n).Perm pattern := by
  induction text with
  | nil =>
    intro done w _ _ _ _ _ _
    refine ⟨[], w, rfl, .nil, fun s => ⟨fun h => (by cases h), ?_⟩⟩
    rintro ⟨h1, h2, _⟩
    rw [List.append_nil] at h2
    omega
  | cons x text ih =>
    intro done w hd ht hr hv hh hl
    have hx : Calm (lastN n done ++ [x]) := by
      intro z hz
      rcases List.mem_append.mp hz with hz | hz
      · exact hd z (List.mem_of_mem_drop hz)
      · exact ht z (by simp at hz; simp [hz])
    obtain ⟨cb, c', h1, h2, h3, h4⟩ := feed_ok hpos hn hr hv hh x hx
    rw [lastN_append_lastN] at h2 h4
    have happ : done ++ x :: text = (done ++ [x]) ++ text := by simp
    have hlen' : (done ++ [x]).length = done.length + 1 := by simp
    rw [happ] at hl ⊢
    have hd' : Calm (done ++ [x]) := by
      intro z hz
      rcases List.mem_append.mp hz with hz | hz
      · exact hd z hz
      · exact ht z (by simp at hz; simp [hz])
    obtain ⟨r, w', g1, g2, g3⟩ := ih (done ++ [x]) (w := ⟨⟨cb, w.st.dropped⟩, c'⟩) hd'
      (fun z hz => ht z (List.mem_cons_of_mem _ hz)) h2 h3 h4 hl
    rw [hlen'] at g1 g3
    have hadd : uadd done.length 1 = .ok (done.length + 1) := uadd_ok (by
      rw [List.length_append, hlen'] at hl; omega)
    have hmatch := holds_perm h3 hcv h4 hch
    have hlift : (M.lift (uadd done.length 1) : M (Window α) _) ⟨⟨cb, w.st.dropped⟩, c'⟩
        = (.ok (done.length + 1), ⟨⟨cb, w.st.dropped⟩, c'⟩) := by rw [M.lift, hadd]
    -- the part of the text that ends with `x`
    have part : ∀ {s}, s + n = done.length + 1 →
        (((done ++ [x] ++ text).drop s).take n) = lastN n (done ++ [x]) := by
      intro s hs
      rw [← lastN_part (rest := text) (n := n) (done := done ++ [x]) (by rw [hlen']; omega), hlen',
        show done.length + 1 - n = s by omega]
    unfold scan
    rw [M.bind_ok h1, M.bind_ok hlift]
    have hget : (M.get : M (Window α) _) ⟨⟨cb, w.st.dropped⟩, c'⟩ = (.ok ⟨⟨cb, w.st.dropped⟩, c'⟩, ⟨⟨cb, w.st.dropped⟩, c'⟩) := rfl
    rw [M.bind_ok hget]
    dsimp only
    by_cases he : c'.eq c = true
    · have hp := hmatch.mp he
      have hle : n ≤ done.length + 1 := by
        have h5 := hp.length_eq
        rw [lastN_length, hlen', hlen] at h5
        omega
      have hsub : usub (done.length + 1) n = .ok (done.length + 1 - n) := usub_ok hle
      have hlift' : (M.lift (usub (done.length + 1) n) : M (Window α) _) ⟨⟨cb, w.st.dropped⟩, c'⟩
          = (.ok (done.length + 1 - n), ⟨⟨cb, w.st.dropped⟩, c'⟩) := by rw [M.lift, hsub]
      rw [if_pos he, M.bind_ok hlift', M.bind_ok g1]
      refine ⟨_ :: r, w', rfl, List.pairwise_cons.mpr ⟨fun s hs => ?_, g2⟩, fun s => ?_⟩
      · have := ((g3 s).mp hs).1
        omega
      · rw [List.mem_cons, g3]
        constructor
        · rintro (rfl | ⟨h5, h6⟩)
          · refine ⟨by omega, by rw [List.length_append, hlen']; omega, ?_⟩
            rw [part (by omega)]
            exact hp
          · exact ⟨by omega, h6⟩
        · rintro ⟨h5, h6⟩
          by_cases h7 : s + n = done.length + 1
          · exact .inl (by omega)
          · exact .inr ⟨by omega, h6⟩
    · rw [if_neg he, g1]
      refine ⟨r, w', rfl, g2, fun s => ?_⟩
      rw [g3]
      constructor
      · rintro ⟨h5, h6⟩
        exact ⟨by omega, h6⟩
      · rintro ⟨h5, h6, h7⟩
        refine ⟨?_, h6, h7⟩
        by_contra h8
        rw [part (by omega)] at h7
        exact he (hmatch.mpr h7)

/-! ## the property -/

/-- **C119.** The search never panics and finds, in ascending order, exactly the places at which the text goes on with the
items of the pattern in some order. -/
theorem c119_rearranged (hu : Elem.uninitOk α = true) (pattern text : List α) (hpos : pattern ≠ [])
    (hn : pattern.length ≤ isizeMax) (hs : (pattern.length + 1) * Elem.size α ≤ isizeMax)
    (ht : text.length ≤ usizeMax) (hc : Calm text) :
    ∃ r, rearranged pattern text = .ok r ∧ r.Pairwise (· < ·) ∧
      ∀ s, s ∈ r ↔ s + pattern.length ≤ text.length ∧ ((text.drop s).take pattern.length).Perm pattern := by
  have h6 := two_isizeMax
  have hp := List.length_pos_iff.mpr hpos
  obtain ⟨cb, e, hr⟩ := withCapacity_rep hu hn hs
  obtain ⟨c, g1, g2, g3, _⟩ := fromIter_ok (xs := pattern) fun k => by
    have := List.count_le_length (a := k) (l := pattern); omega
  obtain ⟨r, w', k1, k2, k3⟩ := scan_ok hp (by omega) g2 g3 rfl text [] (w := ⟨⟨cb, []⟩, Counter.new⟩)
    (fun z hz => by simp at hz) hc (by simpa [lastN] using hr) valid_new (fun k => by
      simp [lastN, Counter.new, Counter.get, HMap.get, HMap.empty, HMap.lookup]) (by simpa using ht)
  refine ⟨r, ?_, k2, fun s => ?_⟩
  · unfold rearranged
    rw [g1, e]
    show (scan c pattern.length text 0 ⟨⟨cb, []⟩, Counter.new⟩).1 = _
    have k1 : scan c pattern.length text 0 ⟨⟨cb, []⟩, Counter.new⟩ = (.ok r, w') := k1
    rw [k1]
  · rw [k3]
    simp only [List.length_nil, List.nil_append]
    constructor
    · rintro ⟨_, h⟩; exact h
    · intro h; exact ⟨by omega, h⟩

end

open CB.Demo in
/-- `112` in `5121211` -/
example : Elem.uninitOk Nat = true ∧ [1, 1, 2] ≠ [] ∧ [1, 1, 2].length ≤ isizeMax ∧
    ([1, 1, 2].length + 1) * Elem.size Nat ≤ isizeMax ∧ [5, 1, 2, 1, 2, 1, 1].length ≤ usizeMax ∧
    Calm [5, 1, 2, 1, 2, 1, 1] ∧ (rearranged [1, 1, 2] [5, 1, 2, 1, 2, 1, 1]).toOption = some [1, 3, 4] :=
  ⟨rfl, by decide, by decide, by decide, by decide, by unfold Calm; decide, by decide +kernel⟩
open CB.Demo in
/-- The empty pattern is everywhere, but is found nowhere: the buffer of capacity zero is full and empty, so the items stay
counted. `hpos` is needed. -/
example : (rearranged ([] : List Nat) [5, 1]).toOption = some [] := by decide +kernel

end Client
