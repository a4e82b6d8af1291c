import Verif.Client.LemmasWindow
/-!
# C106: statistics of a sliding window
-/

open Rust CB Cnt
namespace Client

section
variable {α : Type} [Cfg] [Elem α] [DecidableEq α] {n : Nat}

/-- **C106 (counts).** Whatever the stream, nothing panics, the buffer holds the latest `n` items and the counter is
the counter of exactly these. The buffer drops nothing, as each item that leaves it is taken out to be subtracted. -/
theorem c106_counts (hu : Elem.uninitOk α = true) (hpos : 0 < n) (hn : n ≤ isizeMax)
    (hs : (n + 1) * Elem.size α ≤ isizeMax) (stream : List α) (hc : Calm stream) :
    ∃ cb w, withCapacity n = .ok cb ∧ feedAll stream ⟨⟨cb, []⟩, Counter.new⟩ = (.ok (), w) ∧
      w.st.cb.contents = .ok (lastN n stream) ∧ w.st.dropped = [] ∧
      (∀ k, w.counts.get k
        = if 0 < (lastN n stream).count k then some ((lastN n stream).count k) else none) ∧
      ∃ c, Counter.fromIter (lastN n stream) = .ok c ∧ w.counts.eq c = true := by
  have h6 := two_isizeMax
  obtain ⟨cb, cb', c, e, h1, h2, h3, h4⟩ := fed hu hpos hn hs stream hc
  have hlen : (lastN n stream).length ≤ n := h2.le_cap
  obtain ⟨d, g1, g2, g3, _⟩ := fromIter_ok (xs := lastN n stream) fun k => by
    have := List.count_le_length (a := k) (l := lastN n stream); omega
  refine ⟨cb, _, e, h1, h2.contents_eq, rfl, h4, d, g1, (eq_iff h3 g2).mpr fun k => ?_⟩
  rw [h4, g3]

/-- **C106 (mode).** So `most_common` starts with an item that no other item of the window exceeds in number. -/
theorem c106_most_frequent (hu : Elem.uninitOk α = true) (hpos : 0 < n) (hn : n ≤ isizeMax)
    (hs : (n + 1) * Elem.size α ≤ isizeMax) (stream : List α) (hc : Calm stream) (hne : stream ≠ [])
    {cb : Buf α} (hcb : withCapacity n = .ok cb) {order : List (α × Nat)}
    (ho : IterOf order (feedAll stream ⟨⟨cb, []⟩, Counter.new⟩).2.counts)
    {sort : List (Nat × (α × Nat)) → List (Nat × (α × Nat))} (hsort : SortByKey sort) :
    ∃ k m rest, Counter.mostCommon sort order = .ok ((k, m) :: rest) ∧ m = (lastN n stream).count k ∧
      ∀ k', (lastN n stream).count k' ≤ m := by
  obtain ⟨cb', cb'', c, e, h1, _, h3, h4⟩ := fed hu hpos hn hs stream hc
  rw [hcb] at e; cases e
  rw [h1] at ho
  obtain ⟨res, g1, _, g2, _, _, g3⟩ := c51_most_common h3 ho hsort
  obtain ⟨x, hx⟩ : ∃ x, x ∈ lastN n stream := by
    refine List.exists_mem_of_ne_nil _ fun h => ?_
    have := congrArg List.length h
    rw [lastN_length, List.length_nil] at this
    have := List.length_pos_iff.mpr hne
    omega
  cases res with
  | nil =>
    have := (g2 x ((lastN n stream).count x)).mpr (by rw [h4, if_pos (List.count_pos_iff.mpr hx)])
    cases this
  | cons p rest =>
    obtain ⟨k, m⟩ := p
    obtain ⟨g4, g5⟩ := c51_first_is_maximal h3 ho hsort g1
    refine ⟨k, m, rest, g1, ?_, fun k' => by rw [← h4.mult]; exact g5 k'⟩
    rw [← h4.mult, Cnt.mult, g4]; rfl

end

section
variable {α : Type} [LinearOrder α]

/-- **C106 (range).** The span of the buffered items as single intervals is the closed interval from the least to the
greatest of the latest `n` items. -/
theorem c106_range [Cfg] [Elem α] {n : Nat} (hu : Elem.uninitOk α = true) (hpos : 0 < n) (hn : n ≤ isizeMax)
    (hs : (n + 1) * Elem.size α ≤ isizeMax) (stream : List α) (hc : Calm stream) (hne : stream ≠ []) :
    ∃ cb x xs lo up i, withCapacity n = .ok cb ∧ (run (stream.map .pushBack) ⟨cb, []⟩).2.cb.contents = .ok (x :: xs) ∧
      Itv.spanAll (Itv.Interval.single x) (xs.map Itv.Interval.single) = .ok i ∧ Itv.Interval.closed lo up = .ok i ∧
      lo ∈ lastN n stream ∧ up ∈ lastN n stream ∧ ∀ v ∈ lastN n stream, lo ≤ v ∧ v ≤ up := by
  obtain ⟨cb, h1, h2, _⟩ := c20_sliding_window hu hn hs stream hc 0
  cases hw : lastN n stream with
  | nil =>
    have := congrArg List.length hw
    rw [lastN_length, List.length_nil] at this
    have := List.length_pos_iff.mpr hne
    omega
  | cons x xs =>
    rw [hw] at h2
    obtain ⟨lo, up, g1, g2, g3, g4, g5, g6⟩ := span_all xs (le_refl x)
    refine ⟨cb, x, xs, lo, up, _, h1, h2, g1, ?_, ?_, ?_, ?_⟩
    · exact Itv.Interval.createChecked_ok ((g4.trans g5).lt_or_eq.imp id fun h => ⟨h, rfl, rfl⟩)
    · rcases g2 with rfl | g2
      · exact List.mem_cons_self
      · exact List.mem_cons_of_mem _ g2
    · rcases g3 with rfl | g3
      · exact List.mem_cons_self
      · exact List.mem_cons_of_mem _ g3
    · intro v hv
      rcases List.mem_cons.mp hv with rfl | hv
      · exact ⟨g4, g5⟩
      · exact g6 v hv

end

open CB.Demo in
example : Elem.uninitOk Nat = true ∧ 0 < 3 ∧ 3 ≤ isizeMax ∧ (3 + 1) * Elem.size Nat ≤ isizeMax ∧
    Calm [1, 2, 2, 5, 2, 1] ∧ lastN 3 [1, 2, 2, 5, 2, 1] = [5, 2, 1] ∧
    (withCapacity 3).toOption.map (fun cb : Buf Nat =>
      (feedAll [1, 2, 2, 5, 2, 1] ⟨⟨cb, []⟩, Counter.new⟩).2.counts.counter.entries) = some [(1, 1), (5, 1), (2, 1)] :=
  ⟨rfl, by decide, by decide, by decide, by unfold Calm; decide, rfl, by decide +kernel⟩
open CB.Demo in
example : (run ([4, 7, 2, 9, 3].map .pushBack) ⟨(⟨[none, none, none, none], 0, 0⟩ : Buf Nat), []⟩).2.cb.contents.toOption
      = some [2, 9, 3] ∧
    Itv.spanAll (Itv.Interval.single 2) ([9, 3].map Itv.Interval.single) = Itv.Interval.closed 2 9 :=
  ⟨by decide +kernel, rfl⟩
open CB.Demo in
/-- with capacity zero the counter counts what the buffer refuses, so `0 < n` is needed -/
example : (feedAll [7] ⟨⟨(⟨[none], 0, 0⟩ : Buf Nat), []⟩, Counter.new⟩).2.counts.counter.entries = [(7, 1)] := by
  decide +kernel

end Client
