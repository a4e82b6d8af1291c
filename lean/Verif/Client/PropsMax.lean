import Verif.Client.LemmasMax
import Mathlib.Order.Nat
/-!
# C116: the greatest of a sliding window
-/

open Rust CB
namespace Client

section
variable {α : Type} [LinearOrder α] [Cfg] [Elem (Nat × α)] {w : Nat}

/-- **C116 (maxima).** Whatever the stream, nothing panics and with each item the client reports the greatest of the
latest `w` items. -/
theorem c116_maximum (hu : Elem.uninitOk (Nat × α) = true) (hpos : 0 < w) (hw : w ≤ isizeMax)
    (hs : (w + 1) * Elem.size (Nat × α) ≤ isizeMax) (stream : List α) (hl : stream.length + w ≤ usizeMax)
    (hc : ∀ v ∈ stream, ∀ n : Nat, Elem.dropPanics (n, v) = false) :
    ∃ cb ms s, withCapacity w = .ok cb ∧ maxima 0 stream ⟨cb, []⟩ = (.ok ms, s) ∧ ms.length = stream.length ∧
      ∀ t m, ms[t]? = some m → m ∈ lastN w (stream.take (t + 1)) ∧ ∀ v ∈ lastN w (stream.take (t + 1)), v ≤ m := by
  obtain ⟨cb, h1, h2⟩ := withCapacity_rep hu hw hs
  obtain ⟨ms, cb', items, gone, a1, _, _, _, a5, a6⟩ := maxima_ok hpos stream (done := []) (s := ⟨cb, []⟩) h2 .nil
    (by rw [List.length_nil]; omega) (by simpa using hc)
  exact ⟨cb, ms, _, h1, a1, a5, by simpa using a6⟩

/-- **C116 (contents).** The buffer holds exactly those of the latest `w` items that exceed all later ones, oldest first
and so greatest first. -/
theorem c116_contents (hu : Elem.uninitOk (Nat × α) = true) (hpos : 0 < w) (hw : w ≤ isizeMax)
    (hs : (w + 1) * Elem.size (Nat × α) ≤ isizeMax) (stream : List α) (hl : stream.length + w ≤ usizeMax)
    (hc : ∀ v ∈ stream, ∀ n : Nat, Elem.dropPanics (n, v) = false) :
    ∃ cb items, withCapacity w = .ok cb ∧ (maxima 0 stream ⟨cb, []⟩).2.cb.contents = .ok items ∧
      (items.Pairwise fun a b => a.1 < b.1 ∧ b.2 < a.2) ∧
      ∀ i v, (i, v) ∈ items ↔ stream[i]? = some v ∧ stream.length ≤ i + w ∧ ∀ j u, i < j → stream[j]? = some u → u < v := by
  obtain ⟨cb, h1, h2⟩ := withCapacity_rep hu hw hs
  obtain ⟨ms, cb', items, gone, a1, a2, a3, _⟩ := maxima_ok hpos stream (done := []) (s := ⟨cb, []⟩) h2 .nil
    (by rw [List.length_nil]; omega) (by simpa using hc)
  rw [List.nil_append] at a3
  refine ⟨cb, items, h1, ?_, a3.sorted, fun i v => ⟨fun h => ?_, fun ⟨g1, g2, g3⟩ => ?_⟩⟩
  · rw [show maxima 0 stream ⟨cb, []⟩ = _ from a1]
    exact a2.contents_eq
  · obtain ⟨b1, b2⟩ := a3.real _ h
    refine ⟨b1, b2, fun j u hij hj => ?_⟩
    obtain ⟨e, he, e1, e2⟩ := a3.cover j u hj (by simp only at b2; omega)
    exact lt_of_le_of_lt e2 (a3.later h he (by simp only; omega))
  · obtain ⟨e, he, e1, e2⟩ := a3.cover i v g1 g2
    have b1 := (a3.real e he).1
    rcases Nat.lt_or_eq_of_le e1 with hlt | rfl
    · exact absurd (g3 _ _ hlt b1) (not_lt.mpr e2)
    · rw [g1] at b1
      cases b1
      exact he

/-- **C116 (cost).** Each item of the stream is either still in the buffer or was removed from it, once: what was
removed together with what is left is a permutation of the stream with its positions. So `n` items cost at most `n`
removals, and no item is dropped twice or lost. -/
theorem c116_once (hu : Elem.uninitOk (Nat × α) = true) (hpos : 0 < w) (hw : w ≤ isizeMax)
    (hs : (w + 1) * Elem.size (Nat × α) ≤ isizeMax) (stream : List α) (hl : stream.length + w ≤ usizeMax)
    (hc : ∀ v ∈ stream, ∀ n : Nat, Elem.dropPanics (n, v) = false) :
    ∃ cb items, withCapacity w = .ok cb ∧ (maxima 0 stream ⟨cb, []⟩).2.cb.contents = .ok items ∧
      ((maxima 0 stream ⟨cb, []⟩).2.dropped ++ items).Perm (stream.zipIdx.map Prod.swap) ∧
      (maxima 0 stream ⟨cb, []⟩).2.dropped.length ≤ stream.length := by
  obtain ⟨cb, h1, h2⟩ := withCapacity_rep hu hw hs
  obtain ⟨ms, cb', items, gone, a1, a2, _, a4, _⟩ := maxima_ok hpos stream (done := []) (s := ⟨cb, []⟩) h2 .nil
    (by rw [List.length_nil]; omega) (by simpa using hc)
  rw [List.length_nil] at a1 a4
  rw [List.nil_append] at a4
  refine ⟨cb, items, h1, ?_, ?_, ?_⟩
  · rw [a1]; exact a2.contents_eq
  · rw [a1]; exact a4
  · rw [a1]
    have := a4.length_eq
    simp only [List.length_append, List.length_map, List.length_zipIdx, List.nil_append] at this ⊢
    omega

end

section
open CB.Demo

local instance : Elem (Nat × Nat) := ⟨16, fun _ => false, true⟩

example : Elem.uninitOk (Nat × Nat) = true ∧ 0 < 3 ∧ 3 ≤ isizeMax ∧ (3 + 1) * Elem.size (Nat × Nat) ≤ isizeMax ∧
    [4, 7, 2, 1, 1, 5].length + 3 ≤ usizeMax ∧
    (∀ v ∈ [4, 7, 2, 1, 1, 5], ∀ n : Nat, Elem.dropPanics (n, v) = false) ∧
    (withCapacity 3).toOption.map (fun cb : Buf (Nat × Nat) =>
      let r := maxima 0 [4, 7, 2, 1, 1, 5] ⟨cb, []⟩
      (r.1.toOption, r.2.dropped, r.2.cb.contents.toOption))
      = some (some [4, 7, 7, 7, 2, 5], [(0, 4), (1, 7), (3, 1), (2, 2), (4, 1)], some [(5, 5)]) :=
  ⟨rfl, by decide, by decide, by decide, by decide, fun _ _ _ => rfl, by decide +kernel⟩

/-- with capacity zero the client has nothing to report, so `0 < w` is needed -/
example : (maxima 0 [7] ⟨(⟨[none], 0, 0⟩ : Buf (Nat × Nat)), []⟩).1.toOption = none := by decide +kernel

end
end Client
