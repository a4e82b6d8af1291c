import Verif.Client.LemmasRate
/-!
# C136: a buffer that limits how many events are admitted
-/

open Rust CB
namespace Client

section
variable [Cfg] [Elem Nat] {limit window : Nat}

/-- **C136 (limit).** Whatever the events, nothing panics, every event gets its answer, and no stretch of time as long as the
window contains more admitted events than the capacity of the buffer. The buffer holds the latest admitted events. -/
theorem c136_limit (hu : Elem.uninitOk Nat = true) (hpos : 0 < limit) (hw : limit ≤ isizeMax)
    (hs : (limit + 1) * Elem.size Nat ≤ isizeMax) (hd : ∀ n : Nat, Elem.dropPanics n = false) (times : List Nat)
    (ht : times.Pairwise (· ≤ ·)) :
    ∃ cb flags s, withCapacity limit = .ok cb ∧ admitAll window times ⟨cb, []⟩ = (.ok flags, s) ∧
      flags.length = times.length ∧ AtMost limit window (admitted times flags) ∧
      s.cb.contents = .ok (lastN limit (admitted times flags)) := by
  obtain ⟨cb, h1, h2⟩ := withCapacity_rep hu hw hs
  obtain ⟨cb', dr, a1, a2⟩ := admitAll_ok (c := limit) (w := window) hd times [] ⟨cb, []⟩ (by simpa [lastN] using h2) ht
  rw [List.nil_append] at a2
  refine ⟨cb, _, _, h1, a1, greedy_length .., atMost_of_gaps hpos (ht.sublist (admitted_sublist ..)) ?_, a2.contents_eq⟩
  exact greedy_gaps hpos times [] ht fun i a b ha => by cases ha

/-- **C136 (no needless refusal).** An event is refused only if, together with the events admitted before, it would exceed
the limit. -/
theorem c136_needed (hu : Elem.uninitOk Nat = true) (hpos : 0 < limit) (hw : limit ≤ isizeMax)
    (hs : (limit + 1) * Elem.size Nat ≤ isizeMax) (hd : ∀ n : Nat, Elem.dropPanics n = false) (times : List Nat)
    (ht : times.Pairwise (· ≤ ·)) :
    ∃ cb flags s, withCapacity limit = .ok cb ∧ admitAll window times ⟨cb, []⟩ = (.ok flags, s) ∧
      ∀ i now : Nat, times[i]? = some now → flags[i]? = some false →
        ¬ AtMost limit window (admitted (times.take i) (flags.take i) ++ [now]) := by
  obtain ⟨cb, h1, h2⟩ := withCapacity_rep hu hw hs
  obtain ⟨cb', dr, a1, a2⟩ := admitAll_ok (c := limit) (w := window) hd times [] ⟨cb, []⟩ (by simpa [lastN] using h2) ht
  refine ⟨cb, _, _, h1, a1, fun i now hi hf hwi => ?_⟩
  refine greedy_refused hpos times [] ht (fun i a b ha => by cases ha) i now hi hf (gaps_of_atMost ?_ hwi)
  rw [List.nil_append]
  have : (admitted (times.take i) ((greedy limit window [] times).take i) ++ [now]).Sublist (times.take i ++ [now]) :=
    (admitted_sublist ..).append (List.Sublist.refl _)
  refine (ht.sublist (?_ : (times.take i ++ [now]).Sublist times)).sublist this
  obtain ⟨hlt, rfl⟩ := List.getElem?_eq_some_iff.mp hi
  rw [← List.take_succ_eq_append_getElem hlt]
  exact List.take_sublist _ _

/-- **C136 (as many as possible).** No other choice of events within the limit, even one that knows all events in advance,
admits more. -/
theorem c136_most (hu : Elem.uninitOk Nat = true) (hpos : 0 < limit) (hw : limit ≤ isizeMax)
    (hs : (limit + 1) * Elem.size Nat ≤ isizeMax) (hd : ∀ n : Nat, Elem.dropPanics n = false) (times : List Nat)
    (ht : times.Pairwise (· ≤ ·)) :
    ∃ cb flags s, withCapacity limit = .ok cb ∧ admitAll window times ⟨cb, []⟩ = (.ok flags, s) ∧
      ∀ m : List Nat, m.Sublist times → AtMost limit window m → m.length ≤ (admitted times flags).length := by
  obtain ⟨cb, h1, h2⟩ := withCapacity_rep hu hw hs
  obtain ⟨cb', dr, a1, a2⟩ := admitAll_ok (c := limit) (w := window) hd times [] ⟨cb, []⟩ (by simpa [lastN] using h2) ht
  refine ⟨cb, _, _, h1, a1, fun m hm hwi => ?_⟩
  have := greedy_best hpos times [] [] m ht hm (gaps_of_atMost (ht.sublist hm) hwi) (Nat.le_refl _)
    (fun i a b ha => by cases ha)
  simpa using this

end

section
open CB.Demo

local instance calmNat : Elem Nat := ⟨8, fun _ => false, true⟩

-- two events in ten units of time: the third is refused, the fourth comes just in time
example : Elem.uninitOk Nat = true ∧ 0 < 2 ∧ 2 ≤ isizeMax ∧ (2 + 1) * Elem.size Nat ≤ isizeMax ∧
    (∀ n : Nat, Elem.dropPanics n = false) ∧ [1, 4, 10, 11, 13, 14, 14].Pairwise (· ≤ ·) ∧
    (withCapacity 2).toOption.map (fun cb : Buf Nat =>
      let r := admitAll 10 [1, 4, 10, 11, 13, 14, 14] ⟨cb, []⟩
      (r.1.toOption, r.2.cb.contents.toOption))
      = some (some [true, true, false, true, false, true, false], some [11, 14]) :=
  ⟨rfl, by decide, by decide, by decide, fun _ => rfl, by decide, by decide +kernel⟩

/-- with capacity zero everything is refused, even if the window is empty and nothing would exceed the limit: `0 < limit`
is needed -/
example : (withCapacity 0).toOption.map (fun cb : Buf Nat => (admitAll 0 [3] ⟨cb, []⟩).1.toOption) = some (some [false]) ∧
    AtMost 0 0 [3] := by
  refine ⟨by decide +kernel, fun t => ?_⟩
  rw [List.countP_eq_zero.mpr]
  intro x _
  simp only [decide_eq_true_eq]
  omega

end
end Client
