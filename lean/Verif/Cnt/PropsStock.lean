import Verif.Cnt.LemmasStock
/-!
# C146: a stock from which orders are filled completely or not at all
-/

open Rust
namespace Cnt
open Counter

section
variable {T : Type} [DecidableEq T] [Cfg] {iter : Counter T → List (T × Nat)}

/-- **C146.** Whatever the order of iteration, nothing panics, and an order is filled exactly if all its items are in what is
left of the deliveries before it when the items of the orders filled before it are taken out. In the end the counter holds
exactly what is left, and no kind that is used up. -/
theorem c146_stock (hi : ∀ c, IterOf (iter c) c) {ts : List (Trade T)} (hd : ∀ k, (delivered ts).count k ≤ usizeMax)
    (ho : ∀ t ∈ ts, ∀ k, t.ordered k ≤ usizeMax) :
    ∃ filled c left, tradeAll iter ts new = (.ok filled, c) ∧ filled.length = ts.length ∧
      (delivered ts).Perm (sold ts filled ++ left) ∧ (∀ k, c.get k = if left.count k = 0 then none else some (left.count k)) ∧
      ∀ pre items post, ts = pre ++ .order items :: post → ∃ b before, filled[pre.length]? = some b ∧
        (delivered pre).Perm (sold pre (filled.take pre.length) ++ before) ∧ (b = true ↔ items.Subperm before) := by
  obtain ⟨bs, c, left, h1, h2, h3, h4, h5⟩ := tradeAll_ok hi ts (c := new) (l := []) ⟨valid_new, fun k => rfl⟩
    (by simpa using hd) ho
  exact ⟨bs, c, left, h1, h3, List.perm_iff_count.mpr (by simpa using h4), h2.2, by simpa using h5⟩

end

-- the second order needs three ones and is refused as a whole; the third is filled and uses up the twos
open Demo in
example : (∀ c : Counter Nat, IterOf c.counter.entries.reverse c) ∧
    (∀ k, (delivered [.deliver [1, 2, 1], .order [1], .deliver [1, 3], .order [1, 2, 1, 1], .order [2, 1]]).count k ≤ usizeMax) ∧
    (∀ t ∈ ([.deliver [1, 2, 1], .order [1], .deliver [1, 3], .order [1, 2, 1, 1], .order [2, 1]] : List (Trade Nat)),
      ∀ k, t.ordered k ≤ usizeMax) ∧
    (tradeAll (fun c => c.counter.entries.reverse)
      [.deliver [1, 2, 1], .order [1], .deliver [1, 3], .order [1, 2, 1, 1], .order [2, 1]] (new : Counter Nat)).1
      = .ok [true, true, true, false, true] := by
  refine ⟨fun _ => List.reverse_perm _, fun _ => Nat.le_trans List.count_le_length (by decide), fun t ht k => ?_, by rfl⟩
  have : t.ordered k ≤ 4 := by
    simp only [List.mem_cons, List.not_mem_nil, or_false] at ht
    rcases ht with rfl | rfl | rfl | rfl | rfl
    · exact Nat.zero_le _
    · exact Nat.le_trans List.count_le_length (by decide)
    · exact Nat.zero_le _
    · exact Nat.le_trans List.count_le_length (by decide)
    · exact Nat.le_trans List.count_le_length (by decide)
  exact Nat.le_trans this (by decide)

end Cnt
