import Verif.Cnt.LemmasFrequent
import Mathlib.Data.List.Sort
/-!
# C147: frequent items found with few keys, and in parts
-/

open Rust
namespace Cnt
open Counter

section
variable {T : Type} [DecidableEq T] [Cfg] {iter : Counter T → List (T × Nat)}
  {sort : List (Nat × (T × Nat)) → List (Nat × (T × Nat))}

/-- **C147 (error).** Whatever the order of iteration and the algorithm that sorts, nothing panics, and however a summary
came about, it has at most `k` keys, and no count is too large. Counts are too small by at most a `k + 1`-th of the
number of items noted, less what the summary itself counts. -/
theorem c147_summary (hi : ∀ c, IterOf (iter c) c) (hs : SortByKey sort) (k : Nat) (p : Sketch T)
    (hf : ∀ x, p.items.count x ≤ usizeMax) :
    ∃ c, p.run iter sort k = .ok c ∧ c.len ≤ k ∧ ∀ x, (c.get x).getD 0 ≤ p.items.count x ∧
      (k + 1) * (p.items.count x - (c.get x).getD 0) + (c.counter.entries.map (·.2)).sum ≤ p.items.length := by
  obtain ⟨c, l, h1, ⟨h2, h3, h4⟩, h5⟩ := plan_ok hi hs k p hf
  have hm : ∀ x, (c.get x).getD 0 = l.count x := fun x => h2.mult x
  refine ⟨c, h1, h5, fun x => ⟨?_, ?_⟩⟩
  · rw [hm]
    exact List.subperm_iff_count.mp h3 x
  · rw [hm, show (c.counter.entries.map (·.2)).sum = l.length from total_stores h2]
    exact h4 x

/-- **C147 (frequent items).** An item that is more than a `k + 1`-th of all items noted is a key of the summary. -/
theorem c147_frequent (hi : ∀ c, IterOf (iter c) c) (hs : SortByKey sort) (k : Nat) (p : Sketch T)
    (hf : ∀ x, p.items.count x ≤ usizeMax) {x : T} (hx : p.items.length < (k + 1) * p.items.count x) :
    ∃ c n, p.run iter sort k = .ok c ∧ c.get x = some n ∧ 0 < n := by
  obtain ⟨c, h1, h2, h3⟩ := c147_summary hi hs k p hf
  obtain ⟨h4, h5⟩ := h3 x
  have h0 : 0 < (c.get x).getD 0 := by
    by_contra h0
    rw [show (c.get x).getD 0 = 0 by omega, Nat.sub_zero] at h5
    omega
  cases hg : c.get x with
  | none => rw [hg] at h0; simp at h0
  | some n => rw [hg] at h0; exact ⟨c, n, h1, hg, h0⟩

/-- **C147 (nothing dropped).** While there are no more than `k` different items, the counts are exact. -/
theorem c147_exact (hi : ∀ c, IterOf (iter c) c) (hs : SortByKey sort) (k : Nat) (p : Sketch T)
    (hf : ∀ x, p.items.count x ≤ usizeMax) (hk : p.items.dedup.length ≤ k) :
    ∃ c, p.run iter sort k = .ok c ∧ ∀ x, c.get x = if p.items.count x = 0 then none else some (p.items.count x) :=
  let ⟨c, h1, h2⟩ := plan_exact hi hs k p hf hk
  ⟨c, h1, h2.2⟩

end

/-- two streams, 1, 2, 3, 2, 1 and 2, 4, 2 -/
def demoSketch : Sketch Nat :=
  .merge (.note (.note (.note (.note (.note .empty 1) 2) 3) 2) 1) (.note (.note (.note .empty 2) 4) 2)

-- the twos are half of all; the first summary drops all it has when the three comes, and the merged one drops ones and fours
open Demo in
example : (∀ c : Counter Nat, IterOf c.counter.entries.reverse c) ∧
    SortByKey (T := Nat) (fun xs => xs.insertionSort fun a b => a.1 ≤ b.1) ∧
    (∀ x, demoSketch.items.count x ≤ usizeMax) ∧ demoSketch.items.length < (2 + 1) * demoSketch.items.count 2 ∧ demoSketch.items.dedup.length ≤ 4 ∧
    (demoSketch.run (fun c => c.counter.entries.reverse) (fun xs => xs.insertionSort fun a b => a.1 ≤ b.1) 2).map
      (fun c => [c.get 1, c.get 2, c.get 3, c.get 4]) = .ok [none, some 2, none, none] := by
  refine ⟨fun _ => List.reverse_perm _, fun xs => ⟨List.perm_insertionSort _ _, ?_⟩, fun x =>
    Nat.le_trans List.count_le_length (by decide), by decide, by decide, by rfl⟩
  have : Std.Total fun a b : Nat × (Nat × Nat) => a.1 ≤ b.1 := ⟨fun a b => Nat.le_total a.1 b.1⟩
  have : IsTrans (Nat × (Nat × Nat)) fun a b => a.1 ≤ b.1 := ⟨fun _ _ _ => Nat.le_trans⟩
  exact List.pairwise_insertionSort _ xs

end Cnt
