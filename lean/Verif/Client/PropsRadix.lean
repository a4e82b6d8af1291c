import Verif.Client.LemmasRadix
/-!
# C149: radix sort with buffers as bins
-/

open Rust CB
namespace Client

section
variable {α : Type} [Cfg] [Elem α] {n k : Nat} {digits : List (α → Nat)} {items : List α}

/-- **C149.** If every digit has a bin, and no bin gets more items in a pass than it has room for, nothing panics and
nothing is overwritten. The result is a rearrangement of the items, sorted by all digits, of which the last one used counts
most; items with the same digits keep their order. The bins are empty again. -/
theorem c149_sorted (hu : Elem.uninitOk α = true) (hn : n ≤ isizeMax) (hs : (n + 1) * Elem.size α ≤ isizeMax)
    (hk : ∀ d ∈ digits, ∀ x ∈ items, d x < k) (hroom : ∀ d ∈ digits, ∀ j, (items.filter fun x => d x == j).length ≤ n) :
    ∃ out bins, radixSort n k digits items = .ok (out, bins) ∧ out.Perm items ∧ out.Pairwise (ByDigits digits.reverse) ∧
      (∀ v : List Nat, (out.filter fun x => digits.map (· x) == v) = items.filter fun x => digits.map (· x) == v) ∧
      ∀ bin ∈ bins, bin.dropped = [] ∧ bin.cb.len = .ok 0 := by
  obtain ⟨bins, h1, h2, h3⟩ := makeBins_ok (α := α) hu hn hs k
  obtain ⟨bins', g1, _, g3⟩ := passes_ok digits h2 h3 hk hroom
  have hp := sorted_perm digits hk
  refine ⟨sorted k digits items, bins', ?_, hp, ?_, fun v => ?_, fun bin hb => ?_⟩
  · rw [radixSort, h1]
    show ((passes digits items bins).1 >>= fun out => Except.ok (out, (passes digits items bins).2)) = _
    rw [g1]
    rfl
  · have := sorted_sorted (k := k) digits (items := items) (before := [])
      (List.pairwise_iff_forall_sublist.mpr fun _ => trivial)
    simpa using this
  · by_cases hv : ∃ x ∈ items, digits.map (· x) = v
    · obtain ⟨y, hy, rfl⟩ := hv
      refine sorted_filter digits fun d hd => ⟨d y, hk d hd y hy, fun x hx => ?_⟩
      exact List.map_inj_left.mp (beq_iff_eq.mp hx) d hd
    · have hno : ∀ l : List α, (∀ x ∈ l, x ∈ items) → (l.filter fun x => digits.map (· x) == v) = [] := fun l hl => by
        rw [List.filter_eq_nil_iff]
        exact fun x hx e => hv ⟨x, hl x hx, beq_iff_eq.mp e⟩
      rw [hno _ fun x hx => hp.mem_iff.mp hx, hno _ fun x hx => hx]
  · obtain ⟨i, hi, rfl⟩ := List.mem_iff_getElem.mp hb
    obtain ⟨e1, e2⟩ := g3 i hi
    exact ⟨e2, e1.len_eq⟩

/-- **C149 (numbers).** With `b` bins and as many passes as the greatest key has digits in base `b`, the result is sorted by
the keys, and items with the same key keep their order. -/
theorem c149_numbers {key : α → Nat} {b m : Nat} (hu : Elem.uninitOk α = true) (hn : n ≤ isizeMax)
    (hs : (n + 1) * Elem.size α ≤ isizeMax) (hb : 0 < b) (hm : ∀ x ∈ items, key x < b ^ m) (hroom : items.length ≤ n) :
    ∃ out bins, radixSort n b (digitsOf key b m) items = .ok (out, bins) ∧ out.Perm items ∧
      out.Pairwise (fun x y => key x ≤ key y) ∧ (∀ v, (out.filter fun x => key x == v) = items.filter fun x => key x == v) ∧
      ∀ bin ∈ bins, bin.dropped = [] := by
  have hd : ∀ d ∈ digitsOf key b m, ∃ i, d = fun x => key x / b ^ i % b := fun d hd => by
    obtain ⟨i, _, rfl⟩ := List.mem_map.mp hd
    exact ⟨i, rfl⟩
  obtain ⟨out, bins, h1, h2, h3, h4, h5⟩ := c149_sorted (digits := digitsOf key b m) (items := items) (k := b) hu hn hs
    (fun d h x _ => by obtain ⟨i, rfl⟩ := hd d h; exact Nat.mod_lt _ hb)
    (fun d _ j => Nat.le_trans (List.length_filter_le _ _) hroom)
  have hlt : ∀ x ∈ out, key x % b ^ m = key x := fun x hx => Nat.mod_eq_of_lt (hm x (h2.mem_iff.mp hx))
  refine ⟨out, bins, h1, h2, h3.imp_of_mem fun {x y} hx hy h => ?_, fun v => ?_, fun bin hb => (h5 bin hb).1⟩
  · have := byDigits_key m h
    rwa [hlt x hx, hlt y hy] at this
  · by_cases hv : ∃ y ∈ items, key y = v
    · obtain ⟨y, hy, rfl⟩ := hv
      -- among the items, the digits of the key determine it
      have same : ∀ x ∈ items, (key x == key y) = ((digitsOf key b m).map (· x) == (digitsOf key b m).map (· y)) := fun x hx => by
        rw [Bool.eq_iff_iff, beq_iff_eq, beq_iff_eq]
        constructor
        · intro e
          refine List.map_congr_left fun d h => ?_
          obtain ⟨i, rfl⟩ := hd d h
          show key x / b ^ i % b = key y / b ^ i % b
          rw [e]
        · intro e
          have hall : ∀ i < m, key x / b ^ i % b = key y / b ^ i % b := fun i hi =>
            List.map_inj_left.mp e (fun x => key x / b ^ i % b) (List.mem_map.mpr ⟨i, List.mem_range.mpr hi, rfl⟩)
          have : ∀ j ≤ m, key x % b ^ j = key y % b ^ j := by
            intro j
            induction j with
            | zero => intro _; simp [Nat.mod_one]
            | succ j ih =>
              intro hj
              rw [Nat.mod_pow_succ, Nat.mod_pow_succ, ih (by omega), hall j (by omega)]
          have := this m (Nat.le_refl _)
          rwa [Nat.mod_eq_of_lt (hm x hx), Nat.mod_eq_of_lt (hm y hy)] at this
      rw [List.filter_congr same, ← h4, List.filter_congr fun x hx => same x (h2.mem_iff.mp hx)]
    · have hno : ∀ l : List α, (∀ x ∈ l, x ∈ items) → (l.filter fun x => key x == v) = [] := fun l hl => by
        rw [List.filter_eq_nil_iff]
        exact fun x hx e => hv ⟨x, hl x hx, beq_iff_eq.mp e⟩
      rw [hno _ fun x hx => h2.mem_iff.mp hx, hno _ fun x hx => hx]

end

open CB.Demo in
example : Elem.uninitOk Nat = true ∧ 5 ≤ isizeMax ∧ (5 + 1) * Elem.size Nat ≤ isizeMax ∧ 0 < 10 ∧
    (∀ x ∈ [329, 457, 57, 839, 436], x < 10 ^ 3) ∧ [329, 457, 57, 839, 436].length ≤ 5 ∧
    (radixSort 5 10 (digitsOf id 10 3) [329, 457, 57, 839, 436]).toOption.map (·.1) = some [57, 329, 436, 457, 839] :=
  ⟨rfl, by decide, by decide, by decide, by decide, by decide, by decide +kernel⟩
open CB.Demo in
/-- two of the items have the same last digit, so bins for two are enough, and bins for one are not -/
example : (∀ d ∈ [(· % 10), (· / 10)], ∀ x ∈ [31, 21, 12], d x < 10) ∧
    (∀ d ∈ [(· % 10), (· / 10)], ∀ j, ([31, 21, 12].filter fun x => d x == j).length ≤ 2) ∧
    (radixSort 2 10 [(· % 10), (· / 10)] [31, 21, 12]).toOption.map (·.1) = some [12, 21, 31] ∧
    (radixSort 1 10 [(· % 10), (· / 10)] [31, 21, 12]).toOption.map (·.1) = some [12, 21] := by
  refine ⟨by decide, fun d hd j => ?_, by decide +kernel, by decide +kernel⟩
  simp only [List.mem_cons, List.not_mem_nil, or_false] at hd
  rcases hd with rfl | rfl <;> simp only [List.filter_cons, List.filter_nil, beq_iff_eq] <;> (repeat' split) <;>
    simp only [List.length_cons, List.length_nil] <;> omega

end Client
