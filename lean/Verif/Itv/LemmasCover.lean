import Verif.Itv.SpecCover
import Verif.Itv.LemmasTable
import Verif.Itv.LemmasSchedule
/-!
# Lemmas about counting intervals by their bounds
-/

open Rust
namespace Itv

section
variable {A : Type}

/-- on entries that hold before those that fail, the partition point is the number of entries that hold -/
theorem partitionPoint_ok {pred : A → Bool} {table : List A} (mono : table.Pairwise fun a b => pred b = true → pred a = true) :
    ∃ n, partitionPoint pred table = .ok (n, table.countP pred) ∧ n ≤ Nat.log2 table.length + 1 := by
  obtain ⟨n, r, h1, h2, h3, h4⟩ := bisect_ok (probe := fun x => if pred x then .lt else .gt) (table := table)
    (mono.imp fun {a b} h => by
      cases ha : pred a <;> cases hb : pred b <;> simp_all)
    _ 0 table.length le_rfl (Nat.zero_le _) le_rfl
    (fun i a hi => by omega) (fun i a hi ha => by
      have := (List.getElem?_eq_some_iff.mp ha).1; omega)
  have hn : n ≤ Nat.log2 table.length + 1 := by simpa using probes_le h2
  rcases r with j | i
  · obtain ⟨g1, g2, g3⟩ := h4 j rfl
    refine ⟨n, ?_, hn⟩
    have lo : ∀ a ∈ table.take j, pred a = true := fun a ha => by
      obtain ⟨i, hi, rfl⟩ := List.mem_take_iff_getElem.mp ha
      have := g2 i _ (by omega) (List.getElem?_eq_getElem (by omega))
      by_contra hc
      rw [if_neg hc] at this
      cases this
    have up : ∀ a ∈ table.drop j, ¬ pred a = true := fun a ha hp => by
      obtain ⟨i, hi, rfl⟩ := List.mem_drop_iff_getElem.mp ha
      have := g3 (j + i) _ (by omega) (List.getElem?_eq_getElem (by omega))
      rw [if_pos hp] at this
      cases this
    have : table.countP pred = j := by
      conv_lhs => rw [← List.take_append_drop j table]
      rw [List.countP_append, List.countP_eq_length.mpr lo, List.countP_eq_zero.mpr up, List.length_take]
      omega
    unfold partitionPoint
    rw [h1, this]
    rfl
  · obtain ⟨a, _, h⟩ := h3 i rfl
    by_cases hp : pred a = true
    · rw [if_pos hp] at h; cases h
    · rw [if_neg hp] at h; cases h

end

section
variable {T : Type} [LinearOrder T] {t : Bounds T} {l : List (Interval T)}

/-- the interval has a lower bound with the property -/
def lowerHas (p : LowerBound T → Bool) (i : Interval T) : Bool :=
  match i.intoBounds with
  | some (lo, _) => p lo
  | none => false

/-- the interval has an upper bound with the property -/
def upperHas (p : UpperBound T → Bool) (i : Interval T) : Bool :=
  match i.intoBounds with
  | some (_, up) => p up
  | none => false

/-- counting bounds by what intervals have them -/
theorem Bounds.Of.count_lower (h : t.Of l) (p : LowerBound T → Bool) :
    t.lowers.countP p = l.countP (lowerHas p) := by
  rw [h.lowers.countP_eq]
  clear h
  induction l with
  | nil => rfl
  | cons i l ih =>
    rw [List.countP_cons, ← ih]
    unfold lowerHas
    cases e : i.intoBounds with
    | none => rw [List.filterMap_cons_none e]; simp
    | some b => rw [List.filterMap_cons_some e, List.map_cons, List.countP_cons]

theorem Bounds.Of.count_upper (h : t.Of l) (p : UpperBound T → Bool) :
    t.uppers.countP p = l.countP (upperHas p) := by
  rw [h.uppers.countP_eq]
  clear h
  induction l with
  | nil => rfl
  | cons i l ih =>
    rw [List.countP_cons, ← ih]
    unfold upperHas
    cases e : i.intoBounds with
    | none => rw [List.filterMap_cons_none e]; simp
    | some b => rw [List.filterMap_cons_some e, List.map_cons, List.countP_cons]

theorem Bounds.Of.size_lower (h : t.Of l) : t.lowers.length ≤ l.length := by
  rw [h.lowers.length_eq, List.length_map]
  exact List.length_filterMap_le _ _

theorem Bounds.Of.size_upper (h : t.Of l) : t.uppers.length ≤ l.length := by
  rw [h.uppers.length_eq, List.length_map]
  exact List.length_filterMap_le _ _

/-- counting by what is not yet over among what has begun -/
theorem count_diff {A : Type} {l : List A} {p q r : A → Bool}
    (h : ∀ x ∈ l, (r x = true → p x = true) ∧ (q x = true ↔ p x = true ∧ r x = false)) :
    l.countP q = l.countP p - l.countP r ∧ l.countP r ≤ l.countP p := by
  induction l with
  | nil => exact ⟨rfl, le_rfl⟩
  | cons x l ih =>
    obtain ⟨i1, i2⟩ := ih fun y hy => h y (List.mem_cons_of_mem _ hy)
    obtain ⟨h1, h2⟩ := h x List.mem_cons_self
    rw [List.countP_cons, List.countP_cons, List.countP_cons]
    cases hp : p x <;> cases hq : q x <;> cases hr : r x <;> simp_all
    all_goals omega

/-- the cut just before a value -/
def before (v : T) : T ×ₗ Bool := toLex (v, false)

theorem leV_before {lo : LowerBound T} {v : T} : lo.leV v = true ↔ cutL lo.bound.val lo.bound.isClosed ≤ before v := by
  rcases lo with ⟨⟨x, c⟩⟩
  unfold LowerBound.leV LowerBound.val LowerBound.isClosed cutL before
  rw [Prod.Lex.toLex_le_toLex]
  cases c <;> simp [bool_tf]

theorem ltV_before {up : UpperBound T} {v : T} : up.ltV v = true ↔ cutU up.bound.val up.bound.isClosed ≤ before v := by
  rcases up with ⟨⟨x, c⟩⟩
  unfold UpperBound.ltV UpperBound.val UpperBound.isClosed cutU before
  rw [Prod.Lex.toLex_le_toLex]
  cases c <;> simp [bool_tf]

theorem gtU_cuts {lo : LowerBound T} {up : UpperBound T} : lo.gtU up = true ↔
    cutU up.bound.val up.bound.isClosed ≤ cutL lo.bound.val lo.bound.isClosed := by
  rcases lo with ⟨⟨x, c⟩⟩
  rcases up with ⟨⟨y, d⟩⟩
  rw [LowerBound.gtU_iff]
  unfold UpperBound.val UpperBound.isClosed LowerBound.val LowerBound.isClosed cutU cutL
  rw [Prod.Lex.toLex_le_toLex]
  cases c <;> cases d <;> simp [bool_tf, eq_comm]

theorem ltL_cuts {lo : LowerBound T} {up : UpperBound T} : up.ltL lo = true ↔
    cutU up.bound.val up.bound.isClosed ≤ cutL lo.bound.val lo.bound.isClosed := by
  rcases lo with ⟨⟨x, c⟩⟩
  rcases up with ⟨⟨y, d⟩⟩
  rw [UpperBound.ltL_iff]
  unfold UpperBound.val UpperBound.isClosed LowerBound.val LowerBound.isClosed cutU cutL
  rw [Prod.Lex.toLex_le_toLex]
  cases c <;> cases d <;> simp [bool_tf]

theorem usizeDiff_ok {a b : Nat} (h : b ≤ a) : usizeDiff a b = .ok (a - b) := if_pos h

theorem log2_mono {a b : Nat} (h : a ≤ b) : Nat.log2 a ≤ Nat.log2 b := by
  rcases Nat.eq_zero_or_pos a with rfl | ha
  · exact Nat.zero_le _
  · exact (Nat.le_log2 (by omega)).mpr ((Nat.log2_self_le (by omega)).trans h)

end
end Itv
