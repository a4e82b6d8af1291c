import Verif.Itv.Props
/-!
# The interval property C82: intervals as keys of hash maps
-/

open Rust
namespace Itv

section
variable {T : Type} [LinearOrder T] {a b : Interval T}

/-- No value's data starts with another value's data, as the documentation of `Hash` asks for. -/
def PrefixFree {V : Type} (h : V → List Nat) : Prop := ∀ x y, (h x).IsPrefix (h y) → x = y

theorem prefixFree_seq {h : T → List Nat} (hh : PrefixFree h) {x y : T} {p q : List Nat}
    (he : (h x ++ p).IsPrefix (h y ++ q)) : x = y ∧ p.IsPrefix q := by
  have hxy : x = y := by
    have h1 : (h x).IsPrefix (h y ++ q) := (List.prefix_append _ _).trans he
    rcases List.prefix_or_prefix_of_prefix h1 (List.prefix_append (h y) q) with h2 | h2
    · exact hh _ _ h2
    · exact (hh _ _ h2).symm
  subst hxy
  exact ⟨rfl, (List.prefix_append_right_inj _).mp he⟩

/-- C82: `==` intervals, hence on densely ordered types intervals with the same points, feed the same data to the
hasher. -/
theorem c82_equal_hash (h : T → List Nat) (ha : Obtainable a) (hb : Obtainable b) :
    ((a == b) = true → a.hash h = b.hash h) ∧
    (DenselyOrdered T → (∀ v, Mem a v ↔ Mem b v) → a.hash h = b.hash h) :=
  ⟨fun he => by rw [beq_iff_eq.mp he],
    fun hd hm => by rw [beq_iff_eq.mp ((c43_eq_iff_same_points ha hb).2 hd hm)]⟩

/-- C82: if the data of the values is prefix free then so is the data of the intervals: different intervals feed
different data, also as parts of larger keys. -/
theorem c82_prefix_free (h : T → List Nat) (hh : PrefixFree h) : PrefixFree (Interval.hash h) := by
  rintro ⟨a⟩ ⟨b⟩ he
  rcases a with _ | ⟨⟨⟨al, alc⟩⟩, ⟨⟨au, auc⟩⟩⟩ <;> rcases b with _ | ⟨⟨⟨bl, blc⟩⟩, ⟨⟨bu, buc⟩⟩⟩
  · rfl
  · simp [Interval.hash] at he
  · simp [Interval.hash] at he
  · simp only [Interval.hash, Bound.hash, List.cons_append, List.nil_append, List.append_assoc,
      List.cons_prefix_cons, true_and] at he
    obtain ⟨rfl, h1⟩ := prefixFree_seq hh he
    rw [List.cons_prefix_cons] at h1
    obtain ⟨h2, h3⟩ := h1
    obtain ⟨rfl, h4⟩ := prefixFree_seq hh h3
    rw [List.cons_prefix_cons] at h4
    have e : ∀ {x y : Bool}, x.toNat = y.toNat → x = y := by decide
    rw [e h2, e h4.1]

end

/-- the numbers below 256, one byte each -/
example : PrefixFree (fun x : Fin 256 => [x.val]) ∧
    Interval.hash (fun x : Int => [x.toNat]) ⟨some ⟨⟨⟨3, true⟩⟩, ⟨⟨5, false⟩⟩⟩⟩ = [1, 3, 1, 5, 0] :=
  ⟨fun x y h => Fin.ext (by simpa using h), rfl⟩

end Itv
