import Verif.CB.Props
/-!
# Property theorem C83: what the `Debug` output of a buffer tells
-/

set_option linter.unusedSectionVars false

open Rust
namespace CB
open Spec (Deque)

/-- A numeral cannot be confused with what follows it, if that starts with something else than a digit. -/
theorem digits_append_inj {m n : Nat} {x y : List Char} (hx : ∀ c ∈ x.head?, c.isDigit = false)
    (hy : ∀ c ∈ y.head?, c.isDigit = false) (h : Nat.toDigits 10 m ++ x = Nat.toDigits 10 n ++ y) : m = n ∧ x = y := by
  have key : ∀ (a b : List Char), (∀ c ∈ a, c.isDigit = true) → (∀ c ∈ b, c.isDigit = true) →
      a ++ x = b ++ y → a = b ∧ x = y := by
    intro a
    induction a with
    | nil =>
      intro b _ hb h
      cases b with
      | nil => exact ⟨rfl, h⟩
      | cons c b =>
        have := hx c (by rw [show x = c :: (b ++ y) from h]; rfl)
        rw [hb c (by simp)] at this
        cases this
    | cons c a ih =>
      intro b ha hb h
      cases b with
      | nil =>
        have := hy c (by rw [show y = c :: (a ++ x) from h.symm]; rfl)
        rw [ha c (by simp)] at this
        cases this
      | cons c' b =>
        simp only [List.cons_append, List.cons.injEq] at h
        obtain ⟨h1, h2⟩ := ih b (fun c hc => ha c (by simp [hc])) (fun c hc => hb c (by simp [hc])) h.2
        exact ⟨by rw [h.1, h1], h2⟩
  have hd : ∀ k c, c ∈ Nat.toDigits 10 k → c.isDigit = true := fun k c hc =>
    Nat.isDigit_of_mem_toDigits (by decide) (by decide) hc
  obtain ⟨h1, h2⟩ := key _ _ (hd m) (hd n) h
  refine ⟨?_, h2⟩
  rw [← Nat.ofDigitChars_ten_toDigits (n := m), h1, Nat.ofDigitChars_ten_toDigits]

theorem nodigit (t : String) (y : List Char) (h : t.toList.head?.elim false (!·.isDigit) = true) :
    ∀ c ∈ (t.toList ++ y).head?, c.isDigit = false := by
  cases ht : t.toList with
  | nil => rw [ht] at h; cases h
  | cons c cs =>
    rw [ht] at h
    intro c' hc
    cases hc
    simpa using h

theorem debug_toList {α : Type} (cb : Buf α) : cb.debug.toList = "CircularBuffer{ start: ".toList ++
    (Nat.toDigits 10 cb.start ++ (", end: ".toList ++ (Nat.toDigits 10 cb.end_ ++ (", buf_len: ".toList ++
      (Nat.toDigits 10 cb.buf.length ++ " }".toList))))) := by
  unfold Buf.debug
  simp only [String.toList_append, Nat.toList_repr, toString, List.append_assoc]

section
variable {α β : Type} [Cfg] [Elem α] [Elem β]

/-- C83: the text is `CircularBuffer{ start: s, end: e, buf_len: n }`, where `n` is the capacity plus one, `s` and
`e` are below `n`, and the length is the distance from `s` to `e` modulo `n`. -/
theorem c83_debug_text {cb : Buf α} {l n : Nat} (h : Reachable cb) (hl : cb.len = .ok l) (hn : cb.capacity = .ok n) :
    ∃ s e, cb.debug = "CircularBuffer{ start: " ++ Nat.repr s ++ ", end: " ++ Nat.repr e ++ ", buf_len: " ++
        Nat.repr (n + 1) ++ " }" ∧
      s < n + 1 ∧ e < n + 1 ∧ (s + l) % (n + 1) = e := by
  obtain ⟨d, r⟩ := h.rep
  rw [r.len_eq] at hl
  rw [r.capacity_eq] at hn
  cases hl; cases hn
  have h1 := r.len_buf; have h3 := r.start_le; have h4 := r.le_cap; have h5 := r.end_eq
  refine ⟨cb.start, cb.end_, ?_, by omega, ?_, ?_⟩
  · rw [← h1]; rfl
  · rw [h5]; exact wrap_lt (by omega)
  · rw [h5]; unfold wrap
    split
    · rw [Nat.mod_eq_of_lt (by omega)]
    · rw [Nat.mod_eq_sub_mod (by omega), Nat.mod_eq_of_lt (by omega)]

/-- C83: buffers with the same `Debug` text have the same capacity and length, whatever their elements. -/
theorem c83_debug_tells_len {a : Buf α} {b : Buf β} (h : a.debug = b.debug) :
    a.len = b.len ∧ a.capacity = b.capacity := by
  have h1 := congrArg String.toList h
  rw [debug_toList, debug_toList] at h1
  have h2 := List.append_cancel_left h1
  obtain ⟨e1, h3⟩ := digits_append_inj (nodigit _ _ (by decide)) (nodigit _ _ (by decide)) h2
  obtain ⟨e2, h4⟩ := digits_append_inj (nodigit _ _ (by decide)) (nodigit _ _ (by decide)) (List.append_cancel_left h3)
  obtain ⟨e3, _⟩ := digits_append_inj (by decide) (by decide) (List.append_cancel_left h4)
  unfold Buf.len Buf.capacity
  rw [e1, e2, e3]
  exact ⟨rfl, rfl⟩

end

open Demo in
example : Reachable buf ∧ buf.len = .ok 3 ∧ buf.capacity = .ok 3 ∧
    buf.debug = "CircularBuffer{ start: 2, end: 1, buf_len: 4 }" ∧ mid.debug = buf.debug :=
  ⟨buf_reachable, rfl, rfl, rfl, rfl⟩

open Demo in
/-- C83: the text shows no elements and depends on where the content lies in memory. Equal buffers can print
differently and different buffers can print alike. -/
theorem c83_debug_hides_content :
    (∃ a b : Buf Nat, Reachable a ∧ Reachable b ∧ a.eq (· == ·) b = .ok true ∧ a.debug ≠ b.debug) ∧
    (∃ a b : Buf Nat, Reachable a ∧ Reachable b ∧ a.eq (· == ·) b = .ok false ∧ a.debug = b.debug) := by
  refine ⟨⟨buf, (step .linearize ⟨buf, []⟩).2.cb, buf_reachable, Reachable.step _ _ buf_reachable trivial, rfl,
    fun h => ?_⟩, ⟨buf, (step (.swap 0 1) ⟨buf, []⟩).2.cb, buf_reachable,
      Reachable.step _ _ buf_reachable trivial, rfl, rfl⟩⟩
  have := congrArg String.toList h
  rw [debug_toList, debug_toList] at this
  have := (digits_append_inj (nodigit _ _ (by decide)) (nodigit _ _ (by decide)) (List.append_cancel_left this)).1
  revert this
  decide

end CB
