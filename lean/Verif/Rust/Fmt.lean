import Verif.Rust.Base
import Mathlib.Data.List.Basic
/-!
# Texts of `#[derive(Debug)]`

The contract of `std::fmt` for `{:?}`: what the builders behind derived `Debug` and `Debug` of `Option`, `Vec`, `HashMap`,
`bool` and the integers write. Nothing here models a file of the crate. For `{:#?}` see
`FmtPretty.lean`, for all flags `FmtFlags.lean`. A text is a list of characters.
-/

namespace Rust.Fmt

/-- the pieces with `, ` between them -/
def joined : List (List Char) → List Char
  | [] => []
  | x :: xs => x ++ xs.flatMap fun y => ", ".toList ++ y

/-- `debug_struct`: `Name { field: value, field: value }` -/
def debugStruct (name : String) (fields : List (String × List Char)) : List Char :=
  name.toList ++ (" { ".toList ++ (joined (fields.map fun f => f.1.toList ++ (": ".toList ++ f.2)) ++ " }".toList))

/-- `debug_map`: `{key: value, key: value}` -/
def debugMap (entries : List (List Char × List Char)) : List Char :=
  "{".toList ++ (joined (entries.map fun e => e.1 ++ (": ".toList ++ e.2)) ++ "}".toList)

/-- `debug_list`: `[value, value]` -/
def debugList (items : List (List Char)) : List Char := "[".toList ++ (joined items ++ "]".toList)

/-- `Debug` of `Option` -/
def debugOption {α : Type} (d : α → List Char) : Option α → List Char
  | none => "None".toList
  | some x => "Some(".toList ++ (d x ++ ")".toList)

/-- `Debug` of `bool` -/
def debugBool (b : Bool) : List Char := if b then "true".toList else "false".toList

/-- `Debug` of unsigned integers -/
def debugNat (n : Nat) : List Char := Nat.toDigits 10 n

/-! ## texts that can be told apart -/

/-- characters that can follow a value inside a text -/
def stops : List Char := [',', ':', ' ', ')', ']', '}']

/-- nothing follows, or a character that ends a value -/
def Ends (r : List Char) : Prop := ∀ c ∈ r.head?, c ∈ stops

/-- characters that end a list or a map -/
def closers : List Char := [']', '}']

/-- Different values have different texts, also with something following; a text is not empty and does not begin with a
closing bracket. True of integers, `bool`, `char`, `&str`, and of tuples, structs, lists of such. -/
structure Code {α : Type} (d : α → List Char) : Prop where
  inj : ∀ x y r s, Ends r → Ends s → d x ++ r = d y ++ s → x = y ∧ r = s
  head : ∀ x, ∃ c ∈ (d x).head?, c ∉ closers

variable {α β : Type} {d : α → List Char} {e : β → List Char}

theorem Code.injective (h : Code d) {x y : α} (hxy : d x = d y) : x = y :=
  (h.inj x y [] [] (by simp [Ends]) (by simp [Ends]) (by rw [hxy])).1

theorem Code.comp (h : Code d) {f : β → α} (hf : ∀ x y, f x = f y → x = y) : Code fun x => d (f x) :=
  ⟨fun x y r s hr hs he => by
    obtain ⟨h1, h2⟩ := h.inj _ _ r s hr hs he
    exact ⟨hf _ _ h1, h2⟩, fun x => h.head (f x)⟩

theorem Code.not_closed (h : Code d) (x : α) (r : List Char) : ∀ c ∈ (d x ++ r).head?, c ∉ closers := by
  obtain ⟨c, hc, hs⟩ := h.head x
  intro c' hc'
  rw [List.head?_append, show (d x).head? = some c from hc] at hc'
  cases hc'
  exact hs

theorem Code.ne_nil (h : Code d) (x : α) : d x ≠ [] := by
  intro he
  obtain ⟨c, hc, _⟩ := h.head x
  rw [he] at hc
  cases hc

theorem ends_lit (t : String) (r : List Char) (h : t.toList.head?.elim false (· ∈ stops) = true) :
    Ends (t.toList ++ r) := by
  cases ht : t.toList with
  | nil => rw [ht] at h; cases h
  | cons c cs =>
    rw [ht] at h
    intro c' hc
    cases hc
    simpa using h

theorem code_bool : Code debugBool := by
  refine ⟨fun x y r s hr hs h => ?_, fun x => ?_⟩
  · cases x <;> cases y <;> simp_all [debugBool]
  · cases x
    · exact ⟨'f', rfl, by decide⟩
    · exact ⟨'t', rfl, by decide⟩

theorem closers_sub {c : Char} (h : c ∈ closers) : c ∈ stops := by
  simp only [closers, stops, List.mem_cons, List.not_mem_nil, or_false] at h ⊢
  tauto

theorem not_digit_of_stop {c : Char} (h : c ∈ stops) : c.isDigit = false := by
  simp only [stops, List.mem_cons, List.not_mem_nil, or_false] at h
  rcases h with rfl | rfl | rfl | rfl | rfl | rfl <;> decide

theorem code_nat : Code debugNat := by
  have hd : ∀ k c, c ∈ Nat.toDigits 10 k → c.isDigit = true := fun k c hc =>
    Nat.isDigit_of_mem_toDigits (by decide) (by decide) hc
  refine ⟨fun m n r s hr hs h => ?_, fun n => ?_⟩
  · have key : ∀ (a b : List Char), (∀ c ∈ a, c.isDigit = true) → (∀ c ∈ b, c.isDigit = true) →
        a ++ r = b ++ s → a = b ∧ r = s := by
      intro a
      induction a with
      | nil =>
        intro b _ hb h
        cases b with
        | nil => exact ⟨rfl, h⟩
        | cons c b =>
          have := not_digit_of_stop (hr c (by rw [show r = c :: (b ++ s) from h]; rfl))
          rw [hb c (by simp)] at this
          cases this
      | cons c a ih =>
        intro b ha hb h
        cases b with
        | nil =>
          have := not_digit_of_stop (hs c (by rw [show s = c :: (a ++ r) from h.symm]; rfl))
          rw [ha c (by simp)] at this
          cases this
        | cons c' b =>
          simp only [List.cons_append, List.cons.injEq] at h
          obtain ⟨h1, h2⟩ := ih b (fun c hc => ha c (by simp [hc])) (fun c hc => hb c (by simp [hc])) h.2
          exact ⟨by rw [h.1, h1], h2⟩
    obtain ⟨h1, h2⟩ := key _ _ (hd m) (hd n) h
    refine ⟨?_, h2⟩
    rw [← Nat.ofDigitChars_ten_toDigits (n := m), h1, Nat.ofDigitChars_ten_toDigits]
  · cases hn : Nat.toDigits 10 n with
    | nil => exact absurd hn (by simp)
    | cons c cs =>
      refine ⟨c, by rw [debugNat, hn]; rfl, fun hs => ?_⟩
      have := hd n c (by rw [hn]; simp)
      rw [not_digit_of_stop (closers_sub hs)] at this
      cases this

theorem code_option (h : Code d) : Code (debugOption d) := by
  refine ⟨fun x y r s hr hs he => ?_, fun x => ?_⟩
  · cases x with
    | none => cases y <;> simp_all [debugOption]
    | some x =>
      cases y with
      | none => simp [debugOption] at he
      | some y =>
        simp only [debugOption, List.append_assoc] at he
        obtain ⟨h1, h2⟩ := h.inj _ _ _ _ (ends_lit _ _ (by decide)) (ends_lit _ _ (by decide)) (List.append_cancel_left he)
        exact ⟨by rw [h1], List.append_cancel_left h2⟩
  · cases x
    · exact ⟨'N', rfl, by decide⟩
    · exact ⟨'S', rfl, by decide⟩

/-- a name that can begin a text -/
def Name (n : String) : Prop := ∃ c ∈ n.toList.head?, c ∉ closers

instance (n : String) : Decidable (Name n) :=
  match h : n.toList.head? with
  | none => isFalse fun ⟨c, hc, _⟩ => by rw [h] at hc; cases hc
  | some c =>
    if hc : c ∈ closers then isFalse fun ⟨c', hc', hn⟩ => by rw [h] at hc'; cases hc'; exact hn hc
    else isTrue ⟨c, by rw [h]; rfl, hc⟩

theorem head_name {n : String} (h : Name n) (r : List Char) : ∃ c ∈ (n.toList ++ r).head?, c ∉ closers := by
  obtain ⟨c, hc, hs⟩ := h
  refine ⟨c, ?_, hs⟩
  rw [List.head?_append, show n.toList.head? = some c from hc]
  rfl

theorem code_struct1 (h : Code d) {n f : String} (hn : Name n) : Code fun x => debugStruct n [(f, d x)] := by
  refine ⟨fun x y r s hr hs he => ?_, fun x => head_name hn _⟩
  simp only [debugStruct, List.map_cons, List.map_nil, joined, List.flatMap_nil, List.append_nil, List.append_assoc,
    List.append_cancel_left_eq] at he
  obtain ⟨h1, h2⟩ := h.inj _ _ _ _ (ends_lit _ _ (by decide)) (ends_lit _ _ (by decide)) he
  exact ⟨h1, List.append_cancel_left h2⟩

theorem code_struct2 (h : Code d) (h' : Code e) {n f g : String} (hn : Name n) :
    Code fun x : α × β => debugStruct n [(f, d x.1), (g, e x.2)] := by
  refine ⟨fun x y r s hr hs he => ?_, fun x => head_name hn _⟩
  simp only [debugStruct, List.map_cons, List.map_nil, joined, List.flatMap_cons, List.flatMap_nil, List.append_nil,
    List.append_assoc, List.append_cancel_left_eq] at he
  obtain ⟨h1, h2⟩ := h.inj _ _ _ _ (ends_lit _ _ (by decide)) (ends_lit _ _ (by decide)) he
  simp only [List.append_cancel_left_eq] at h2
  obtain ⟨h3, h4⟩ := h'.inj _ _ _ _ (ends_lit _ _ (by decide)) (ends_lit _ _ (by decide)) h2
  exact ⟨Prod.ext h1 h3, List.append_cancel_left h4⟩

theorem code_entry (h : Code d) (h' : Code e) : Code fun x : α × β => d x.1 ++ (": ".toList ++ e x.2) := by
  refine ⟨fun x y r s hr hs he => ?_, fun x => ?_⟩
  · simp only [List.append_assoc] at he
    obtain ⟨h1, h2⟩ := h.inj _ _ _ _ (ends_lit _ _ (by decide)) (ends_lit _ _ (by decide)) he
    obtain ⟨h3, h4⟩ := h'.inj _ _ _ _ hr hs (List.append_cancel_left h2)
    exact ⟨Prod.ext h1 h3, h4⟩
  · obtain ⟨c, hc, hs⟩ := h.head x.1
    refine ⟨c, ?_, hs⟩
    rw [List.head?_append, show (d x.1).head? = some c from hc]
    rfl

theorem joined_inj (h : Code d) {t : String} (ht : t.toList.head?.elim false (fun c => c ∈ closers) = true)
    (xs ys : List α) (r s : List Char) (he : joined (xs.map d) ++ (t.toList ++ r) = joined (ys.map d) ++ (t.toList ++ s)) :
    xs = ys ∧ r = s := by
  have ht' : t.toList.head?.elim false (· ∈ stops) = true := by
    cases hh : t.toList.head? with
    | none => rw [hh] at ht; cases ht
    | some c => rw [hh] at ht; simp only [Option.elim_some, decide_eq_true_eq] at ht ⊢; exact closers_sub ht
  have hcomma : ∀ (u v : List Char), t.toList ++ u ≠ ", ".toList ++ v := by
    intro u v huv
    cases hh : t.toList with
    | nil => rw [hh] at ht; cases ht
    | cons c cs =>
      rw [hh] at ht huv
      simp only [List.head?_cons, Option.elim_some, decide_eq_true_eq] at ht
      have := congrArg List.head? huv
      simp only [List.cons_append, List.head?_cons] at this
      have h0 : c = ',' := by simpa using this
      rw [h0] at ht
      exact absurd ht (by decide)
  have hclose : ∀ (u v : List Char) (x : α), t.toList ++ u ≠ d x ++ v := by
    intro u v x huv
    have hn := h.not_closed x v
    rw [← huv] at hn
    cases hh : t.toList with
    | nil => rw [hh] at ht; cases ht
    | cons c cs =>
      rw [hh] at ht hn
      exact hn c rfl (by simpa using ht)
  have tail : ∀ (xs ys : List α), (xs.map d).flatMap (fun y => ", ".toList ++ y) ++ (t.toList ++ r) =
      (ys.map d).flatMap (fun y => ", ".toList ++ y) ++ (t.toList ++ s) → xs = ys ∧ r = s := by
    have hend : ∀ (zs : List α) (u : List Char),
        Ends ((zs.map d).flatMap (fun y => ", ".toList ++ y) ++ (t.toList ++ u)) := by
      intro zs u
      cases zs with
      | nil => exact ends_lit _ _ ht'
      | cons z zs =>
        simp only [List.map_cons, List.flatMap_cons, List.append_assoc]
        exact ends_lit _ _ (by decide)
    intro xs
    induction xs with
    | nil =>
      intro ys he
      cases ys with
      | nil => exact ⟨rfl, List.append_cancel_left he⟩
      | cons y ys =>
        simp only [List.map_cons, List.flatMap_cons, List.append_assoc] at he
        exact absurd he (hcomma _ _)
    | cons x xs ih =>
      intro ys he
      cases ys with
      | nil =>
        simp only [List.map_cons, List.flatMap_cons, List.append_assoc] at he
        exact absurd he.symm (hcomma _ _)
      | cons y ys =>
        simp only [List.map_cons, List.flatMap_cons, List.append_assoc] at he
        obtain ⟨h1, h2⟩ := h.inj _ _ _ _ (hend _ _) (hend _ _) (List.append_cancel_left he)
        obtain ⟨h3, h4⟩ := ih ys h2
        exact ⟨by rw [h1, h3], h4⟩
  have hend : ∀ (zs : List α) (u : List Char),
      Ends ((zs.map d).flatMap (fun y => ", ".toList ++ y) ++ (t.toList ++ u)) := by
    intro zs u
    cases zs with
    | nil => exact ends_lit _ _ ht'
    | cons z zs =>
      simp only [List.map_cons, List.flatMap_cons, List.append_assoc]
      exact ends_lit _ _ (by decide)
  cases xs with
  | nil =>
    cases ys with
    | nil => exact ⟨rfl, List.append_cancel_left he⟩
    | cons y ys =>
      simp only [List.map_nil, List.map_cons, joined, List.nil_append, List.append_assoc] at he
      exact absurd he (hclose _ _ _)
  | cons x xs =>
    cases ys with
    | nil =>
      simp only [List.map_nil, List.map_cons, joined, List.nil_append, List.append_assoc] at he
      exact absurd he.symm (hclose _ _ _)
    | cons y ys =>
      simp only [List.map_cons, joined, List.append_assoc] at he
      obtain ⟨h1, h2⟩ := h.inj _ _ _ _ (hend _ _) (hend _ _) he
      obtain ⟨h3, h4⟩ := tail xs ys h2
      exact ⟨by rw [h1, h3], h4⟩

theorem code_list (h : Code d) : Code fun xs : List α => debugList (xs.map d) := by
  refine ⟨fun xs ys r s hr hs he => ?_, fun x => ⟨'[', rfl, by decide⟩⟩
  simp only [debugList, List.append_assoc, List.append_cancel_left_eq] at he
  exact joined_inj h (by decide) xs ys r s he

theorem code_map (h : Code d) (h' : Code e) :
    Code fun xs : List (α × β) => debugMap (xs.map fun x => (d x.1, e x.2)) := by
  refine ⟨fun xs ys r s hr hs he => ?_, fun x => ⟨'{', rfl, by decide⟩⟩
  simp only [debugMap, List.append_assoc, List.append_cancel_left_eq, List.map_map] at he
  exact joined_inj (code_entry h h') (by decide) xs ys r s he

end Rust.Fmt
