import Verif.Rust.Fmt
/-!
# Texts of `#[derive(Debug)]` with `{:#?}`

The contract of `std::fmt` for the alternate form: every field, entry or item stands on lines of its own, indented by four
spaces and followed by a comma. Nothing here models a file of the crate. A text is a list of characters.
-/

namespace Rust.Fmt

/-- `PadAdapter` of `core::fmt::builders`: four spaces before the first character of every line; the flag tells whether
the next character begins a line -/
def indent : Bool → List Char → List Char
  | _, [] => []
  | true, c :: cs => "    ".toList ++ (c :: indent (c == '\n') cs)
  | false, c :: cs => c :: indent (c == '\n') cs

/-- the pieces, each on lines of its own -/
def lines (pieces : List (List Char)) : List Char := pieces.flatMap fun p => indent true (p ++ ",\n".toList)

/-- `debug_struct` (with at least one field) -/
def prettyStruct (name : String) (fields : List (String × List Char)) : List Char :=
  name.toList ++ (" {\n".toList ++ (lines (fields.map fun f => f.1.toList ++ (": ".toList ++ f.2)) ++ "}".toList))

/-- `debug_map`; an empty map is `{}` -/
def prettyMap (entries : List (List Char × List Char)) : List Char :=
  "{".toList ++ ((if entries = [] then [] else "\n".toList) ++
    (lines (entries.map fun e => e.1 ++ (": ".toList ++ e.2)) ++ "}".toList))

/-- `debug_list`; an empty list is `[]` -/
def prettyList (items : List (List Char)) : List Char :=
  "[".toList ++ ((if items = [] then [] else "\n".toList) ++ (lines items ++ "]".toList))

/-- `Debug` of `Option` -/
def prettyOption {α : Type} (d : α → List Char) : Option α → List Char
  | none => "None".toList
  | some x => "Some(\n".toList ++ (lines [d x] ++ ")".toList)

/-! ## texts that can be told apart -/

variable {α β : Type} {d : α → List Char} {e : β → List Char}

/-- the last character is a line break, if there is one -/
def Full (b : List Char) : Prop := ∀ c ∈ b.getLast?, c = '\n'

theorem full_append {a b : List Char} (hb : Full b) (hne : b ≠ []) : Full (a ++ b) := by
  intro c hc
  rw [List.getLast?_append_of_ne_nil _ hne] at hc
  exact hb c hc

theorem full_append' {a b : List Char} (ha : Full a) (hb : Full b) : Full (a ++ b) := by
  cases b with
  | nil => rwa [List.append_nil]
  | cons c cs => exact full_append hb (by simp)

theorem Full.tail {c : Char} {cs : List Char} (h : Full (c :: cs)) : Full cs := by
  cases cs with
  | nil => intro x hx; cases hx
  | cons x xs =>
    intro y hy
    exact h y (by rwa [List.getLast?_cons_cons])

theorem Full.last {c : Char} {cs : List Char} (h : Full (c :: cs)) (hc : (c == '\n') = false) : cs ≠ [] := by
  rintro rfl
  rw [h c (by simp)] at hc
  cases hc

theorem indent_append {b : List Char} : ∀ {f : Bool} {a : List Char}, Full a → (f = false → a ≠ []) →
    indent f (a ++ b) = indent f a ++ indent true b := by
  intro f a
  induction a generalizing f with
  | nil =>
    intro _ h
    cases f with
    | false => exact absurd rfl (h rfl)
    | true => rfl
  | cons c cs ih =>
    intro ha _
    have := ih (f := c == '\n') ha.tail (fun hc => ha.last hc)
    cases f <;> simp [indent, this]

/-- an indented block ends where a line begins with something else than a space -/
theorem indent_cut {c c' : Char} (hc : c ≠ ' ') (hc' : c' ≠ ' ') {r s : List Char} : ∀ {f : Bool} {a b : List Char}, Full a →
    Full b → (f = false → a ≠ []) → (f = false → b ≠ []) → indent f a ++ c :: r = indent f b ++ c' :: s →
      a = b ∧ c :: r = c' :: s := by
  intro f a
  induction a generalizing f with
  | nil =>
    intro b _ _ ha _ h
    cases f with
    | false => exact absurd rfl (ha rfl)
    | true =>
      cases b with
      | nil => exact ⟨rfl, h⟩
      | cons x xs =>
        simp only [indent, List.nil_append] at h
        exact absurd (List.cons.inj h).1 hc
  | cons x xs ih =>
    intro b hfa hfb _ hb h
    cases b with
    | nil =>
      cases f with
      | false => exact absurd rfl (hb rfl)
      | true =>
        simp only [indent, List.nil_append] at h
        exact absurd (List.cons.inj h).1.symm hc'
    | cons y ys =>
      have h1 : x :: (indent (x == '\n') xs ++ c :: r) = y :: (indent (y == '\n') ys ++ c' :: s) := by
        cases f with
        | false => exact h
        | true =>
          simp only [indent, List.append_assoc] at h
          exact List.append_cancel_left h
      obtain ⟨rfl, h2⟩ := List.cons.inj h1
      obtain ⟨rfl, h3⟩ := ih hfa.tail hfb.tail (fun hx => hfa.last hx) (fun hx => hfb.last hx) h2
      exact ⟨rfl, h3⟩

/-- the pieces before they are indented -/
def rows (pieces : List (List Char)) : List Char := pieces.flatMap fun p => p ++ ",\n".toList

theorem full_row (p : List Char) : Full (p ++ ",\n".toList) := full_append (by intro c hc; simpa using hc.symm) (by decide)

theorem full_rows (ps : List (List Char)) : Full (rows ps) := by
  induction ps with
  | nil => intro c hc; cases hc
  | cons p ps ih => exact full_append' (full_row p) ih

theorem lines_eq (ps : List (List Char)) : lines ps = indent true (rows ps) := by
  induction ps with
  | nil => rfl
  | cons p ps ih =>
    rw [show rows (p :: ps) = (p ++ ",\n".toList) ++ rows ps from rfl, indent_append (full_row p) (by simp), ← ih]
    rfl

theorem lines_cut {c c' : Char} (hc : c ≠ ' ') (hc' : c' ≠ ' ') {r s : List Char} {ps qs : List (List Char)}
    (h : lines ps ++ c :: r = lines qs ++ c' :: s) : rows ps = rows qs ∧ c :: r = c' :: s := by
  rw [lines_eq, lines_eq] at h
  exact indent_cut hc hc' (full_rows _) (full_rows _) (by simp) (by simp) h

theorem rows_inj (h : Code d) : ∀ xs ys : List α, rows (xs.map d) = rows (ys.map d) → xs = ys := by
  have hne : ∀ x (xs : List α), rows ((x :: xs).map d) ≠ [] := by
    intro x xs he
    simp only [rows, List.map_cons, List.flatMap_cons, List.append_assoc] at he
    exact h.ne_nil x (List.append_eq_nil_iff.1 he).1
  intro xs
  induction xs with
  | nil =>
    intro ys he
    cases ys with
    | nil => rfl
    | cons y ys => exact absurd he.symm (hne y ys)
  | cons x xs ih =>
    intro ys he
    cases ys with
    | nil => exact absurd he (hne x xs)
    | cons y ys =>
      simp only [rows, List.map_cons, List.flatMap_cons, List.append_assoc] at he
      obtain ⟨rfl, h2⟩ := h.inj _ _ _ _ (ends_lit _ _ (by decide)) (ends_lit _ _ (by decide)) he
      rw [ih ys (List.append_cancel_left h2)]

theorem pretty_option (h : Code d) : Code (prettyOption d) := by
  refine ⟨fun x y r s hr hs he => ?_, fun x => ?_⟩
  · cases x with
    | none => cases y <;> simp_all [prettyOption]
    | some x =>
      cases y with
      | none => simp [prettyOption] at he
      | some y =>
        simp only [prettyOption, List.append_assoc] at he
        obtain ⟨h1, h2⟩ := lines_cut (by decide) (by decide) (List.append_cancel_left he)
        have := rows_inj h [x] [y] h1
        exact ⟨by rw [(List.cons.inj this).1], (List.cons.inj h2).2⟩
  · cases x
    · exact ⟨'N', rfl, by decide⟩
    · exact ⟨'S', rfl, by decide⟩

theorem pretty_struct1 (h : Code d) {n f : String} (hn : Name n) : Code fun x => prettyStruct n [(f, d x)] := by
  refine ⟨fun x y r s hr hs he => ?_, fun x => head_name hn _⟩
  simp only [prettyStruct, List.append_assoc, List.append_cancel_left_eq] at he
  obtain ⟨h1, h2⟩ := lines_cut (by decide) (by decide) he
  simp only [rows, List.map_cons, List.map_nil, List.flatMap_cons, List.flatMap_nil, List.append_nil, List.append_assoc,
    List.append_cancel_left_eq] at h1
  obtain ⟨h3, _⟩ := h.inj _ _ _ _ (ends_lit ",\n" [] (by decide)) (ends_lit ",\n" [] (by decide))
    (by simpa only [List.append_nil] using h1)
  exact ⟨h3, (List.cons.inj h2).2⟩

theorem pretty_struct2 (h : Code d) (h' : Code e) {n f g : String} (hn : Name n) :
    Code fun x : α × β => prettyStruct n [(f, d x.1), (g, e x.2)] := by
  refine ⟨fun x y r s hr hs he => ?_, fun x => head_name hn _⟩
  simp only [prettyStruct, List.append_assoc, List.append_cancel_left_eq] at he
  obtain ⟨h1, h2⟩ := lines_cut (by decide) (by decide) he
  simp only [rows, List.map_cons, List.map_nil, List.flatMap_cons, List.flatMap_nil, List.append_nil, List.append_assoc,
    List.append_cancel_left_eq] at h1
  obtain ⟨h3, h4⟩ := h.inj _ _ _ _ (ends_lit _ _ (by decide)) (ends_lit _ _ (by decide)) h1
  simp only [List.append_cancel_left_eq] at h4
  obtain ⟨h5, _⟩ := h'.inj _ _ _ _ (ends_lit ",\n" [] (by decide)) (ends_lit ",\n" [] (by decide))
    (by simpa only [List.append_nil] using h4)
  exact ⟨Prod.ext h3 h5, (List.cons.inj h2).2⟩

/-- what stands between the brackets of a list or a map -/
theorem block_inj (h : Code d) {c : Char} (hc : c ≠ ' ') (hn : c ≠ '\n') (xs ys : List α) {r s : List Char}
    (he : (if xs.map d = [] then [] else "\n".toList) ++ (lines (xs.map d) ++ c :: r) =
      (if ys.map d = [] then [] else "\n".toList) ++ (lines (ys.map d) ++ c :: s)) : xs = ys ∧ r = s := by
  have h0 : lines (xs.map d) ++ c :: r = lines (ys.map d) ++ c :: s := by
    cases xs with
    | nil =>
      cases ys with
      | nil => exact he
      | cons y ys => exact absurd (List.cons.inj he).1 hn
    | cons x xs =>
      cases ys with
      | nil => exact absurd (List.cons.inj he).1.symm hn
      | cons y ys =>
        simp only [List.map_cons, reduceCtorEq, if_false] at he
        exact List.append_cancel_left he
  obtain ⟨h1, h2⟩ := lines_cut hc hc h0
  exact ⟨rows_inj h _ _ h1, (List.cons.inj h2).2⟩

theorem pretty_list (h : Code d) : Code fun xs : List α => prettyList (xs.map d) := by
  refine ⟨fun xs ys r s hr hs he => ?_, fun x => ⟨'[', rfl, by decide⟩⟩
  simp only [prettyList, List.append_assoc, List.append_cancel_left_eq] at he
  exact block_inj h (by decide) (by decide) xs ys he

theorem pretty_map (h : Code d) (h' : Code e) :
    Code fun xs : List (α × β) => prettyMap (xs.map fun x => (d x.1, e x.2)) := by
  refine ⟨fun xs ys r s hr hs he => ?_, fun x => ⟨'{', rfl, by decide⟩⟩
  have hm : ∀ zs : List (α × β), ((zs.map fun x => (d x.1, e x.2)) = []) =
      ((zs.map fun x => d x.1 ++ (": ".toList ++ e x.2)) = []) := by
    intro zs
    simp
  simp only [prettyMap, List.append_assoc, List.append_cancel_left_eq, List.map_map, hm] at he
  exact block_inj (code_entry h h') (by decide) (by decide) xs ys he

end Rust.Fmt
