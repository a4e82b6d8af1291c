import Verif.Rust.FmtPretty
/-!
# Texts of `#[derive(Debug)]` with formatting flags

The contract of `std::fmt` for `{:…?}` with any flags: `#`, `+`, `0`, `x`, `X`, fill, alignment, width and precision. Derived
`Debug` writes names and brackets as they are and hands the flags on to every value. Integers are written by
`Formatter::pad_integral`, which knows no precision. `bool` is written by `Formatter::pad`, which cuts the text off at the
precision. Nothing here models a file of the crate. A text is a list of characters.
-/

namespace Rust.Fmt

/-- `<`, `^`, `>` -/
inductive Align
  | left | center | right
  deriving DecidableEq

/-- `{:?}`, `{:x?}`, `{:X?}` -/
inductive Hex
  | off | lower | upper
  deriving DecidableEq

/-- what stands between `:` and `?` -/
structure Flags where
  alt : Bool := false
  plus : Bool := false
  zero : Bool := false
  hex : Hex := .off
  fill : Char := ' '
  align : Option Align := none
  width : Nat := 0
  precision : Option Nat := none

/-- how many of `n` fill characters stand before the text -/
def Align.before (n : Nat) : Align → Nat
  | .left => 0
  | .center => n / 2
  | .right => n

/-- `Formatter::padding`: fill up to the width; `dflt` is the alignment if none is asked for -/
def padded (fl : Flags) (dflt : Align) (t : List Char) : List Char :=
  List.replicate ((fl.align.getD dflt).before (fl.width - t.length)) fl.fill ++ (t ++
    List.replicate (fl.width - t.length - (fl.align.getD dflt).before (fl.width - t.length)) fl.fill)

/-- `Debug` of `bool`: `Formatter::pad` of the word -/
def fmtBool (fl : Flags) (b : Bool) : List Char :=
  padded fl .left (match fl.precision with
    | none => debugBool b
    | some p => (debugBool b).take p)

/-- the digits of a number -/
def Hex.digits (n : Nat) : Hex → List Char
  | .off => Nat.toDigits 10 n
  | .lower => Nat.toDigits 16 n
  | .upper => (Nat.toDigits 16 n).map Char.toUpper

/-- what stands before the digits: the sign -/
def Flags.sign (fl : Flags) : List Char := if fl.plus then ['+'] else []

/-- what stands before the digits: `0x` -/
def Flags.radix (fl : Flags) : List Char := if fl.alt = true ∧ fl.hex ≠ .off then ['0', 'x'] else []

/-- `Debug` of unsigned integers: `Formatter::pad_integral`; with `0` the zeros stand after the sign and `0x` -/
def fmtNat (fl : Flags) (n : Nat) : List Char :=
  if fl.zero then fl.sign ++ (fl.radix ++
    (List.replicate (fl.width - (fl.sign ++ (fl.radix ++ fl.hex.digits n)).length) '0' ++ fl.hex.digits n))
  else padded fl .right (fl.sign ++ (fl.radix ++ fl.hex.digits n))

/-- `debug_struct` (with at least one field) -/
def fmtStruct (fl : Flags) (name : String) (fields : List (String × List Char)) : List Char :=
  if fl.alt then prettyStruct name fields else debugStruct name fields

/-- `debug_map` -/
def fmtMap (fl : Flags) (entries : List (List Char × List Char)) : List Char :=
  if fl.alt then prettyMap entries else debugMap entries

/-- `debug_list` -/
def fmtList (fl : Flags) (items : List (List Char)) : List Char :=
  if fl.alt then prettyList items else debugList items

/-- `Debug` of `Option` -/
def fmtOption {α : Type} (fl : Flags) (d : α → List Char) (x : Option α) : List Char :=
  if fl.alt then prettyOption d x else debugOption d x

/-- the digits in use -/
def Hex.chars : Hex → List Char
  | .off => "0123456789".toList
  | .lower => "0123456789abcdef".toList
  | .upper => "0123456789ABCDEF".toList

/-- the fill character cannot be taken for a digit of the numbers it is used for, nor for the end of a list -/
def Flags.Clear (fl : Flags) : Prop := fl.width = 0 ∨ (fl.fill ∉ fl.hex.chars ∧ fl.fill ∉ closers)

instance (fl : Flags) : Decidable fl.Clear := by unfold Flags.Clear; infer_instance

/-! ## no flags -/

theorem fmtNat_plain (n : Nat) : fmtNat {} n = debugNat n := by
  simp [fmtNat, padded, Flags.sign, Flags.radix, Align.before, Hex.digits, debugNat]

theorem fmtBool_plain (b : Bool) : fmtBool {} b = debugBool b := by
  simp [fmtBool, padded, Align.before]

theorem fmtNat_alt (n : Nat) : fmtNat { alt := true } n = debugNat n := by
  simp [fmtNat, padded, Flags.sign, Flags.radix, Align.before, Hex.digits, debugNat]

theorem fmtBool_alt (b : Bool) : fmtBool { alt := true } b = debugBool b := by
  simp [fmtBool, padded, Align.before]

/-! ## numbers that can be told apart -/

/-- the base -/
def Hex.base : Hex → Nat
  | .off => 10
  | _ => 16

/-- the digit for a number below the base -/
def Hex.char (d : Nat) : Hex → Char
  | .upper => (Nat.digitChar d).toUpper
  | _ => Nat.digitChar d

/-- the number some digits stand for -/
def Hex.value (h : Hex) (l : List Char) : Nat := l.foldl (fun a c => a * h.base + h.chars.idxOf c) 0

theorem one_lt_base (h : Hex) : 1 < h.base := by cases h <;> decide

theorem digits_eq (h : Hex) (n : Nat) :
    h.digits n = if n < h.base then [h.char n] else h.digits (n / h.base) ++ [h.char (n % h.base)] := by
  cases h
  · exact Nat.toDigits_eq_if (by decide)
  · exact Nat.toDigits_eq_if (by decide)
  · show (Nat.toDigits 16 n).map Char.toUpper = if n < 16 then _ else (Nat.toDigits 16 (n / 16)).map Char.toUpper ++ _
    rw [Nat.toDigits_eq_if (by decide)]
    split
    · rfl
    · rw [List.map_append]; rfl

theorem char_spec (h : Hex) : ∀ d, d < h.base → h.char d ∈ h.chars ∧ h.chars.idxOf (h.char d) = d := by
  cases h <;> decide

theorem digits_mem (h : Hex) (n : Nat) : ∀ c ∈ h.digits n, c ∈ h.chars := by
  induction n using Nat.strongRecOn with
  | _ n ih =>
    intro c hc
    rw [digits_eq] at hc
    have hb := one_lt_base h
    split at hc
    · rename_i hn
      rw [List.mem_singleton.1 hc]
      exact (char_spec h n hn).1
    · rename_i hn
      rcases List.mem_append.1 hc with hc | hc
      · exact ih _ (Nat.div_lt_self (by omega) hb) c hc
      · rw [List.mem_singleton.1 hc]
        exact (char_spec h _ (Nat.mod_lt _ (by omega))).1

theorem digits_value (h : Hex) (n : Nat) : h.value (h.digits n) = n := by
  induction n using Nat.strongRecOn with
  | _ n ih =>
    rw [digits_eq]
    have hb := one_lt_base h
    split
    · rename_i hn
      simp [Hex.value, (char_spec h n hn).2]
    · rename_i hn
      have := ih _ (Nat.div_lt_self (by omega) hb)
      rw [Hex.value] at this ⊢
      rw [List.foldl_append, this]
      simp only [List.foldl_cons, List.foldl_nil, (char_spec h _ (Nat.mod_lt n (by omega : h.base > 0))).2]
      exact Nat.div_add_mod' n h.base

theorem digits_head (h : Hex) (n : Nat) : ∃ c cs, h.digits n = c :: cs ∧ c ∈ h.chars := by
  cases hd : h.digits n with
  | nil =>
    rw [digits_eq] at hd
    split at hd
    · cases hd
    · simp at hd
  | cons c cs => exact ⟨c, cs, rfl, digits_mem h n c (by rw [hd]; simp)⟩

theorem zeros_value (h : Hex) (k : Nat) (l : List Char) : h.value (List.replicate k '0' ++ l) = h.value l := by
  rw [Hex.value, List.foldl_append, Hex.value]
  congr 1
  induction k with
  | zero => rfl
  | succ k ih =>
    rw [List.replicate_succ, List.foldl_cons]
    rw [show (0 * h.base + h.chars.idxOf '0') = 0 by cases h <;> decide]
    exact ih

theorem stop_not_char {h : Hex} {c : Char} (hc : c ∈ stops) : c ∉ h.chars := by
  revert c
  cases h <;> decide

/-- two runs of `p`s, each followed by something else -/
theorem run_cut (p : Char → Prop) : ∀ {a b r s : List Char}, (∀ c ∈ a, p c) → (∀ c ∈ b, p c) → (∀ c ∈ r.head?, ¬ p c) →
    (∀ c ∈ s.head?, ¬ p c) → a ++ r = b ++ s → a = b ∧ r = s := by
  intro a
  induction a with
  | nil =>
    intro b r s _ hb hr _ h
    cases b with
    | nil => exact ⟨rfl, h⟩
    | cons c b => exact absurd (hb c (by simp)) (hr c (by rw [show r = c :: (b ++ s) from h]; rfl))
  | cons c a ih =>
    intro b r s ha hb hr hs h
    cases b with
    | nil => exact absurd (ha c (by simp)) (hs c (by rw [show s = c :: (a ++ r) from h.symm]; rfl))
    | cons c' b =>
      simp only [List.cons_append, List.cons.injEq] at h
      obtain ⟨h1, h2⟩ := ih (fun c hc => ha c (by simp [hc])) (fun c hc => hb c (by simp [hc])) hr hs h.2
      exact ⟨by rw [h.1, h1], h2⟩

theorem head_fill {p : Char → Prop} {k : Nat} {f : Char} {r : List Char} (hf : 0 < k → p f) (hr : ∀ c ∈ r.head?, p c) :
    ∀ c ∈ (List.replicate k f ++ r).head?, p c := by
  intro c hc
  cases k with
  | zero => exact hr c hc
  | succ k =>
    cases hc
    exact hf (by omega)

/-- what stands before the digits begins with a digit, if it is not empty -/
theorem radix_head (fl : Flags) (n : Nat) (r : List Char) :
    ∃ c cs, fl.radix ++ (fl.hex.digits n ++ r) = c :: cs ∧ c ∈ fl.hex.chars := by
  unfold Flags.radix
  split
  · exact ⟨'0', _, rfl, by cases fl.hex <;> decide⟩
  · obtain ⟨c, cs, h1, h2⟩ := digits_head fl.hex n
    exact ⟨c, cs ++ r, by rw [h1]; rfl, h2⟩

theorem plus_not_char (h : Hex) : '+' ∉ h.chars := by cases h <;> decide

/-- numbers written with flags can be told apart if the fill character is no digit -/
theorem code_fmtNat {fl : Flags} (hfl : fl.zero = true ∨ fl.Clear) : Code (fmtNat fl) := by
  refine ⟨fun m n r s hr hs he => ?_, fun n => ?_⟩
  · have hends : ∀ {r : List Char}, Ends r → ∀ c ∈ r.head?, ¬ c ∈ fl.hex.chars := fun hr c hc => stop_not_char (hr c hc)
    unfold fmtNat at he
    by_cases hz : fl.zero = true
    · rw [if_pos hz, if_pos hz] at he
      simp only [List.append_assoc, List.append_cancel_left_eq] at he
      have hz0 : '0' ∈ fl.hex.chars := by cases fl.hex <;> decide
      have hall : ∀ k n, ∀ c ∈ List.replicate k '0' ++ fl.hex.digits n, c ∈ fl.hex.chars := by
        intro k n c hc
        rcases List.mem_append.1 hc with hc | hc
        · rw [(List.mem_replicate.1 hc).2]; exact hz0
        · exact digits_mem _ _ c hc
      rw [← List.append_assoc, ← List.append_assoc (bs := fl.hex.digits n)] at he
      obtain ⟨h1, h2⟩ := run_cut (· ∈ fl.hex.chars) (hall _ m) (hall _ n) (hends hr) (hends hs) he
      have := congrArg fl.hex.value h1
      rw [zeros_value, zeros_value, digits_value, digits_value] at this
      exact ⟨this, h2⟩
    · rw [if_neg hz, if_neg hz] at he
      have hfl := hfl.resolve_left hz
      have hfill : ∀ {k l : Nat}, k ≤ fl.width - l → 0 < k → fl.fill ∉ fl.hex.chars := by
        intro k l hk h0
        rcases hfl with h | h
        · omega
        · exact h.1
      unfold padded at he
      generalize hA : fl.align.getD Align.right = A at he
      have hbef : ∀ k, A.before k ≤ k := by intro k; cases A <;> simp only [Align.before] <;> omega
      generalize hm : fl.width - (fl.sign ++ (fl.radix ++ fl.hex.digits m)).length = km at he
      generalize hn : fl.width - (fl.sign ++ (fl.radix ++ fl.hex.digits n)).length = kn at he
      simp only [List.append_assoc] at he
      -- before the first digit
      rw [← List.append_assoc, ← List.append_assoc (bs := fl.sign)] at he
      have hpre : ∀ {k : Nat}, (0 < k → fl.fill ∉ fl.hex.chars) → ∀ c ∈ List.replicate k fl.fill ++ fl.sign, c ∉ fl.hex.chars := by
        intro k hk c hc
        rcases List.mem_append.1 hc with hc | hc
        · obtain ⟨h0, rfl⟩ := List.mem_replicate.1 hc
          exact hk (by omega)
        · unfold Flags.sign at hc
          split at hc
          · rw [List.mem_singleton.1 hc]; exact plus_not_char _
          · cases hc
      have hrad : ∀ n (t : List Char), ∀ c ∈ (fl.radix ++ (fl.hex.digits n ++ t)).head?, ¬ c ∉ fl.hex.chars := by
        intro n t c hc
        obtain ⟨c', cs, h1, h2⟩ := radix_head fl n t
        rw [h1] at hc
        cases hc
        exact not_not.2 h2
      obtain ⟨h1, h2⟩ := run_cut (· ∉ fl.hex.chars)
        (hpre fun h0 => hfill (l := (fl.sign ++ (fl.radix ++ fl.hex.digits m)).length) (k := A.before km) (by rw [hm]; exact hbef _) h0)
        (hpre fun h0 => hfill (l := (fl.sign ++ (fl.radix ++ fl.hex.digits n)).length) (k := A.before kn) (by rw [hn]; exact hbef _) h0)
        (hrad _ _) (hrad _ _) he
      -- the digits
      have h3 := List.append_cancel_left h2
      obtain ⟨h4, h5⟩ := run_cut (· ∈ fl.hex.chars) (digits_mem _ m) (digits_mem _ n)
        (head_fill (fun h0 => hfill (l := (fl.sign ++ (fl.radix ++ fl.hex.digits m)).length) (k := km - A.before km) (by omega) h0)
          (hends hr))
        (head_fill (fun h0 => hfill (l := (fl.sign ++ (fl.radix ++ fl.hex.digits n)).length) (k := kn - A.before kn) (by omega) h0)
          (hends hs)) h3
      have h6 : m = n := by rw [← digits_value fl.hex m, h4, digits_value]
      subst h6
      rw [hm] at hn
      subst hn
      exact ⟨rfl, List.append_cancel_left h5⟩
  · have hchar : ∀ {c : Char}, c ∈ fl.hex.chars → c ∉ closers := fun h1 h2 => stop_not_char (closers_sub h2) h1
    have hhead : ∀ t : List Char, ∀ n, ∃ c ∈ (fl.sign ++ (fl.radix ++ (fl.hex.digits n ++ t))).head?, c ∉ closers := by
      intro t n
      unfold Flags.sign
      split
      · exact ⟨'+', rfl, by decide⟩
      · obtain ⟨c, cs, h1, h2⟩ := radix_head fl n t
        exact ⟨c, by rw [h1]; rfl, hchar h2⟩
    unfold fmtNat
    split
    · generalize fl.width - (fl.sign ++ (fl.radix ++ fl.hex.digits n)).length = k
      unfold Flags.sign
      split
      · exact ⟨'+', rfl, by decide⟩
      · unfold Flags.radix
        split
        · exact ⟨'0', rfl, by decide⟩
        · cases k with
          | zero =>
            obtain ⟨c, cs, h1, h2⟩ := digits_head fl.hex n
            exact ⟨c, by rw [h1]; rfl, hchar h2⟩
          | succ k => exact ⟨'0', rfl, by decide⟩
    · rename_i hz
      have hfl := hfl.resolve_left hz
      unfold padded
      generalize hA : fl.align.getD Align.right = A
      generalize hn : fl.width - (fl.sign ++ (fl.radix ++ fl.hex.digits n)).length = k
      have hbef : A.before k ≤ k := by cases A <;> simp only [Align.before] <;> omega
      cases hb : A.before k with
      | zero =>
        simp only [List.append_assoc, List.replicate_zero, List.nil_append]
        exact hhead _ n
      | succ j =>
        refine ⟨fl.fill, rfl, ?_⟩
        rcases hfl with h | h
        · omega
        · exact h.2

/-! ## truth values that can be told apart -/

/-- `true` and `false` can be told apart unless the precision is 0 -/
theorem code_fmtBool {fl : Flags} (hp : fl.precision ≠ some 0) (hc : fl.width = 0 ∨ fl.fill ∉ closers) : Code (fmtBool fl) := by
  have key : ∀ r s : List Char, fmtBool fl true ++ r ≠ fmtBool fl false ++ s := by
    intro r s he
    unfold fmtBool padded at he
    generalize fl.align.getD Align.left = A at he
    -- the words that are printed
    have hw : (∃ p t f, (match fl.precision with | none => debugBool true | some p => (debugBool true).take p) = 't' :: t ∧
        (match fl.precision with | none => debugBool false | some p => (debugBool false).take p) = 'f' :: f ∧
        t.length = p ∧ f.length = p) ∨
        ((match fl.precision with | none => debugBool true | some p => (debugBool true).take p) = "true".toList ∧
        (match fl.precision with | none => debugBool false | some p => (debugBool false).take p) = "false".toList) := by
      cases hpr : fl.precision with
      | none => exact .inr ⟨rfl, rfl⟩
      | some p =>
        match p, hpr with
        | 0, h => exact absurd h hp
        | 1, _ => exact .inl ⟨_, _, _, rfl, rfl, rfl, rfl⟩
        | 2, _ => exact .inl ⟨_, _, _, rfl, rfl, rfl, rfl⟩
        | 3, _ => exact .inl ⟨_, _, _, rfl, rfl, rfl, rfl⟩
        | 4, _ => exact .inl ⟨_, _, _, rfl, rfl, rfl, rfl⟩
        | p + 5, _ => exact .inr ⟨by simp [debugBool], by simp [debugBool]⟩
    rcases hw with ⟨p, t, f, h1, h2, h3, h4⟩ | ⟨h1, h2⟩
    · rw [h1, h2] at he
      simp only [List.length_cons, h3, h4, List.append_assoc] at he
      have := (List.cons.inj (List.append_cancel_left he)).1
      exact absurd this (by decide)
    · rw [h1, h2] at he
      simp only [show "true".toList.length = 4 from rfl, show "false".toList.length = 5 from rfl, List.append_assoc] at he
      have hA : A.before (fl.width - 4) = A.before (fl.width - 5) ∨ A.before (fl.width - 4) = A.before (fl.width - 5) + 1 := by
        cases A with
        | left => exact .inl rfl
        | center => simp only [Align.before]; omega
        | right => simp only [Align.before]; omega
      rcases hA with hA | hA
      · rw [hA] at he
        exact absurd (List.cons.inj (List.append_cancel_left he)).1 (by decide)
      · rw [hA, List.replicate_succ', List.append_assoc] at he
        have := (List.cons.inj (List.cons.inj (List.append_cancel_left he)).2).1
        exact absurd this (by decide)
  refine ⟨fun x y r s hr hs he => ?_, fun x => ?_⟩
  · cases x <;> cases y
    · exact ⟨rfl, List.append_cancel_left he⟩
    · exact absurd he.symm (key _ _)
    · exact absurd he (key _ _)
    · exact ⟨rfl, List.append_cancel_left he⟩
  · have hw : ∃ c t, (match fl.precision with | none => debugBool x | some p => (debugBool x).take p) = c :: t ∧ c ∉ closers := by
      cases hpr : fl.precision with
      | none => cases x <;> exact ⟨_, _, rfl, by decide⟩
      | some p =>
        cases p with
        | zero => exact absurd hpr hp
        | succ p => cases x <;> exact ⟨_, _, rfl, by decide⟩
    obtain ⟨c, t, h1, h2⟩ := hw
    unfold fmtBool padded
    rw [h1]
    generalize fl.align.getD Align.left = A
    have hbef : ∀ k, A.before k ≤ k := by intro k; cases A <;> simp only [Align.before] <;> omega
    cases hb : A.before (fl.width - (c :: t).length) with
    | zero => exact ⟨c, rfl, h2⟩
    | succ j =>
      refine ⟨fl.fill, rfl, ?_⟩
      rcases hc with h | h
      · have := hbef (fl.width - (c :: t).length)
        omega
      · exact h

/-! ## the builders -/

variable {α β : Type} {d : α → List Char} {e : β → List Char} {fl : Flags}

theorem fmt_struct1 (h : Code d) {n f : String} (hn : Name n) : Code fun x => fmtStruct fl n [(f, d x)] := by
  unfold fmtStruct
  split
  · exact pretty_struct1 h hn
  · exact code_struct1 h hn

theorem fmt_struct2 (h : Code d) (h' : Code e) {n f g : String} (hn : Name n) :
    Code fun x : α × β => fmtStruct fl n [(f, d x.1), (g, e x.2)] := by
  unfold fmtStruct
  split
  · exact pretty_struct2 h h' hn
  · exact code_struct2 h h' hn

theorem fmt_option (h : Code d) : Code (fmtOption fl d) := by
  unfold fmtOption
  split
  · exact pretty_option h
  · exact code_option h

theorem fmt_list (h : Code d) : Code fun xs : List α => fmtList fl (xs.map d) := by
  unfold fmtList
  split
  · exact pretty_list h
  · exact code_list h

theorem fmt_map (h : Code d) (h' : Code e) :
    Code fun xs : List (α × β) => fmtMap fl (xs.map fun x => (d x.1, e x.2)) := by
  unfold fmtMap
  split
  · exact pretty_map h h'
  · exact code_map h h'

end Rust.Fmt
