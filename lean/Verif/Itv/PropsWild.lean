import Verif.Itv.SimWild
/-!
# C96: a wrong `Ord` cannot break the set operations

The value type may answer comparisons as it likes, differently each time, and may panic. `Pick a b i` says that the
interval `i` is `a`, or `b`, or empty, or has a lower bound of one of them and an upper bound of one of them.
-/

open Rust
namespace Itv.Wild

section
variable {T σ : Type} {A : Answers T}

/-- `lo` and `up` are among the bounds of `a` and `b` -/
def Among (a b : Interval T) (lo : LowerBound T) (up : UpperBound T) : Prop :=
  (a.lower = some lo ∨ b.lower = some lo) ∧ (a.upper = some up ∨ b.upper = some up)

/-- the bounds of `i` are among those of `a` and `b` -/
def Pick (a b i : Interval T) : Prop := ∀ lo up, i.bounds = some (lo, up) → Among a b lo up

theorem pick_left (a b : Interval T) : Pick a b a := by
  obtain ⟨_ | s⟩ := a
  · intro lo up h; cases h
  · intro lo up h; cases h; exact ⟨.inl rfl, .inl rfl⟩

theorem pick_right (a b : Interval T) : Pick a b b := by
  obtain ⟨_ | s⟩ := b
  · intro lo up h; cases h
  · intro lo up h; cases h; exact ⟨.inr rfl, .inr rfl⟩

theorem pick_empty (a b : Interval T) : Pick a b ⟨none⟩ := by intro lo up h; cases h

theorem pick_both {s o : NonEmptyInterval T} {lo : LowerBound T} {up : UpperBound T} (h1 : lo = s.lo ∨ lo = o.lo)
    (h2 : up = s.up ∨ up = o.up) : Among ⟨some s⟩ ⟨some o⟩ lo up := by
  constructor
  · rcases h1 with rfl | rfl
    · exact .inl rfl
    · exact .inr rfl
  · rcases h2 with rfl | rfl
    · exact .inl rfl
    · exact .inr rfl

theorem pick_some {s o : NonEmptyInterval T} {lo : LowerBound T} {up : UpperBound T} (h1 : lo = s.lo ∨ lo = o.lo)
    (h2 : up = s.up ∨ up = o.up) : Pick ⟨some s⟩ ⟨some o⟩ ⟨some ⟨lo, up⟩⟩ := by
  intro lo' up' h
  cases h
  exact pick_both h1 h2

theorem post_unwrap {α β : Type} {v : α} {f : α → M (σ × Nat) β} {x : σ} {Q : Except Fault β → σ → Prop}
    (h : Post (f v) x Q) : Post (unwrap (some v) >>= f) x Q := fun k => h k

theorem pick_bool {α : Type} (c : Bool) (x y : α) : (if c = true then x else y) = y ∨ (if c = true then x else y) = x := by
  cases c
  · exact .inl rfl
  · exact .inr rfl

/-- **C96**, in place. `merge`, `intersection` and `span` never panic by themselves, whatever the value type answers:
they return, or end with a panic of the value type. Either way the interval left behind has bounds that one of the two
intervals had. A refused `merge` hands the other interval back and changes nothing; `span` never loses the last
interval. -/
theorem c96_in_place (A : Answers T) (a b : Interval T) :
    (Post (span A b) a fun r i => Pick a b i ∧ (r = .ok () ∨ r = .error .user ∧ A.Panics) ∧
      (i.isEmpty = true → a.isEmpty = true)) ∧
    (Post (intersection A b) a fun r i => Pick a b i ∧ (r = .ok () ∨ r = .error .user ∧ A.Panics)) ∧
    (Post (merge A b) a fun r i => Pick a b i ∧
      ((r = .ok (.error b) ∧ i = a) ∨ r = .ok (.ok ()) ∨ r = .error .user ∧ A.Panics)) := by
  refine ⟨?_, ?_, ?_⟩
  · unfold span
    refine Post.bind (R := fun r y => r = .ok a ∧ a = y) (Post.theSelf ⟨rfl, rfl⟩) ?_ (by rintro e y ⟨h, -⟩; cases h)
    rintro _ _ ⟨h, rfl⟩
    cases h
    obtain ⟨_ | o⟩ := b
    · exact Post.pure ⟨pick_left _ _, .inl rfl, fun h => h⟩
    obtain ⟨_ | s⟩ := a
    · exact Post.assign ⟨pick_right _ _, .inl rfl, fun h => by cases h⟩
    refine post_unwrap (post_unwrap ?_)
    refine Gives.then (gives_ltL o.lo s.lo) ?_ fun e he =>
      ⟨pick_left _ _, .inr ⟨by rw [he.1], he.2⟩, fun h => h⟩
    intro c _
    refine Post.bind (R := fun r y => r = .ok () ∧ y = ⟨some ⟨if c then o.lo else s.lo, s.up⟩⟩)
      (Post.assign ⟨rfl, rfl⟩) ?_ (by rintro e y ⟨h, -⟩; cases h)
    rintro _ _ ⟨-, rfl⟩
    refine Gives.then (gives_gtU o.up s.up) ?_ fun e he =>
      ⟨pick_some (pick_bool _ _ _) (.inl rfl), .inr ⟨by rw [he.1], he.2⟩, fun h => by cases h⟩
    intro d _
    exact Post.assign ⟨pick_some (pick_bool _ _ _) (pick_bool _ _ _), .inl rfl, fun h => by cases h⟩
  · unfold intersection
    refine Post.bind (R := fun r y => r = .ok a ∧ a = y) (Post.theSelf ⟨rfl, rfl⟩) ?_ (by rintro e y ⟨h, -⟩; cases h)
    rintro _ _ ⟨h, rfl⟩
    cases h
    obtain ⟨_ | s⟩ := a
    · exact Post.assign ⟨pick_empty _ _, .inl rfl⟩
    obtain ⟨_ | o⟩ := b
    · exact Post.assign ⟨pick_empty _ _, .inl rfl⟩
    refine Gives.then (gives_gtI _ _) ?_ fun e he => ⟨pick_left _ _, .inr ⟨by rw [he.1], he.2⟩⟩
    intro g _
    cases g with
    | true => exact Post.assign ⟨pick_empty _ _, .inl rfl⟩
    | false =>
    refine Gives.then (gives_ltI _ _) ?_ fun e he => ⟨pick_left _ _, .inr ⟨by rw [he.1], he.2⟩⟩
    intro g _
    cases g with
    | true => exact Post.assign ⟨pick_empty _ _, .inl rfl⟩
    | false =>
    refine post_unwrap (post_unwrap ?_)
    refine Gives.then (gives_ltL s.lo o.lo) ?_ fun e he => ⟨pick_left _ _, .inr ⟨by rw [he.1], he.2⟩⟩
    intro c _
    refine Post.bind (R := fun r y => r = .ok () ∧ y = ⟨some ⟨if c then o.lo else s.lo, s.up⟩⟩)
      (Post.assign ⟨rfl, rfl⟩) ?_ (by rintro e y ⟨h, -⟩; cases h)
    rintro _ _ ⟨-, rfl⟩
    refine Gives.then (gives_gtU s.up o.up) ?_ fun e he =>
      ⟨pick_some (pick_bool _ _ _) (.inl rfl), .inr ⟨by rw [he.1], he.2⟩⟩
    intro d _
    exact Post.assign ⟨pick_some (pick_bool _ _ _) (pick_bool _ _ _), .inl rfl⟩
  · unfold merge
    refine Post.bind (R := fun r y => r = .ok a ∧ a = y) (Post.theSelf ⟨rfl, rfl⟩) ?_ (by rintro e y ⟨h, -⟩; cases h)
    rintro _ _ ⟨h, rfl⟩
    cases h
    refine Gives.then (gives_canBeMerged _ _) ?_ fun e he => ⟨pick_left _ _, .inr (.inr ⟨by rw [he.1], he.2⟩)⟩
    intro g _
    cases g with
    | false => exact Post.pure ⟨pick_left _ _, .inl ⟨rfl, rfl⟩⟩
    | true =>
    obtain ⟨_ | s⟩ := a
    · exact Post.bind (R := fun r y => r = .ok () ∧ y = b) (Post.assign ⟨rfl, rfl⟩)
        (fun _ _ ⟨_, h⟩ => h ▸ Post.pure ⟨pick_right _ _, .inr (.inl rfl)⟩) (by rintro e y ⟨h, -⟩; cases h)
    obtain ⟨_ | o⟩ := b
    · exact Post.pure ⟨pick_left _ _, .inr (.inl rfl)⟩
    refine Gives.then (gives_ltL o.lo s.lo) ?_ fun e he => ⟨pick_left _ _, .inr (.inr ⟨by rw [he.1], he.2⟩)⟩
    intro c _
    refine Post.bind (R := fun r y => r = .ok () ∧ y = ⟨some ⟨if c then o.lo else s.lo, s.up⟩⟩)
      (Post.assign ⟨rfl, rfl⟩) ?_ (by rintro e y ⟨h, -⟩; cases h)
    rintro _ _ ⟨-, rfl⟩
    refine Gives.then (gives_gtU o.up s.up) ?_ fun e he =>
      ⟨pick_some (pick_bool _ _ _) (.inl rfl), .inr (.inr ⟨by rw [he.1], he.2⟩)⟩
    intro d _
    refine Post.bind
      (R := fun r y => r = .ok () ∧ y = ⟨some ⟨if c then o.lo else s.lo, if d then o.up else s.up⟩⟩)
      (Post.assign ⟨rfl, rfl⟩) ?_ (by rintro e y ⟨h, -⟩; cases h)
    rintro _ _ ⟨-, rfl⟩
    exact Post.pure ⟨pick_some (pick_bool _ _ _) (pick_bool _ _ _), .inr (.inl rfl)⟩

/-- the intervals a `Result` of `into_merged` carries -/
def Carries (P : Interval T → Prop) (a b : Interval T) : Except (Interval T × Interval T) (Interval T) → Prop
  | .ok i => P i
  | .error (x, y) => x = a ∧ y = b

/-- **C96**, by value. `into_span`, `into_intersection` and `into_merged` return an interval whose bounds the two
intervals had, or end with a panic of the value type, or with the panic of the constructor; the last only if the value
type itself said that the bounds chosen are in the wrong order, or equal and not both closed. No `unwrap` fails. -/
theorem c96_by_value (A : Answers T) (a b : Interval T) :
    Gives (σ := σ) (ByUserOr A (Among a b)) (intoSpan A a b) (Pick a b) ∧
    Gives (σ := σ) (ByUserOr A (Among a b)) (intoIntersection A a b) (Pick a b) ∧
    Gives (σ := σ) (ByUserOr A (Among a b)) (intoMerged A a b) (Carries (Pick a b) a b) := by
  have up : ∀ {α : Type} {m : M (σ × Nat) α} {P : α → Prop}, Gives (ByUser A) m P →
      Gives (ByUserOr A (Among a b)) m P := fun h => h.mono (fun _ h => .inl h) fun _ h => h
  refine ⟨?_, ?_, ?_⟩
  · obtain ⟨_ | o⟩ := b
    · exact .pure (pick_left _ _)
    obtain ⟨_ | s⟩ := a
    · exact .pure (pick_right _ _)
    refine (up (gives_minL s.lo o.lo)).bind fun lo hlo => (up (gives_maxU s.up o.up)).bind fun up hup => ?_
    refine (gives_fromBounds lo up (pick_both hlo hup)).mono (fun _ h => h) ?_
    rintro _ rfl
    exact pick_some hlo hup
  · obtain ⟨_ | s⟩ := a
    · exact .pure (pick_left _ _)
    obtain ⟨_ | o⟩ := b
    · exact .pure (pick_right _ _)
    refine (up (gives_intersects _ _)).bind fun g _ => ?_
    cases g with
    | false => exact .pure (pick_empty _ _)
    | true =>
    refine (up (gives_maxL s.lo o.lo)).bind fun lo hlo => (up (gives_minU s.up o.up)).bind fun up hup => ?_
    refine (gives_fromBounds lo up (pick_both hlo hup)).mono (fun _ h => h) ?_
    rintro _ rfl
    exact pick_some hlo hup
  · refine (up (gives_canBeMerged _ _)).bind fun g _ => ?_
    cases g with
    | false => exact .pure ⟨rfl, rfl⟩
    | true =>
    obtain ⟨_ | o⟩ := b
    · exact .pure (pick_left _ _)
    obtain ⟨_ | s⟩ := a
    · exact .pure (pick_right _ _)
    refine (up (gives_minL s.lo o.lo)).bind fun lo hlo => (up (gives_maxU s.up o.up)).bind fun up hup => ?_
    refine (gives_fromBounds lo up (pick_both hlo hup)).bind ?_
    rintro _ rfl
    exact .pure (pick_some hlo hup)

/-- **C96**, questions. `contains_val`, `contains_interval`, `can_be_merged`, `intersects`, `<` and `>` answer, unless the
value type panics. -/
theorem c96_questions (A : Answers T) (a b : Interval T) (v : T) :
    Gives (σ := σ) (ByUser A) (containsVal A a v) (fun _ => True) ∧
    Gives (σ := σ) (ByUser A) (containsInterval A a b) (fun _ => True) ∧
    Gives (σ := σ) (ByUser A) (canBeMerged A a b) (fun _ => True) ∧
    Gives (σ := σ) (ByUser A) (intersects A a b) (fun _ => True) ∧
    Gives (σ := σ) (ByUser A) (lt A a b) (fun _ => True) ∧ Gives (σ := σ) (ByUser A) (gt A a b) (fun _ => True) :=
  ⟨gives_containsVal a v, gives_containsInterval a b, gives_canBeMerged a b, gives_intersects a b, gives_ltI a b,
    gives_gtI a b⟩

end

/-! ## a proper `cmp` with operators that say too little or too much -/

section
variable {T σ : Type} [LinearOrder T] {A : Answers T}

/-- `cmp` is a linear order, the operators never panic, and `>` and `==` say yes only where `cmp` does. They may say no
where it says yes, as those of floating point numbers do for NaN. -/
structure Cautious (A : Answers T) : Prop where
  cmp : ∀ k x y, A.cmp k x y = some (compare x y)
  gt : ∀ k x y, ∃ b, A.gt k x y = some b ∧ (b = true → x > y)
  eq : ∀ k x y, ∃ b, A.eq k x y = some b ∧ (b = true → x = y)

/-- `m` returns `v` and touches nothing -/
def Returns {α : Type} (m : M (σ × Nat) α) (v : α) : Prop := Gives (fun _ => False) m fun a => a = v

theorem Returns.then {α β : Type} {m : M (σ × Nat) α} {f : α → M (σ × Nat) β} {v : α} {x : σ}
    {Q : Except Fault β → σ → Prop} (h : Returns m v) (hok : Post (f v) x Q) : Post (m >>= f) x Q :=
  Gives.then h (fun _ ha => ha ▸ hok) fun _ h => h.elim

theorem Returns.bind {α β : Type} {m : M (σ × Nat) α} {f : α → M (σ × Nat) β} {v : α} {w : β}
    (h : Returns m v) (hok : Returns (f v) w) : Returns (m >>= f) w :=
  Gives.bind h fun _ ha => ha ▸ hok

theorem Returns.pure {α : Type} {v w : α} (h : v = w) : Returns (Pure.pure v : M (σ × Nat) α) w := Gives.pure h

theorem returns_cmp (h : Cautious A) (a b : T) : Returns (σ := σ) (ask A.cmp a b) (compare a b) := by
  intro x k
  unfold ask
  rw [h.cmp]
  exact ⟨rfl, .inl ⟨_, rfl, rfl⟩⟩

theorem says_gt (h : Cautious A) (a b : T) :
    Gives (σ := σ) (fun _ => False) (ask A.gt a b) fun r => r = true → a > b := by
  intro x k
  obtain ⟨g, hg, hg'⟩ := h.gt k a b
  unfold ask
  simp only [hg]
  exact ⟨trivial, .inl ⟨_, rfl, hg'⟩⟩

theorem says_eq (h : Cautious A) (a b : T) :
    Gives (σ := σ) (fun _ => False) (ask A.eq a b) fun r => r = true → a = b := by
  intro x k
  obtain ⟨g, hg, hg'⟩ := h.eq k a b
  unfold ask
  simp only [hg]
  exact ⟨trivial, .inl ⟨_, rfl, hg'⟩⟩

theorem returns_cmpL (h : Cautious A) (a b : LowerBound T) : Returns (σ := σ) (cmpL A a b) (a.cmp b) := by
  obtain ⟨⟨x, xc⟩⟩ := a
  obtain ⟨⟨y, yc⟩⟩ := b
  unfold cmpL LowerBound.cmp
  refine (returns_cmp h _ _).bind ?_
  simp only [LowerBound.val, LowerBound.isClosed]
  cases compare x y
  · exact .pure rfl
  · cases xc <;> cases yc <;> exact .pure rfl
  · exact .pure rfl

theorem returns_cmpU (h : Cautious A) (a b : UpperBound T) : Returns (σ := σ) (cmpU A a b) (a.cmp b) := by
  obtain ⟨⟨x, xc⟩⟩ := a
  obtain ⟨⟨y, yc⟩⟩ := b
  unfold cmpU UpperBound.cmp
  refine (returns_cmp h _ _).bind ?_
  simp only [UpperBound.val, UpperBound.isClosed]
  cases compare x y
  · exact .pure rfl
  · cases xc <;> cases yc <;> exact .pure rfl
  · exact .pure rfl

theorem returns_minL (h : Cautious A) (a b : LowerBound T) : Returns (σ := σ) (minL A a b) (a.min b) := by
  unfold minL LowerBound.min
  refine (returns_cmpL h _ _).bind ?_
  cases a.cmp b <;> exact .pure rfl

theorem returns_maxL (h : Cautious A) (a b : LowerBound T) : Returns (σ := σ) (maxL A a b) (a.max b) := by
  unfold maxL LowerBound.max
  refine (returns_cmpL h _ _).bind ?_
  cases a.cmp b <;> exact .pure rfl

theorem returns_minU (h : Cautious A) (a b : UpperBound T) : Returns (σ := σ) (minU A a b) (a.min b) := by
  unfold minU UpperBound.min
  refine (returns_cmpU h _ _).bind ?_
  cases a.cmp b <;> exact .pure rfl

theorem returns_maxU (h : Cautious A) (a b : UpperBound T) : Returns (σ := σ) (maxU A a b) (a.max b) := by
  unfold maxU UpperBound.max
  refine (returns_cmpU h _ _).bind ?_
  cases a.cmp b <;> exact .pure rfl

theorem returns_ltL (h : Cautious A) (a b : LowerBound T) : Returns (σ := σ) (ltL A a b) (a.lt b) := by
  unfold ltL LowerBound.lt
  rw [LowerBound.partialCmp_eq]
  refine (returns_cmpL h _ _).bind (.pure ?_)
  cases a.cmp b <;> rfl

theorem returns_gtU (h : Cautious A) (a b : UpperBound T) : Returns (σ := σ) (gtU A a b) (a.gt b) := by
  unfold gtU UpperBound.gt
  rw [UpperBound.partialCmp_eq]
  refine (returns_cmpU h _ _).bind (.pure ?_)
  cases a.cmp b <;> rfl

theorem returns_lt (h : Cautious A) (a b : NonEmptyInterval T) :
    Returns (σ := σ) (lt A ⟨some a⟩ ⟨some b⟩) (Interval.lt ⟨some a⟩ ⟨some b⟩) := by
  show Returns (ltUL A a.up b.lo) (UpperBound.ltL a.up b.lo)
  unfold ltUL UpperBound.ltL
  refine (returns_cmp h _ _).bind ?_
  simp only [UpperBound.val, LowerBound.val, UpperBound.isClosed, LowerBound.isClosed]
  cases compare a.up.bound.val b.lo.bound.val <;> exact .pure rfl

theorem returns_gt (h : Cautious A) (a b : NonEmptyInterval T) :
    Returns (σ := σ) (gt A ⟨some a⟩ ⟨some b⟩) (Interval.gt ⟨some a⟩ ⟨some b⟩) := by
  show Returns (gtLU A a.lo b.up) (LowerBound.gtU a.lo b.up)
  unfold gtLU LowerBound.gtU
  refine (returns_cmp h _ _).bind ?_
  simp only [UpperBound.val, LowerBound.val, UpperBound.isClosed, LowerBound.isClosed]
  cases compare a.lo.bound.val b.up.bound.val <;> exact .pure rfl

theorem returns_fromBounds (h : Cautious A) {a : LowerBound T} {b : UpperBound T} (hw : WellFormed ⟨some ⟨a, b⟩⟩) :
    Returns (σ := σ) (fromBounds A a b) ⟨some ⟨a, b⟩⟩ := by
  obtain ⟨⟨l, lc⟩⟩ := a
  obtain ⟨⟨u, uc⟩⟩ := b
  have hw : l < u ∨ l = u ∧ lc = true ∧ uc = true := hw
  refine (says_gt h l u).bind fun g hg => ?_
  cases g with
  | true => exact absurd (hg rfl) (not_lt.mpr (hw.elim le_of_lt fun h => le_of_eq h.1))
  | false =>
    refine (says_eq h l u).bind fun e he => ?_
    cases e with
    | false => exact .pure rfl
    | true =>
      obtain ⟨-, rfl, rfl⟩ := hw.resolve_left (by rw [he rfl]; exact lt_irrefl _)
      exact .pure rfl

theorem says_separated (h : Cautious A) (l : LowerBound T) (u : UpperBound T) :
    Gives (σ := σ) (fun _ => False) (areSeparated A l u) fun r => r = true → Itv.areSeparated l u = true := by
  unfold areSeparated Itv.areSeparated
  refine (says_gt h _ _).bind fun g hg => ?_
  cases g with
  | true => exact .pure fun _ => by rw [Bool.or_eq_true]; exact .inl (decide_eq_true (hg rfl))
  | false =>
    refine (says_eq h _ _).bind fun e he => ?_
    cases e with
    | false => exact .pure fun h => by cases h
    | true =>
      refine .pure fun h => ?_
      rw [Bool.or_eq_true, Bool.and_assoc, Bool.and_eq_true]
      exact .inr ⟨decide_eq_true (he rfl), h⟩

theorem says_canBeMerged (h : Cautious A) (a b : Interval T) :
    Gives (σ := σ) (fun _ => False) (canBeMerged A a b) fun r => a.canBeMerged b = true → r = true := by
  obtain ⟨_ | a⟩ := a
  · exact .pure fun _ => rfl
  obtain ⟨_ | b⟩ := b
  · exact .pure fun _ => rfl
  have he : Interval.canBeMerged ⟨some a⟩ ⟨some b⟩ = !(Itv.areSeparated b.lo a.up || Itv.areSeparated a.lo b.up) := rfl
  rw [he]
  refine (says_separated h b.lo a.up).bind fun g hg => ?_
  cases g with
  | true => exact .pure fun hc => by rw [hg rfl] at hc; cases hc
  | false =>
    refine (says_separated h a.lo b.up).bind fun g hg => .pure fun hc => ?_
    cases g with
    | true => rw [hg rfl, Bool.or_true] at hc; cases hc
    | false => rfl

/-- **C96**, cautious operators. With a proper `cmp` and operators that say yes only where it does, `span`,
`intersection` and their by-value forms do on well-formed intervals exactly what they do for a lawful type. `merge` and
`into_merged` do as well, except that they may join intervals that a lawful type keeps apart; the result is then the
span. They refuse nothing that a lawful type joins. -/
theorem c96_cautious (h : Cautious A) {a b : Interval T} (ha : WellFormed a) (hb : WellFormed b) :
    (Post (span A b) a fun r i => (r, i) = Interval.span b a) ∧
    (Post (intersection A b) a fun r i => (r, i) = Interval.intersection b a) ∧
    (Post (merge A b) a fun r i => (r, i) = Interval.merge b a ∨
      a.canBeMerged b = false ∧ r = .ok (.ok ()) ∧ i = (Interval.span b a).2) ∧
    (∀ x : σ, Post (intoSpan A a b) x fun r y => y = x ∧ r = Interval.intoSpan a b) ∧
    (∀ x : σ, Post (intoIntersection A a b) x fun r y => y = x ∧ r = Interval.intoIntersection a b) ∧
    (∀ x : σ, Post (intoMerged A a b) x fun r y => y = x ∧ (r = Interval.intoMerged a b ∨
      a.canBeMerged b = false ∧ ∃ i, r = .ok (.ok i) ∧ Interval.intoSpan a b = .ok i)) := by
  have self : ∀ {α : Type} {f : Interval T → M (Interval T × Nat) α} {Q : Except Fault α → Interval T → Prop},
      Post (f a) a Q → Post (theSelf >>= f) a Q := fun h k => h k
  have assign : ∀ {α : Type} {f : Unit → M (Interval T × Nat) α} {Q : Except Fault α → Interval T → Prop}
      {x i : Interval T}, Post (f ()) i Q → Post (assignSelf i >>= f) x Q := fun h k => h k
  have of_returns : ∀ {α : Type} {m : M (σ × Nat) α} {v : α} {w : Except Fault α}, Returns m v → w = .ok v →
      ∀ x : σ, Post m x fun r y => y = x ∧ r = w := fun hr hw x => (hr x).imp fun _ _ hy => by
    obtain ⟨rfl, ⟨c, rfl, rfl⟩ | ⟨e, -, he⟩⟩ := hy
    · exact ⟨rfl, hw.symm⟩
    · exact he.elim
  rcases Interval.cases2 a with rfl | ⟨l, lc, u, uc, rfl⟩
  · rcases Interval.cases2 b with rfl | ⟨l', lc', u', uc', rfl⟩
    · exact ⟨fun _ => rfl, fun _ => rfl, fun _ => .inl rfl, fun _ _ => ⟨rfl, rfl⟩, fun _ _ => ⟨rfl, rfl⟩,
        fun _ _ => ⟨rfl, .inl rfl⟩⟩
    · exact ⟨fun _ => rfl, fun _ => rfl, fun _ => .inl rfl, fun _ _ => ⟨rfl, rfl⟩, fun _ _ => ⟨rfl, rfl⟩,
        fun _ _ => ⟨rfl, .inl rfl⟩⟩
  rcases Interval.cases2 b with rfl | ⟨l', lc', u', uc', rfl⟩
  · exact ⟨fun _ => rfl, fun _ => rfl, fun _ => .inl rfl, fun _ _ => ⟨rfl, rfl⟩, fun _ _ => ⟨rfl, rfl⟩,
        fun _ _ => ⟨rfl, .inl rfl⟩⟩
  have hl := Interval.lower_swap (⟨⟨l, lc⟩⟩ : LowerBound T) ⟨⟨l', lc'⟩⟩
  have hu := Interval.upper_swap (⟨⟨u, uc⟩⟩ : UpperBound T) ⟨⟨u', uc'⟩⟩
  have hl' := Interval.lower_swap' (⟨⟨l, lc⟩⟩ : LowerBound T) ⟨⟨l', lc'⟩⟩
  have hu' := Interval.upper_swap' (⟨⟨u, uc⟩⟩ : UpperBound T) ⟨⟨u', uc'⟩⟩
  have hspan : ∀ {τ : Type}, Returns (σ := τ) (do
      let lo ← minL A ⟨⟨l, lc⟩⟩ ⟨⟨l', lc'⟩⟩
      let up ← maxU A ⟨⟨u, uc⟩⟩ ⟨⟨u', uc'⟩⟩
      fromBounds A lo up) (Interval.hull l lc u uc l' lc' u' uc') := by
    intro τ
    refine (returns_minL h _ _).bind ((returns_maxU h _ _).bind ?_)
    rw [LowerBound.min_eq, UpperBound.max_eq]
    exact returns_fromBounds h (Interval.hull_wf ha hb rfl rfl)
  refine ⟨?_, ?_, ?_, ?_, ?_, ?_⟩
  · rw [Interval.span_mk]
    refine self (post_unwrap (post_unwrap ?_))
    refine Returns.then (returns_ltL h _ _) (assign (Returns.then (returns_gtU h _ _) (Post.assign ?_)))
    rw [Interval.hull, ← hl, ← hu]
  · rw [Interval.intersection_mk]
    refine self ?_
    refine Returns.then (returns_gt h _ _) ?_
    unfold Interval.intersects
    cases Interval.gt (iv l lc u uc) (iv l' lc' u' uc') with
    | true => exact Post.assign rfl
    | false =>
    refine Returns.then (returns_lt h _ _) ?_
    cases Interval.lt (iv l lc u uc) (iv l' lc' u' uc') with
    | true => exact Post.assign rfl
    | false =>
    refine post_unwrap (post_unwrap ?_)
    refine Returns.then (returns_ltL h _ _) (assign (Returns.then (returns_gtU h _ _) (Post.assign ?_)))
    rw [Interval.meet, ← hl', ← hu']
    rfl
  · rw [Interval.merge_mk, Interval.span_mk]
    refine self ?_
    refine Gives.then (says_canBeMerged h _ _) ?_ fun _ h => h.elim
    intro g hg
    cases g with
    | false =>
      refine Post.pure (.inl ?_)
      rw [if_neg fun hc => by cases hg hc]
    | true =>
      refine Returns.then (returns_ltL h _ _) (assign (Returns.then (returns_gtU h _ _) (assign (Post.pure ?_))))
      rw [Interval.hull, ← hl, ← hu]
      cases hc : Interval.canBeMerged (iv l lc u uc) (iv l' lc' u' uc') with
      | true => exact .inl rfl
      | false => exact .inr ⟨rfl, rfl, rfl⟩
  · exact of_returns hspan (Interval.intoSpan_mk ha hb)
  · refine of_returns ?_ (Interval.intoIntersection_mk ha hb)
    cases hi : (iv l lc u uc).intersects (iv l' lc' u' uc') with
    | false =>
      refine Returns.bind (v := false) ?_ (.pure rfl)
      refine (returns_gt h _ _).bind ?_
      unfold Interval.intersects at hi
      revert hi
      cases Interval.gt (iv l lc u uc) (iv l' lc' u' uc') with
      | true => exact fun _ => .pure rfl
      | false => exact fun hi => (returns_lt h _ _).bind (.pure hi)
    | true =>
      refine Returns.bind (v := true) ?_ ?_
      · refine (returns_gt h _ _).bind ?_
        unfold Interval.intersects at hi
        revert hi
        cases Interval.gt (iv l lc u uc) (iv l' lc' u' uc') with
        | true => intro hi; cases hi
        | false => exact fun hi => (returns_lt h _ _).bind (.pure hi)
      · refine (returns_maxL h _ _).bind ((returns_minU h _ _).bind ?_)
        rw [LowerBound.max_eq, UpperBound.min_eq]
        exact returns_fromBounds h (Interval.meet_wf ha hb hi)
  · intro x
    rw [Interval.intoMerged_mk ha hb, Interval.intoSpan_mk ha hb]
    refine Gives.then (says_canBeMerged h _ _) ?_ fun _ h => h.elim
    intro g hg
    cases g with
    | false =>
      refine Post.pure ⟨rfl, .inl ?_⟩
      rw [if_neg fun hc => by cases hg hc]
    | true =>
      refine post_unwrap (post_unwrap ?_)
      refine Returns.then (returns_minL h _ _) (Returns.then (returns_maxU h _ _) (Returns.then
        (v := Interval.hull l lc u uc l' lc' u' uc') ?_ (Post.pure ⟨rfl, ?_⟩)))
      · rw [LowerBound.min_eq, UpperBound.max_eq]
        exact returns_fromBounds h (Interval.hull_wf ha hb rfl rfl)
      · cases hc : Interval.canBeMerged (iv l lc u uc) (iv l' lc' u' uc') with
        | true => exact .inl rfl
        | false => exact .inr ⟨rfl, _, rfl, rfl⟩

/-- the answers of a lawful type -/
def lawful (T : Type) [LinearOrder T] : Answers T where
  cmp _ x y := some (compare x y)
  lt _ x y := some (decide (x < y))
  le _ x y := some (decide (x ≤ y))
  gt _ x y := some (decide (x > y))
  ge _ x y := some (decide (x ≥ y))
  eq _ x y := some (decide (x = y))

theorem lawful_cautious : Cautious (lawful T) where
  cmp _ _ _ := rfl
  gt _ _ _ := ⟨_, rfl, of_decide_eq_true⟩
  eq _ _ _ := ⟨_, rfl, of_decide_eq_true⟩

theorem returns_gt' (a b : T) : Returns (σ := σ) (ask (lawful T).gt a b) (decide (a > b)) :=
  fun _ _ => ⟨rfl, .inl ⟨_, rfl, rfl⟩⟩
theorem returns_lt' (a b : T) : Returns (σ := σ) (ask (lawful T).lt a b) (decide (a < b)) :=
  fun _ _ => ⟨rfl, .inl ⟨_, rfl, rfl⟩⟩
theorem returns_eq' (a b : T) : Returns (σ := σ) (ask (lawful T).eq a b) (decide (a = b)) :=
  fun _ _ => ⟨rfl, .inl ⟨_, rfl, rfl⟩⟩

theorem returns_separated (l : LowerBound T) (u : UpperBound T) :
    Returns (σ := σ) (areSeparated (lawful T) l u) (Itv.areSeparated l u) := by
  unfold areSeparated Itv.areSeparated
  refine (returns_gt' _ _).bind ?_
  simp only [LowerBound.val, UpperBound.val]
  by_cases h : l.bound.val > u.bound.val
  · simp only [h, decide_true, if_true, Bool.true_or]
    exact .pure rfl
  · simp only [h, decide_false, Bool.false_eq_true, if_false, Bool.false_or]
    refine (returns_eq' _ _).bind ?_
    by_cases h' : u.bound.val = l.bound.val
    · simp only [h', decide_true, if_true, Bool.true_and]
      exact .pure rfl
    · simp only [h', decide_false, Bool.false_eq_true, if_false, Bool.false_and]
      exact .pure rfl

theorem returns_canBeMerged (a b : Interval T) :
    Returns (σ := σ) (canBeMerged (lawful T) a b) (a.canBeMerged b) := by
  obtain ⟨_ | a⟩ := a
  · exact .pure rfl
  obtain ⟨_ | b⟩ := b
  · exact .pure rfl
  have he : Interval.canBeMerged ⟨some a⟩ ⟨some b⟩ = !(Itv.areSeparated b.lo a.up || Itv.areSeparated a.lo b.up) := rfl
  rw [he]
  refine (returns_separated b.lo a.up).bind ?_
  cases Itv.areSeparated b.lo a.up
  · exact (returns_separated a.lo b.up).bind (.pure rfl)
  · exact .pure rfl

/-- **C96**, a lawful `Ord` is a case. With answers that come from a linear order every method is the one the other
properties of this model are about. -/
theorem c96_lawful_is_a_case {a b : Interval T} (ha : WellFormed a) (hb : WellFormed b) (v : T) :
    (Post (span (lawful T) b) a fun r i => (r, i) = Interval.span b a) ∧
    (Post (intersection (lawful T) b) a fun r i => (r, i) = Interval.intersection b a) ∧
    (Post (merge (lawful T) b) a fun r i => (r, i) = Interval.merge b a) ∧
    (Post (fixAfterModification (lawful T)) a fun r i => r = .ok () ∧ i = Interval.fixAfterModification a) ∧
    (∀ x : σ, Post (intoSpan (lawful T) a b) x fun r y => y = x ∧ r = Interval.intoSpan a b) ∧
    (∀ x : σ, Post (intoIntersection (lawful T) a b) x fun r y => y = x ∧ r = Interval.intoIntersection a b) ∧
    (∀ x : σ, Post (intoMerged (lawful T) a b) x fun r y => y = x ∧ r = Interval.intoMerged a b) ∧
    Returns (σ := σ) (canBeMerged (lawful T) a b) (a.canBeMerged b) ∧
    Returns (σ := σ) (intersects (lawful T) a b) (a.intersects b) ∧
    Returns (σ := σ) (containsInterval (lawful T) a b) (a.containsInterval b) ∧
    Returns (σ := σ) (containsVal (lawful T) a v) (a.containsVal v) := by
  have hL : Cautious (lawful T) := lawful_cautious
  obtain ⟨h1, h2, h3, h4, h5, h6⟩ := c96_cautious (σ := σ) hL ha hb
  have miss : ∀ {τ α : Type} {f : Bool → M (τ × Nat) α} {x : τ} {Q R : Except Fault α → τ → Prop},
      Post (canBeMerged (lawful T) a b >>= f) x (fun r y => Q r y ∨ a.canBeMerged b = false ∧ R r y) →
      (a.canBeMerged b = false → Post (f false) x Q) →
      Post (canBeMerged (lawful T) a b >>= f) x Q := by
    intro τ α f x Q R h hf k
    cases hc : a.canBeMerged b with
    | true => exact (h k).resolve_right fun hr => by rw [hc] at hr; cases hr.1
    | false =>
      have hm := returns_canBeMerged (σ := τ) a b
      rw [hc] at hm
      exact Returns.then hm (hf hc) k
  refine ⟨h1, h2, ?_, ?_, h4, h5, ?_, returns_canBeMerged a b, ?_, ?_, ?_⟩
  · have self : ∀ {α : Type} {f : Interval T → M (Interval T × Nat) α} {Q : Except Fault α → Interval T → Prop}
      {x : Interval T}, (Post (f x) x Q ↔ Post (theSelf >>= f) x Q) := ⟨fun h k => h k, fun h k => h k⟩
    unfold merge at h3 ⊢
    refine self.mp (miss (self.mpr h3) fun hc => Post.pure ?_)
    unfold Interval.merge
    rw [hc]
    rfl
  · obtain ⟨_ | a⟩ := a
    · exact fun _ => ⟨rfl, rfl⟩
    have assign : ∀ {α : Type} {f : Unit → M (Interval T × Nat) α} {Q : Except Fault α → Interval T → Prop}
      {x i : Interval T}, Post (f ()) i Q → Post (assignSelf i >>= f) x Q := fun h k => h k
    have self : ∀ {α : Type} {f : Interval T → M (Interval T × Nat) α} {Q : Except Fault α → Interval T → Prop}
      {x : Interval T}, Post (f x) x Q → Post (theSelf >>= f) x Q := fun h k => h k
    have step : ∀ c : NonEmptyInterval T, Post (σ := Interval T) (do
        if (← ask (lawful T).eq c.lo.bound.val c.up.bound.val) && (!c.lo.bound.isClosed || !c.up.bound.isClosed) then
          assignSelf { imp := none }) ⟨some c⟩ fun r i => r = .ok () ∧
        i = if c.lo.val = c.up.val ∧ (!c.lo.isClosed || !c.up.isClosed) then { imp := none } else { imp := some c } := by
      intro c
      refine Returns.then (returns_eq' _ _) ?_
      simp only [Bool.and_eq_true, decide_eq_true_eq, LowerBound.val, UpperBound.val, LowerBound.isClosed,
        UpperBound.isClosed]
      by_cases hc : c.lo.bound.val = c.up.bound.val ∧ (!c.lo.bound.isClosed || !c.up.bound.isClosed) = true
      · rw [if_pos hc]
        exact Post.assign ⟨rfl, (if_pos hc).symm⟩
      · rw [if_neg hc]
        exact Post.pure ⟨rfl, (if_neg hc).symm⟩
    refine self (Returns.then (returns_gt' _ _) ?_)
    unfold Interval.fixAfterModification
    by_cases hc : a.lo.val > a.up.val
    · have hd : decide (a.lo.bound.val > a.up.bound.val) = true := decide_eq_true hc
      simp only [if_pos hc, if_pos hd]
      exact assign (step ⟨⟨a.up.bound⟩, ⟨a.lo.bound⟩⟩)
    · have hd : ¬ decide (a.lo.bound.val > a.up.bound.val) = true := by rw [decide_eq_true_eq]; exact hc
      simp only [if_neg hc, if_neg hd]
      exact assign (step _)
  · intro x
    unfold intoMerged
    refine miss (R := fun _ _ => True) ?_ ?_
    · exact fun k => by
        obtain ⟨hy, hr⟩ := h6 x k
        exact hr.elim (fun hr => .inl ⟨hy, hr⟩) fun hr => .inr ⟨hr.1, trivial⟩
    · intro hc
      refine Post.pure ⟨rfl, ?_⟩
      unfold Interval.intoMerged
      rw [hc]
      rfl
  · obtain ⟨_ | a⟩ := a
    · exact (Returns.pure rfl).bind ((Returns.pure rfl).bind (.pure rfl))
    obtain ⟨_ | b⟩ := b
    · exact (Returns.pure rfl).bind ((Returns.pure rfl).bind (.pure rfl))
    unfold Interval.intersects
    refine (returns_gt hL _ _).bind ?_
    cases Interval.gt ⟨some a⟩ ⟨some b⟩
    · exact (returns_lt hL _ _).bind (.pure rfl)
    · exact .pure rfl
  · obtain ⟨_ | a⟩ := a
    · exact .pure rfl
    obtain ⟨_ | b⟩ := b
    · exact .pure rfl
    show Returns _ (a.lo.le b.lo && a.up.ge b.up)
    unfold LowerBound.le UpperBound.ge
    rw [LowerBound.partialCmp_eq, UpperBound.partialCmp_eq]
    refine Returns.bind (v := a.lo.cmp b.lo != .gt) ((returns_cmpL hL _ _).bind (.pure rfl)) ?_
    have hge : Returns (σ := σ) (geU (lawful T) a.up b.up) (a.up.cmp b.up != .lt) :=
      (returns_cmpU hL _ _).bind (.pure rfl)
    cases a.lo.cmp b.lo
    · refine Gives.mono hge (fun _ h => h) fun r hr => ?_
      rw [hr]
      cases a.up.cmp b.up <;> rfl
    · refine Gives.mono hge (fun _ h => h) fun r hr => ?_
      rw [hr]
      cases a.up.cmp b.up <;> rfl
    · exact .pure rfl
  · obtain ⟨_ | a⟩ := a
    · exact .pure rfl
    have hg : Returns (σ := σ) (gtLV (lawful T) a.lo v) (a.lo.gtV v) := by
      unfold gtLV LowerBound.gtV
      refine (returns_gt' _ _).bind ?_
      simp only [LowerBound.val]
      by_cases h : a.lo.bound.val > v
      · simp only [h, decide_true, if_true, Bool.true_or]
        exact .pure rfl
      · simp only [h, decide_false, Bool.false_eq_true, if_false, Bool.false_or]
        refine (returns_eq' _ _).bind ?_
        by_cases h' : a.lo.bound.val = v
        · simp only [h', decide_true, if_true, Bool.true_and]
          exact .pure rfl
        · simp only [h', decide_false, Bool.false_eq_true, if_false, Bool.false_and]
          exact .pure rfl
    have hl : Returns (σ := σ) (ltUV (lawful T) a.up v) (a.up.ltV v) := by
      unfold ltUV UpperBound.ltV
      refine (returns_lt' _ _).bind ?_
      simp only [UpperBound.val]
      by_cases h : a.up.bound.val < v
      · simp only [h, decide_true, if_true, Bool.true_or]
        exact .pure rfl
      · simp only [h, decide_false, Bool.false_eq_true, if_false, Bool.false_or]
        refine (returns_eq' _ _).bind ?_
        by_cases h' : a.up.bound.val = v
        · simp only [h', decide_true, if_true, Bool.true_and]
          exact .pure rfl
        · simp only [h', decide_false, Bool.false_eq_true, if_false, Bool.false_and]
          exact .pure rfl
    show Returns _ (!(a.lo.gtV v || a.up.ltV v))
    refine hg.bind ?_
    cases a.lo.gtV v
    · exact hl.bind (.pure rfl)
    · exact .pure rfl

end

section
variable {T : Type}

/-- **C96**, repair. `fix_after_modification`, which every operator ends with, leaves the interval, the interval with its
two bounds exchanged, or nothing, and never panics by itself. -/
theorem c96_fix (A : Answers T) (a : Interval T) :
    Post (fixAfterModification A) a fun r i => (r = .ok () ∨ r = .error .user ∧ A.Panics) ∧
      (i = a ∨ i.isEmpty = true ∨ i.intoTuple = a.intoTuple.map fun (l, lc, u, uc) => (u, uc, l, lc)) := by
  have assign : ∀ {α : Type} {f : Unit → M (Interval T × Nat) α} {Q : Except Fault α → Interval T → Prop}
    {x i : Interval T}, Post (f ()) i Q → Post (assignSelf i >>= f) x Q := fun h k => h k
  have self : ∀ {α : Type} {f : Interval T → M (Interval T × Nat) α} {Q : Except Fault α → Interval T → Prop}
    {x : Interval T}, Post (f x) x Q → Post (theSelf >>= f) x Q := fun h k => h k
  obtain ⟨_ | a⟩ := a
  · exact fun _ => ⟨.inl rfl, .inl rfl⟩
  refine self (Gives.then (gives_gt _ _) ?_ fun e he => ⟨.inr ⟨by rw [he.1], he.2⟩, .inl rfl⟩)
  intro g _
  have key : ∀ c : NonEmptyInterval T, ((⟨some c⟩ : Interval T) = ⟨some a⟩ ∨
      (⟨some c⟩ : Interval T).intoTuple = (⟨some a⟩ : Interval T).intoTuple.map fun (l, lc, u, uc) => (u, uc, l, lc)) →
      Post (do
        assignSelf ⟨some c⟩
        if (← ask A.eq c.lo.bound.val c.up.bound.val) && (!c.lo.bound.isClosed || !c.up.bound.isClosed) then
          assignSelf { imp := none }) (⟨some a⟩ : Interval T) fun r i => (r = .ok () ∨ r = .error .user ∧ A.Panics) ∧
        (i = ⟨some a⟩ ∨ i.isEmpty = true ∨
          i.intoTuple = (⟨some a⟩ : Interval T).intoTuple.map fun (l, lc, u, uc) => (u, uc, l, lc)) := by
    intro c hc
    refine assign (Gives.then (gives_eq _ _) ?_ fun e he => ⟨.inr ⟨by rw [he.1], he.2⟩, hc.imp id .inr⟩)
    intro e _
    split
    · exact Post.assign ⟨.inl rfl, .inr (.inl rfl)⟩
    · exact Post.pure ⟨.inl rfl, hc.imp id .inr⟩
  cases g with
  | true => exact key ⟨⟨a.up.bound⟩, ⟨a.lo.bound⟩⟩ (.inr rfl)
  | false => exact key a (.inl rfl)

end

/-! ## where it matters -/

/-- a `cmp` that is a linear order, with operators that see only half of it, as `total_cmp` and the operators of floating
point numbers do for the two zeros -/
def coarse : Answers Nat where
  cmp _ x y := some (compare x y)
  lt _ x y := some (decide (x / 2 < y / 2))
  le _ x y := some (decide (x / 2 ≤ y / 2))
  gt _ x y := some (decide (x / 2 > y / 2))
  ge _ x y := some (decide (x / 2 ≥ y / 2))
  eq _ x y := some (decide (x / 2 = y / 2))

/-- **C96**, limits. The panic of the constructor can be reached: with a `cmp` that tells values apart which `==` does
not, `into_intersection` panics on two intervals that the constructor accepted, where the in-place `intersection`
returns their common part. And a wrong `Ord` can leave an interval that its own constructor rejects. -/
theorem c96_limits :
    (∃ (a b : Interval Nat), (∀ k, fromBounds coarse ⟨⟨0, true⟩⟩ ⟨⟨3, false⟩⟩ ((), k) = (.ok a, ((), k + 2))) ∧
      (∀ k, fromBounds coarse ⟨⟨2, true⟩⟩ ⟨⟨4, true⟩⟩ ((), k) = (.ok b, ((), k + 2))) ∧
      (Post (intoIntersection coarse a b) () fun r _ => r = .error .explicit) ∧
      Post (intersection coarse b) a fun r i => r = .ok () ∧ i.intoTuple = some (2, true, 3, false)) ∧
    ∃ (A : Answers Nat) (a b i : Interval Nat), WellFormed a ∧ WellFormed b ∧
      (Post (span A b) a fun r j => r = .ok () ∧ j = i) ∧
      ∃ lo up, i.bounds = some (lo, up) ∧ Post (fromBounds A lo up) () fun r _ => r = .error .explicit := by
  constructor
  · exact ⟨⟨some ⟨⟨⟨0, true⟩⟩, ⟨⟨3, false⟩⟩⟩⟩, ⟨some ⟨⟨⟨2, true⟩⟩, ⟨⟨4, true⟩⟩⟩⟩, fun _ => rfl, fun _ => rfl, fun _ => rfl,
      fun _ => ⟨rfl, rfl⟩⟩
  · exact ⟨{ lawful Nat with cmp := fun _ _ _ => some .lt }, ⟨some ⟨⟨⟨0, true⟩⟩, ⟨⟨1, true⟩⟩⟩⟩,
      ⟨some ⟨⟨⟨5, true⟩⟩, ⟨⟨6, true⟩⟩⟩⟩, ⟨some ⟨⟨⟨5, true⟩⟩, ⟨⟨1, true⟩⟩⟩⟩, .inl (by decide), .inl (by decide),
      fun _ => ⟨rfl, rfl⟩, _, _, rfl, fun _ => rfl⟩

/-! ## examples -/

/-- a type that contradicts itself and panics now and then -/
def mad : Answers Nat where
  cmp k _ _ := if k % 7 = 6 then none else some (if k % 2 = 0 then .lt else .gt)
  lt k _ _ := some (k % 3 = 0)
  le _ _ _ := some false
  gt k _ _ := if k = 4 then none else some (k % 3 = 1)
  ge _ _ _ := none
  eq k x y := some (k + x = y)

/-- C96: `[0,1]` spanned with `[5,6]` by such a type is `[5,6]`, `[0,1]` or `[0,1]` with a panic, by the number of
comparisons made before -/
example : (span mad ⟨some ⟨⟨⟨5, true⟩⟩, ⟨⟨6, true⟩⟩⟩⟩ (⟨some ⟨⟨⟨0, true⟩⟩, ⟨⟨1, true⟩⟩⟩⟩, 0)).2.1 =
      ⟨some ⟨⟨⟨5, true⟩⟩, ⟨⟨6, true⟩⟩⟩⟩ ∧
    (span mad ⟨some ⟨⟨⟨5, true⟩⟩, ⟨⟨6, true⟩⟩⟩⟩ (⟨some ⟨⟨⟨0, true⟩⟩, ⟨⟨1, true⟩⟩⟩⟩, 5)).1 = .error .user ∧ mad.Panics :=
  ⟨rfl, rfl, 6, 0, 0, .inl rfl⟩

/-- C96: the constructor panics after the bounds were chosen, because the type says they are in the wrong order -/
example : (intoSpan mad ⟨some ⟨⟨⟨0, true⟩⟩, ⟨⟨1, true⟩⟩⟩⟩ ⟨some ⟨⟨⟨5, true⟩⟩, ⟨⟨6, true⟩⟩⟩⟩ ((), 8)).1 = .error .explicit ∧
    mad.gt 10 0 6 = some true := ⟨rfl, rfl⟩

/-- answers that say no to every operator are cautious -/
def shy : Answers Nat where
  cmp _ x y := some (compare x y)
  lt _ _ _ := some false
  le _ _ _ := some false
  gt _ _ _ := some false
  ge _ _ _ := some false
  eq _ _ _ := some false

theorem shy_cautious : Cautious shy where
  cmp _ _ _ := rfl
  gt _ _ _ := ⟨false, rfl, fun h => by cases h⟩
  eq _ _ _ := ⟨false, rfl, fun h => by cases h⟩

/-- C96: such a type merges `[0,1]` and `[5,6]` to `[0,6]`; a lawful one refuses -/
example : (merge shy ⟨some ⟨⟨⟨5, true⟩⟩, ⟨⟨6, true⟩⟩⟩⟩ (⟨some ⟨⟨⟨0, true⟩⟩, ⟨⟨1, true⟩⟩⟩⟩, 0)) =
      (.ok (.ok ()), ⟨some ⟨⟨⟨0, true⟩⟩, ⟨⟨6, true⟩⟩⟩⟩, 6) ∧
    Interval.canBeMerged (⟨some ⟨⟨⟨0, true⟩⟩, ⟨⟨1, true⟩⟩⟩⟩ : Interval Nat) ⟨some ⟨⟨⟨5, true⟩⟩, ⟨⟨6, true⟩⟩⟩⟩ = false :=
  ⟨rfl, rfl⟩

/-- C96: the repair exchanges the bounds of `[9,2)` for a type that says `9 > 2` -/
example : (fixAfterModification (lawful Nat) (⟨some ⟨⟨⟨9, true⟩⟩, ⟨⟨2, false⟩⟩⟩⟩, 0)).2.1 =
    ⟨some ⟨⟨⟨2, false⟩⟩, ⟨⟨9, true⟩⟩⟩⟩ := rfl

end Itv.Wild
