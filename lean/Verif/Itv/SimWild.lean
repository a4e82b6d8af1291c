import Verif.Itv.ModelWild
import Verif.Itv.Props
/-!
# Intervals of values with a wrong `Ord`: lemmas
-/

open Rust
namespace Itv.Wild

variable {T σ α β : Type} {A : Answers T}

/-- some comparison of the value type may panic -/
def Answers.Panics (A : Answers T) : Prop :=
  ∃ k x y, A.cmp k x y = none ∨ A.lt k x y = none ∨ A.le k x y = none ∨ A.gt k x y = none ∨ A.ge k x y = none ∨
    A.eq k x y = none

/-- what a call on `x` ends with, whatever the number of comparisons made before -/
def Post (m : M (σ × Nat) α) (x : σ) (Q : Except Fault α → σ → Prop) : Prop :=
  ∀ k, Q (m (x, k)).1 (m (x, k)).2.1

theorem Post.bind {m : M (σ × Nat) α} {f : α → M (σ × Nat) β} {x : σ} {R : Except Fault α → σ → Prop}
    {Q : Except Fault β → σ → Prop} (h : Post m x R) (hok : ∀ a y, R (.ok a) y → Post (f a) y Q)
    (herr : ∀ e y, R (.error e) y → Q (.error e) y) : Post (m >>= f) x Q := by
  intro k
  have := h k
  rw [M.bind_run]
  generalize m (x, k) = q at this
  obtain ⟨r, y, k'⟩ := q
  cases r with
  | ok a => exact hok a y this k'
  | error e => exact herr e y this

theorem Post.pure {a : α} {x : σ} {Q : Except Fault α → σ → Prop} (h : Q (.ok a) x) :
    Post (Pure.pure a : M (σ × Nat) α) x Q := fun _ => h

theorem Post.throw {e : Fault} {x : σ} {Q : Except Fault α → σ → Prop} (h : Q (.error e) x) :
    Post (M.throw e : M (σ × Nat) α) x Q := fun _ => h

theorem Post.imp {m : M (σ × Nat) α} {x : σ} {Q R : Except Fault α → σ → Prop} (h : Post m x R)
    (hi : ∀ r y, R r y → Q r y) : Post m x Q := fun k => hi _ _ (h k)

theorem Post.theSelf {x : σ} {Q : Except Fault σ → σ → Prop} (h : Q (.ok x) x) : Post theSelf x Q := fun _ => h

theorem Post.assign {x i : σ} {Q : Except Fault Unit → σ → Prop} (h : Q (.ok ()) i) : Post (assignSelf i) x Q :=
  fun _ => h

/-- `m` does not touch the state, and returns something with `P` unless it panics as `F` allows -/
def Gives (F : Fault → Prop) (m : M (σ × Nat) α) (P : α → Prop) : Prop :=
  ∀ x, Post m x fun r y => y = x ∧ ((∃ a, r = .ok a ∧ P a) ∨ ∃ e, r = .error e ∧ F e)

theorem Gives.pure {F : Fault → Prop} {a : α} {P : α → Prop} (h : P a) :
    Gives F (Pure.pure a : M (σ × Nat) α) P := fun _ => Post.pure ⟨rfl, .inl ⟨a, rfl, h⟩⟩

theorem Gives.throw {F : Fault → Prop} {e : Fault} {P : α → Prop} (h : F e) :
    Gives F (M.throw e : M (σ × Nat) α) P := fun _ => Post.throw ⟨rfl, .inr ⟨e, rfl, h⟩⟩

theorem Gives.bind {F : Fault → Prop} {m : M (σ × Nat) α} {f : α → M (σ × Nat) β} {P : α → Prop} {Q : β → Prop}
    (h : Gives F m P) (hf : ∀ a, P a → Gives F (f a) Q) : Gives F (m >>= f) Q := by
  intro x
  refine Post.bind (h x) ?_ ?_
  · rintro a y ⟨rfl, ⟨b, hb, hp⟩ | ⟨e, he, -⟩⟩
    · cases hb; exact hf a hp y
    · cases he
  · rintro e y ⟨rfl, ⟨b, hb, -⟩ | ⟨e', he, hF⟩⟩
    · cases hb
    · cases he; exact ⟨rfl, .inr ⟨e, rfl, hF⟩⟩

theorem Gives.mono {F G : Fault → Prop} {m : M (σ × Nat) α} {P Q : α → Prop} (h : Gives F m P)
    (hF : ∀ e, F e → G e) (hP : ∀ a, P a → Q a) : Gives G m Q := fun x => (h x).imp fun r y ⟨h1, h2⟩ =>
  ⟨h1, h2.imp (fun ⟨a, h3, h4⟩ => ⟨a, h3, hP a h4⟩) fun ⟨e, h3, h4⟩ => ⟨e, h3, hF e h4⟩⟩

/-- a call that only looks, inside one that changes the state -/
theorem Gives.then {F : Fault → Prop} {m : M (σ × Nat) α} {f : α → M (σ × Nat) β} {P : α → Prop} {x : σ}
    {Q : Except Fault β → σ → Prop} (h : Gives F m P) (hok : ∀ a, P a → Post (f a) x Q)
    (herr : ∀ e, F e → Q (.error e) x) : Post (m >>= f) x Q := by
  refine Post.bind (h x) ?_ ?_
  · rintro a y ⟨rfl, ⟨b, hb, hp⟩ | ⟨e, he, -⟩⟩
    · cases hb; exact hok a hp
    · cases he
  · rintro e y ⟨rfl, ⟨b, hb, -⟩ | ⟨e', he, hF⟩⟩
    · cases hb
    · cases he; exact herr e hF

/-- the panics of the value type -/
def ByUser (A : Answers T) (e : Fault) : Prop := e = .user ∧ A.Panics

theorem gives_ask {f : Nat → T → T → Option β} (hf : ∀ k x y, f k x y = none → A.Panics) (a b : T) :
    Gives (σ := σ) (ByUser A) (ask f a b) fun r => ∃ k, f k a b = some r := by
  intro x k
  unfold ask
  cases h : f k a b with
  | none => exact ⟨rfl, .inr ⟨.user, rfl, rfl, hf k a b h⟩⟩
  | some r => exact ⟨rfl, .inl ⟨r, rfl, k, h⟩⟩

theorem gives_cmp (a b : T) : Gives (σ := σ) (ByUser A) (ask A.cmp a b) fun _ => True :=
  (gives_ask (fun k x y h => ⟨k, x, y, .inl h⟩) a b).mono (fun _ h => h) fun _ _ => trivial

theorem gives_gt (a b : T) : Gives (σ := σ) (ByUser A) (ask A.gt a b) fun r => ∃ k, A.gt k a b = some r :=
  gives_ask (fun k x y h => ⟨k, x, y, .inr (.inr (.inr (.inl h)))⟩) a b

theorem gives_eq (a b : T) : Gives (σ := σ) (ByUser A) (ask A.eq a b) fun r => ∃ k, A.eq k a b = some r :=
  gives_ask (fun k x y h => ⟨k, x, y, .inr (.inr (.inr (.inr (.inr h))))⟩) a b

theorem gives_lt (a b : T) : Gives (σ := σ) (ByUser A) (ask A.lt a b) fun r => ∃ k, A.lt k a b = some r :=
  gives_ask (fun k x y h => ⟨k, x, y, .inr (.inl h)⟩) a b

theorem gives_ite {F : Fault → Prop} {p : Prop} [Decidable p] {m n : M (σ × Nat) α} {P : α → Prop}
    (hm : p → Gives F m P) (hn : ¬p → Gives F n P) : Gives F (if p then m else n) P := by
  split
  · exact hm ‹_›
  · exact hn ‹_›

theorem gives_cmpL (a b : LowerBound T) : Gives (σ := σ) (ByUser A) (cmpL A a b) fun _ => True := by
  unfold cmpL
  refine (gives_cmp _ _).bind fun o _ => ?_
  cases o
  · exact .pure trivial
  · exact gives_ite (fun _ => .pure trivial) fun _ => gives_ite (fun _ => .pure trivial) fun _ => .pure trivial
  · exact .pure trivial

theorem gives_cmpU (a b : UpperBound T) : Gives (σ := σ) (ByUser A) (cmpU A a b) fun _ => True := by
  unfold cmpU
  refine (gives_cmp _ _).bind fun o _ => ?_
  cases o
  · exact .pure trivial
  · exact gives_ite (fun _ => .pure trivial) fun _ => gives_ite (fun _ => .pure trivial) fun _ => .pure trivial
  · exact .pure trivial

theorem gives_minL (a b : LowerBound T) : Gives (σ := σ) (ByUser A) (minL A a b) fun r => r = a ∨ r = b :=
  (gives_cmpL a b).bind fun o _ => by cases o <;> first | exact .pure (.inl rfl) | exact .pure (.inr rfl)

theorem gives_maxL (a b : LowerBound T) : Gives (σ := σ) (ByUser A) (maxL A a b) fun r => r = a ∨ r = b :=
  (gives_cmpL a b).bind fun o _ => by cases o <;> first | exact .pure (.inl rfl) | exact .pure (.inr rfl)

theorem gives_minU (a b : UpperBound T) : Gives (σ := σ) (ByUser A) (minU A a b) fun r => r = a ∨ r = b :=
  (gives_cmpU a b).bind fun o _ => by cases o <;> first | exact .pure (.inl rfl) | exact .pure (.inr rfl)

theorem gives_maxU (a b : UpperBound T) : Gives (σ := σ) (ByUser A) (maxU A a b) fun r => r = a ∨ r = b :=
  (gives_cmpU a b).bind fun o _ => by cases o <;> first | exact .pure (.inl rfl) | exact .pure (.inr rfl)

theorem gives_ltL (a b : LowerBound T) : Gives (σ := σ) (ByUser A) (ltL A a b) fun _ => True :=
  (gives_cmpL a b).bind fun _ _ => .pure trivial
theorem gives_leL (a b : LowerBound T) : Gives (σ := σ) (ByUser A) (leL A a b) fun _ => True :=
  (gives_cmpL a b).bind fun _ _ => .pure trivial
theorem gives_gtU (a b : UpperBound T) : Gives (σ := σ) (ByUser A) (gtU A a b) fun _ => True :=
  (gives_cmpU a b).bind fun _ _ => .pure trivial
theorem gives_geU (a b : UpperBound T) : Gives (σ := σ) (ByUser A) (geU A a b) fun _ => True :=
  (gives_cmpU a b).bind fun _ _ => .pure trivial

theorem gives_areSeparated (l : LowerBound T) (u : UpperBound T) :
    Gives (σ := σ) (ByUser A) (areSeparated A l u) fun _ => True :=
  (gives_gt _ _).bind fun _ _ => gives_ite (fun _ => .pure trivial) fun _ =>
    (gives_eq _ _).bind fun _ _ => gives_ite (fun _ => .pure trivial) fun _ => .pure trivial

theorem gives_ltUL (u : UpperBound T) (l : LowerBound T) :
    Gives (σ := σ) (ByUser A) (ltUL A u l) fun _ => True :=
  (gives_cmp _ _).bind fun o _ => by cases o <;> exact .pure trivial

theorem gives_gtLU (l : LowerBound T) (u : UpperBound T) :
    Gives (σ := σ) (ByUser A) (gtLU A l u) fun _ => True :=
  (gives_cmp _ _).bind fun o _ => by cases o <;> exact .pure trivial

theorem gives_gtLV (l : LowerBound T) (v : T) : Gives (σ := σ) (ByUser A) (gtLV A l v) fun _ => True :=
  (gives_gt _ _).bind fun _ _ => gives_ite (fun _ => .pure trivial) fun _ =>
    (gives_eq _ _).bind fun _ _ => gives_ite (fun _ => .pure trivial) fun _ => .pure trivial

theorem gives_ltUV (u : UpperBound T) (v : T) : Gives (σ := σ) (ByUser A) (ltUV A u v) fun _ => True :=
  (gives_lt _ _).bind fun _ _ => gives_ite (fun _ => .pure trivial) fun _ =>
    (gives_eq _ _).bind fun _ _ => gives_ite (fun _ => .pure trivial) fun _ => .pure trivial

theorem gives_ltI (a b : Interval T) : Gives (σ := σ) (ByUser A) (lt A a b) fun _ => True := by
  obtain ⟨_ | s⟩ := a
  · exact .pure trivial
  · obtain ⟨_ | o⟩ := b
    · exact .pure trivial
    · exact gives_ltUL _ _

theorem gives_gtI (a b : Interval T) : Gives (σ := σ) (ByUser A) (gt A a b) fun _ => True := by
  obtain ⟨_ | s⟩ := a
  · exact .pure trivial
  · obtain ⟨_ | o⟩ := b
    · exact .pure trivial
    · exact gives_gtLU _ _

theorem gives_intersects (a b : Interval T) : Gives (σ := σ) (ByUser A) (intersects A a b) fun _ => True :=
  (gives_gtI a b).bind fun _ _ => gives_ite (fun _ => .pure trivial) fun _ =>
    (gives_ltI a b).bind fun _ _ => .pure trivial

theorem gives_canBeMerged (a b : Interval T) : Gives (σ := σ) (ByUser A) (canBeMerged A a b) fun _ => True := by
  obtain ⟨_ | s⟩ := a
  · exact .pure trivial
  · obtain ⟨_ | o⟩ := b
    · exact .pure trivial
    · exact (gives_areSeparated _ _).bind fun _ _ => gives_ite (fun _ => .pure trivial) fun _ =>
        (gives_areSeparated _ _).bind fun _ _ => .pure trivial

theorem gives_containsVal (a : Interval T) (v : T) : Gives (σ := σ) (ByUser A) (containsVal A a v) fun _ => True := by
  obtain ⟨_ | s⟩ := a
  · exact .pure trivial
  · exact (gives_gtLV _ _).bind fun _ _ => gives_ite (fun _ => .pure trivial) fun _ =>
      (gives_ltUV _ _).bind fun _ _ => .pure trivial

theorem gives_containsInterval (a b : Interval T) :
    Gives (σ := σ) (ByUser A) (containsInterval A a b) fun _ => True := by
  obtain ⟨_ | s⟩ := a
  · exact .pure trivial
  · obtain ⟨_ | o⟩ := b
    · exact .pure trivial
    · exact (gives_leL _ _).bind fun _ _ => gives_ite (fun _ => gives_geU _ _) fun _ => .pure trivial

/-- the value type says that these are no bounds of an interval -/
def Refuses (A : Answers T) (lo : LowerBound T) (up : UpperBound T) : Prop :=
  (∃ k, A.gt k lo.bound.val up.bound.val = some true) ∨
  (∃ k, A.eq k lo.bound.val up.bound.val = some true) ∧ (lo.bound.isClosed = false ∨ up.bound.isClosed = false)

/-- the panics of the value type, and the one of `create_checked` for bounds that the value type refuses -/
def ByUserOr (A : Answers T) (P : LowerBound T → UpperBound T → Prop) (e : Fault) : Prop :=
  ByUser A e ∨ e = .explicit ∧ ∃ lo up, P lo up ∧ Refuses A lo up

theorem gives_fromBounds (lo : LowerBound T) (up : UpperBound T) {P : LowerBound T → UpperBound T → Prop}
    (hp : P lo up) :
    Gives (σ := σ) (ByUserOr A P) (fromBounds A lo up) fun r => r = ⟨some ⟨lo, up⟩⟩ := by
  refine ((gives_gt _ _).mono (fun _ h => .inl h) fun _ h => h).bind fun b hb => gives_ite ?_ ?_
  · intro h
    subst h
    exact .throw (.inr ⟨rfl, lo, up, hp, .inl hb⟩)
  · intro _
    refine ((gives_eq _ _).mono (fun _ h => .inl h) fun _ h => h).bind fun c hc => gives_ite ?_ ?_
    · intro h
      rw [Bool.and_eq_true] at h
      obtain ⟨rfl, h⟩ := h
      exact .throw (.inr ⟨rfl, lo, up, hp, .inr ⟨hc, by simpa using h⟩⟩)
    · intro _
      exact .pure rfl

end Itv.Wild
