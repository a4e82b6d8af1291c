import Verif.CB.SpecPaid
import Verif.CB.ModelCost
import Mathlib.Data.List.Basic
/-!
# Helper lemmas: what the counted circular buffer gives away is paid for
-/

set_option linter.unusedSectionVars false

open Rust
namespace CB.Cost

variable {α : Type} [Cfg] [Elem α] {β γ : Type}

/-- With `c` steps in advance, `m` takes a step for each value it drops, and `w b` more if it returns `b`. -/
def Owed (m : M (State α) β) (c : Nat) (w : β → Nat) : Prop := ∀ s,
  match m s with
  | (.ok b, s') => s'.1.dropped.length + s.2.steps + w b ≤ s.1.dropped.length + s'.2.steps + c
  | (.error _, s') => s'.1.dropped.length + s.2.steps ≤ s.1.dropped.length + s'.2.steps + c

/-- drops nothing -/
def Quiet (m : M (St α) β) : Prop := ∀ s, (m s).2.dropped = s.dropped

theorem quiet_self (f : Buf α → Except Fault β) : Quiet (self_ f) := fun _ => rfl
theorem quiet_set (f : Buf α → Buf α) : Quiet (setBuf f) := fun _ => rfl
theorem quiet_lift (e : Except Fault β) : Quiet (M.lift e : M (St α) β) := fun _ => rfl
theorem quiet_assert (f : Buf α → Except Fault Bool) : Quiet (debugAssert f) := by
  intro s
  unfold debugAssert
  split
  · split <;> rfl
  · rfl

theorem owed_paid (k : Nat) {m : M (St α) β} (h : Quiet m) (c : Nat) : Owed (paid k m) c fun _ => c + k := by
  intro s
  have h' := h s.1
  unfold paid
  rcases hm : m s.1 with ⟨r, t⟩
  rw [hm] at h'
  change t.dropped = s.1.dropped at h'
  cases r with
  | ok b => dsimp only; rw [h']; omega
  | error e => dsimp only; rw [h']; omega

theorem owed_quiet {k : Nat} {m : M (St α) β} (h : Quiet m) (c : Nat) : Owed (paid k m) c fun _ => c := by
  intro s
  have := owed_paid k h c s
  revert this
  rcases paid k m s with ⟨r, t⟩
  cases r <;> exact fun h => by dsimp only at *; omega

theorem Owed.mono {m : M (State α) β} {c c' : Nat} {w w' : β → Nat} (h : Owed m c w) (hc : c ≤ c') (hw : ∀ b, w' b ≤ w b) :
    Owed m c' w' := by
  intro s
  have := h s
  revert this
  rcases m s with ⟨r, t⟩
  cases r with
  | ok b => intro h; dsimp only at *; have := hw b; omega
  | error e => intro h; dsimp only at *; omega

theorem owed_pure (b : β) {c : Nat} {w : β → Nat} (h : w b ≤ c) : Owed (pure b : M (State α) β) c w := by
  intro s
  show s.1.dropped.length + s.2.steps + w b ≤ s.1.dropped.length + s.2.steps + c
  omega

theorem owed_throw (e : Fault) (c : Nat) (w : β → Nat) : Owed (M.throw e : M (State α) β) c w := fun _ => by
  show _ + _ ≤ _ + _ + c
  omega

theorem owed_bind {m : M (State α) β} {f : β → M (State α) γ} {c : Nat} {w : β → Nat} {w' : γ → Nat} (hm : Owed m c w)
    (hf : ∀ b, Owed (f b) (w b) w') : Owed (m >>= f) c w' := by
  intro s
  have h1 := hm s
  rw [M.bind_run]
  revert h1
  rcases m s with ⟨r, t⟩
  cases r with
  | error e => exact fun h => h
  | ok b =>
    intro h1
    have h2 := hf b t
    revert h2
    simp only []
    rcases f b t with ⟨r, u⟩
    cases r <;> · intro h2; dsimp only at *; omega

theorem owed_ite {p : Prop} [Decidable p] {m m' : M (State α) β} {c : Nat} {w : β → Nat} (h : Owed m c w) (h' : Owed m' c w) :
    Owed (if p then m else m') c w := by
  split
  · exact h
  · exact h'

theorem owed_drop (v : α) (c : Nat) : Owed (paid 1 (dropVal v)) c fun _ => c := by
  intro s
  unfold paid dropVal
  by_cases h : Elem.dropPanics v <;> simp [h] <;> omega

theorem owed_dropOpt (v : Option α) (c : Nat) : Owed (dropOpt v) c fun _ => c := by
  cases v with
  | none => exact owed_quiet (fun _ => rfl) c
  | some v => exact owed_drop v c

theorem owed_owning (x : α) {m : M (State α) β} {c : Nat} {w : β → Nat} (h : Owed m c w) : Owed (owning x m) c w := by
  intro s
  have h1 := h s
  unfold owning
  revert h1
  rcases m s with ⟨r, t⟩
  cases r with
  | ok b => exact fun h => h
  | error e => intro h; simp only [List.length_append, List.length_singleton]; omega

/-! ## the methods -/

theorem owed_incrEnd (c : Nat) : Owed (incrEnd : M (State α) Unit) c fun _ => c :=
  owed_bind (owed_quiet (quiet_assert _) c) fun _ => owed_bind (owed_quiet (quiet_self _) c) fun _ =>
    owed_bind (owed_quiet (quiet_set _) c) fun _ => owed_quiet (quiet_set _) c

theorem owed_decrEnd (c : Nat) : Owed (decrEnd : M (State α) Unit) c fun _ => c :=
  owed_bind (owed_quiet (quiet_assert _) c) fun _ => owed_bind (owed_quiet (quiet_self _) c) fun _ =>
    owed_quiet (quiet_set _) c

theorem owed_incrStart (c : Nat) : Owed (incrStart : M (State α) Unit) c fun _ => c :=
  owed_bind (owed_quiet (quiet_assert _) c) fun _ => owed_bind (owed_quiet (quiet_self _) c) fun _ =>
    owed_bind (owed_quiet (quiet_set _) c) fun _ => owed_quiet (quiet_set _) c

theorem owed_decrStart (c : Nat) : Owed (decrStart : M (State α) Unit) c fun _ => c :=
  owed_bind (owed_quiet (quiet_assert _) c) fun _ => owed_bind (owed_quiet (quiet_self _) c) fun _ =>
    owed_quiet (quiet_set _) c

theorem owed_popAt (i c : Nat) : Owed (popAt i : M (State α) α) c fun _ => c + 1 :=
  owed_bind (owed_paid 1 (quiet_lift _) c) fun _ => owed_bind (owed_quiet (quiet_self _) _) fun _ =>
    owed_bind (owed_quiet (quiet_set _) _) fun _ => owed_pure _ (Nat.le_refl _)

theorem owed_pushAt (v : α) (i c : Nat) : Owed (pushAt v i : M (State α) Unit) c fun _ => c :=
  owed_bind (owed_quiet (quiet_self _) c) fun _ => owed_quiet (quiet_set _) c

theorem owed_popBack (c : Nat) : Owed (popBack : M (State α) (Option α)) c fun o => c + o.toList.length :=
  owed_bind (owed_quiet (quiet_self _) c) fun _ => owed_ite (owed_pure _ (Nat.le_refl _))
    (owed_bind (owed_decrEnd c) fun _ => owed_bind (owed_quiet (quiet_self _) c) fun _ =>
      owed_bind (owed_popAt _ c) fun _ => owed_pure _ (Nat.le_refl _))

theorem owed_popFront (c : Nat) : Owed (popFront : M (State α) (Option α)) c fun o => c + o.toList.length :=
  owed_bind (owed_quiet (quiet_self _) c) fun _ => owed_ite (owed_pure _ (Nat.le_refl _))
    (owed_bind (owed_quiet (quiet_self _) c) fun _ => owed_bind (owed_popAt _ c) fun _ =>
      owed_bind (owed_incrStart _) fun _ => owed_pure _ (Nat.le_refl _))

theorem owed_pushBack (v : α) (c : Nat) : Owed (pushBack v : M (State α) Unit) c fun _ => c :=
  owed_bind (w := fun _ => c) (owed_owning v (owed_bind (owed_quiet (quiet_self _) c) fun _ => owed_ite
      (owed_bind (owed_quiet (quiet_self _) c) fun _ => owed_ite (owed_pure _ (Nat.le_refl _))
        (owed_bind (owed_popFront c) fun o => owed_bind ((owed_dropOpt o c).mono (Nat.le_add_right _ _) fun _ => Nat.le_refl _)
          fun _ => owed_pure _ (Nat.le_refl _)))
      (owed_pure _ (Nat.le_refl _))))
    fun _ => owed_ite (owed_bind (owed_quiet (quiet_self _) c) fun _ => owed_bind (owed_pushAt _ _ c) fun _ => owed_incrEnd c)
      (owed_drop v c)

theorem owed_pushFront (v : α) (c : Nat) : Owed (pushFront v : M (State α) Unit) c fun _ => c :=
  owed_bind (w := fun _ => c) (owed_owning v (owed_bind (owed_quiet (quiet_self _) c) fun _ => owed_ite
      (owed_bind (owed_quiet (quiet_self _) c) fun _ => owed_ite (owed_pure _ (Nat.le_refl _))
        (owed_bind (owed_popBack c) fun o => owed_bind ((owed_dropOpt o c).mono (Nat.le_add_right _ _) fun _ => Nat.le_refl _)
          fun _ => owed_bind (owed_decrStart c) fun _ => owed_pure _ (Nat.le_refl _)))
      (owed_bind (owed_decrStart c) fun _ => owed_pure _ (Nat.le_refl _))))
    fun _ => owed_ite (owed_bind (owed_quiet (quiet_self _) c) fun _ => owed_pushAt _ _ c) (owed_drop v c)

theorem owed_clearLoop (n c : Nat) : Owed (clearLoop n : M (State α) Unit) c fun _ => c := by
  induction n with
  | zero => exact owed_throw _ _ _
  | succ n ih =>
    refine owed_bind (owed_popBack c) fun o => ?_
    cases o with
    | none => exact owed_pure _ (Nat.le_refl _)
    | some v => exact owed_bind ((owed_drop v c).mono (Nat.le_add_right _ _) fun _ => Nat.le_refl _) fun _ => ih

theorem owed_skipLoop (n c : Nat) : Owed (skipLoop n : M (State α) Unit) c fun _ => c := by
  induction n with
  | zero => exact owed_pure _ (Nat.le_refl _)
  | succ n ih =>
    refine owed_bind (owed_popFront c) fun o => ?_
    cases o with
    | none => exact owed_pure _ (Nat.le_refl _)
    | some v => exact owed_bind ((owed_drop v c).mono (Nat.le_add_right _ _) fun _ => Nat.le_refl _) fun _ => ih

theorem owed_collectLoop (n c : Nat) : Owed (collectLoop n : M (State α) (List α)) c fun l => c + l.length := by
  induction n generalizing c with
  | zero => exact owed_throw _ _ _
  | succ n ih =>
    refine owed_bind (owed_popFront c) fun o => ?_
    cases o with
    | none => exact owed_pure _ (Nat.le_refl _)
    | some v => exact owed_bind (ih _) fun l => owed_pure _ (by simp; omega)

theorem owed_drainTake (n c : Nat) : Owed (drainTake n : M (State α) (List α)) c fun l => c + l.length := by
  induction n generalizing c with
  | zero => exact owed_pure _ (Nat.le_refl _)
  | succ n ih =>
    refine owed_bind (owed_popFront c) fun o => ?_
    cases o with
    | none => exact owed_pure _ (Nat.le_refl _)
    | some v => exact owed_bind (ih _) fun l => owed_pure _ (by simp; omega)

theorem owed_request (n c : Nat) : Owed (request n : M (State α) Unit) c fun _ => c := by
  intro s
  unfold request
  cases allocCheck α n <;> simp

/-- `resize` takes a step for each value it drops, each value it keeps and each empty place it fills -/
theorem owed_resize (n c : Nat) : Owed (resize n : M (State α) Unit) c fun _ => c :=
  owed_bind (owed_quiet (quiet_lift _) c) fun _ => owed_bind (owed_request _ c) fun _ =>
    owed_bind (owed_quiet (quiet_self _) c) fun _ => owed_bind (owed_quiet (quiet_lift _) c) fun _ =>
      owed_bind (owed_skipLoop _ c) fun _ => owed_bind (owed_quiet (quiet_self _) c) fun _ =>
        owed_bind ((owed_collectLoop _ c).mono (Nat.le_refl _) fun _ => Nat.le_add_right _ _) fun _ =>
          owed_bind (owed_quiet (quiet_lift _) c) fun _ => owed_bind (owed_quiet (quiet_lift _) c) fun _ =>
            owed_bind (owed_quiet (quiet_lift _) c) fun _ => owed_quiet (quiet_set _) c

theorem owed_extend (items : List α) (p : Bool) (c : Nat) : Owed (extend items p : M (State α) Unit) c fun _ => c := by
  induction items with
  | nil => exact owed_ite (owed_throw _ _ _) (owed_pure _ (Nat.le_refl _))
  | cons x xs ih => exact owed_bind (owed_pushBack x c) fun _ => ih

theorem owed_extendRef (f : α → Except Fault α) (items : List α) (p : Bool) (c : Nat) :
    Owed (extendRef f items p : M (State α) Unit) c fun _ => c := by
  induction items with
  | nil => exact owed_ite (owed_throw _ _ _) (owed_pure _ (Nat.le_refl _))
  | cons x xs ih =>
    exact owed_bind (owed_quiet (quiet_lift _) c) fun y => owed_bind (owed_pushBack y c) fun _ => ih

theorem owed_reverseLoop (as : List Nat) (c : Nat) : Owed (reverseLoop as : M (State α) Unit) c fun _ => c := by
  induction as with
  | nil => exact owed_pure _ (Nat.le_refl _)
  | cons a as ih =>
    exact owed_bind (owed_quiet (quiet_self _) c) fun _ => owed_bind (owed_quiet (quiet_self _) c) fun _ =>
      owed_bind (owed_quiet (quiet_set _) c) fun _ => ih

theorem owed_replacePos (i : Nat) (v : α) (c : Nat) : Owed (replacePos i v : M (State α) α) c fun _ => c + 1 :=
  owed_bind (owed_paid 1 (quiet_self _) c) fun _ => owed_bind (owed_quiet (quiet_set _) _) fun _ =>
    owed_pure _ (Nat.le_refl _)

theorem owed_replaceEach (ps : List Nat) (vs : List α) (c : Nat) :
    Owed (replaceEach ps vs : M (State α) (List α)) c fun l => c + l.length := by
  induction ps generalizing vs c with
  | nil => exact owed_pure _ (Nat.le_refl _)
  | cons p ps ih =>
    cases vs with
    | nil => exact owed_pure _ (Nat.le_refl _)
    | cons v vs =>
      exact owed_bind (owed_replacePos p v c) fun _ => owed_bind (ih vs _) fun l => owed_pure _ (by simp; omega)

theorem asInit_length : ∀ (b : List (Option α)) (l : List α), asInit b = .ok l → l.length = b.length
  | [], l, h => by cases h; rfl
  | none :: _, l, h => by cases h
  | some a :: r, l, h => by
    unfold asInit at h
    cases hr : asInit r with
    | error e => rw [hr] at h; cases h
    | ok l' =>
      rw [hr] at h
      cases h
      rw [List.length_cons, List.length_cons, asInit_length r l' hr]

theorem owed_linearize (c : Nat) : Owed (linearize : M (State α) (List α)) c fun l => c + l.length := by
  intro s
  simp only [linearize, M.bind_run, paid, self_, setBuf, M.ask, M.modify]
  cases hr : rotateLeft s.1.cb.buf s.1.cb.start with
  | error e => dsimp only; omega
  | ok b =>
    have hb : b.length = s.1.cb.buf.length := by
      unfold rotateLeft at hr
      split at hr
      · cases hr
        rw [List.length_append, List.length_drop, List.length_take]
        omega
      · cases hr
    dsimp only
    cases Buf.len { s.1.cb with buf := b } with
    | error e => dsimp only; omega
    | ok n =>
      dsimp only
      cases hs : sliceRange b 0 n with
      | error e => dsimp only [bind, Except.bind]; omega
      | ok d =>
        have hd : d.length ≤ b.length := by
          unfold sliceRange at hs
          split at hs
          · cases hs
            rw [List.length_take, List.length_drop]
            omega
          · cases hs
        dsimp only [bind, Except.bind]
        cases ha : asInit d with
        | error e => dsimp only; omega
        | ok l =>
          have := asInit_length d l ha
          dsimp only
          omega

theorem owed_iter (c : Nat) : Owed (iter : M (State α) (List α)) c fun l => c + l.length :=
  owed_bind (owed_quiet (quiet_self _) c) fun xs => by
    intro s
    show s.1.dropped.length + s.2.steps + (c + xs.length) ≤ s.1.dropped.length + (s.2.steps + xs.length) + c
    omega

theorem owed_step (op : Op α) : Owed (step op) 0 given := by
  have seq : ∀ {m : M (State α) (List α)}, Owed m 0 (fun l => 0 + l.length) →
      Owed (do return .seq (← m) : M (State α) (Out α)) 0 given := fun h =>
    owed_bind h fun l => owed_pure _ (Nat.le_of_eq (Nat.zero_add _).symm)
  have opt : ∀ {m : M (State α) (Option α)}, Owed m 0 (fun l => 0 + l.toList.length) →
      Owed (do return .opt (← m) : M (State α) (Out α)) 0 given := fun h =>
    owed_bind h fun l => owed_pure _ (Nat.le_of_eq (Nat.zero_add _).symm)
  have unit : ∀ {m : M (State α) Unit}, Owed m 0 (fun _ => 0) →
      Owed (do m; return .unit : M (State α) (Out α)) 0 given := fun h => owed_bind h fun _ => owed_pure _ (Nat.le_refl _)
  cases op with
  | pushBack v => exact unit (owed_pushBack v 0)
  | pushFront v => exact unit (owed_pushFront v 0)
  | popBack => exact opt (owed_popBack 0)
  | popFront => exact opt (owed_popFront 0)
  | clear => exact unit fun s => owed_clearLoop _ 0 s
  | resize n => exact unit (owed_resize n 0)
  | extend items p => exact unit (owed_extend items p 0)
  | extendRef f items p => exact unit (owed_extendRef f items p 0)
  | drain k => exact seq (owed_drainTake k 0)
  | linearize => exact seq (owed_linearize 0)
  | swap a b => exact unit (owed_bind (owed_quiet (quiet_self _) 0) fun _ => owed_quiet (quiet_set _) 0)
  | reverse => exact unit (owed_bind (owed_quiet (quiet_self _) 0) fun _ => owed_reverseLoop _ 0)
  | replaceAt i v =>
    exact owed_bind (owed_bind (owed_quiet (quiet_self _) 0) fun _ => owed_replacePos _ v 0) fun _ => owed_pure _ (Nat.le_refl _)
  | replaceFirst v =>
    exact opt (owed_bind (owed_quiet (quiet_self _) 0) fun _ => owed_ite (owed_pure _ (Nat.le_refl _))
      (owed_bind (owed_quiet (quiet_self _) 0) fun _ => owed_bind (owed_replacePos _ v 0) fun _ => owed_pure _ (Nat.le_refl _)))
  | replaceLast v =>
    exact opt (owed_bind (owed_quiet (quiet_self _) 0) fun _ => owed_ite (owed_pure _ (Nat.le_refl _))
      (owed_bind (owed_quiet (quiet_self _) 0) fun _ => owed_bind (owed_replacePos _ v 0) fun _ => owed_pure _ (Nat.le_refl _)))
  | replaceIter vs => exact seq (owed_bind (owed_quiet (quiet_self _) 0) fun _ => owed_replaceEach _ vs 0)
  | len => exact owed_bind (owed_quiet (quiet_self _) 0) fun _ => owed_pure _ (Nat.le_refl _)
  | capacity => exact owed_bind (owed_quiet (quiet_self _) 0) fun _ => owed_pure _ (Nat.le_refl _)
  | isEmpty => exact owed_bind (owed_quiet (quiet_self _) 0) fun _ => owed_pure _ (Nat.le_refl _)
  | isFull => exact owed_bind (owed_quiet (quiet_self _) 0) fun _ => owed_pure _ (Nat.le_refl _)
  | first =>
    refine owed_bind (owed_paid 3 (quiet_self _) 0) fun o => owed_pure _ ?_
    cases o <;> simp [given]
  | last =>
    refine owed_bind (owed_paid 4 (quiet_self _) 0) fun o => owed_pure _ ?_
    cases o <;> simp [given]
  | index i => exact owed_bind (owed_paid 2 (quiet_self _) 0) fun _ => owed_pure _ (by simp [given])
  | iter => exact seq (owed_iter 0)

end CB.Cost
