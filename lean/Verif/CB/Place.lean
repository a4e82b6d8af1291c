import Verif.CB.Refine
/-!
# Which slots a method writes

Lemmas about the final content of the backing slice compared with the initial one. They hold from any state,
also when the method faults.
-/

set_option linter.unusedSectionVars false

open Rust
namespace CB

variable {α β γ : Type}

/-- From `b` to `b'` slots were only vacated or overwritten by values satisfying `V`. -/
structure Over (V : α → Prop) (b b' : List (Option α)) : Prop where
  len : b'.length = b.length
  cells : ∀ k : Nat, b'[k]? = b[k]? ∨ b'[k]? = some none ∨ ∃ v, V v ∧ b'[k]? = some (some v)

theorem Over.refl (V : α → Prop) (b : List (Option α)) : Over V b b := ⟨rfl, fun _ => Or.inl rfl⟩

theorem Over.trans {V : α → Prop} {b c d : List (Option α)} (h : Over V b c) (h' : Over V c d) : Over V b d := by
  refine ⟨h'.len.trans h.len, fun k => ?_⟩
  rcases h'.cells k with e | e
  · rw [e]; exact h.cells k
  · exact Or.inr e

theorem Over.mono {V W : α → Prop} {b c : List (Option α)} (h : Over V b c) (hVW : ∀ v, V v → W v) : Over W b c :=
  ⟨h.len, fun k => (h.cells k).imp_right fun h => h.imp_right fun ⟨v, hv, e⟩ => ⟨v, hVW v hv, e⟩⟩

theorem Over.vacate (V : α → Prop) (b : List (Option α)) (i : Nat) : Over V b (b.set i none) := by
  refine ⟨by simp, fun k => ?_⟩
  rw [List.getElem?_set]
  split
  · split
    · exact Or.inr (Or.inl rfl)
    · rename_i h1 h2; left; rw [List.getElem?_eq_none (by omega)]
  · exact Or.inl rfl

theorem Over.write {V : α → Prop} {v : α} (hv : V v) (b : List (Option α)) (i : Nat) :
    Over V b (b.set i (some v)) := by
  refine ⟨by simp, fun k => ?_⟩
  rw [List.getElem?_set]
  split
  · split
    · exact Or.inr (Or.inr ⟨v, hv, rfl⟩)
    · rename_i h1 h2; left; rw [List.getElem?_eq_none (by omega)]
  · exact Or.inl rfl

/-- `m` only vacates slots or overwrites them by values satisfying `V`. -/
def Writes (V : α → Prop) (m : M (St α) β) : Prop := ∀ s, Over V s.cb.buf (m s).2.cb.buf

section writes
variable [Cfg] [Elem α] {V : α → Prop}

theorem Writes.same {m : M (St α) β} (h : ∀ s, (m s).2.cb.buf = s.cb.buf) : Writes V m := fun s => by
  rw [h s]; exact Over.refl _ _
theorem Writes.pure (b : β) : Writes V (Pure.pure b : M (St α) β) := Writes.same fun _ => rfl
theorem Writes.throw (e : Fault) : Writes V (M.throw e : M (St α) β) := Writes.same fun _ => rfl
theorem Writes.lift (e : Except Fault β) : Writes V (M.lift e : M (St α) β) := Writes.same fun _ => rfl
theorem Writes.self (f : Buf α → Except Fault β) : Writes V (self_ f) := Writes.same fun _ => rfl
theorem Writes.bind {m : M (St α) β} {f : β → M (St α) γ} (h : Writes V m) (h' : ∀ b, Writes V (f b)) :
    Writes V (m >>= f) := fun s => by
  rw [M.bind_run]
  have h1 := h s
  rcases hm : m s with ⟨_ | b, s'⟩ <;> rw [hm] at h1
  · exact h1
  · exact h1.trans (h' b s')
theorem Writes.setBuf {f : Buf α → Buf α} (h : ∀ cb, Over V cb.buf (f cb).buf) : Writes V (setBuf f) :=
  fun s => h s.cb
theorem Writes.debugAssert (c : Buf α → Except Fault Bool) : Writes V (debugAssert c) := by
  refine Writes.same fun s => ?_
  unfold CB.debugAssert
  split
  · cases c s.cb with
    | error e => rfl
    | ok b => cases b <;> rfl
  · rfl
theorem Writes.dropVal (x : α) : Writes V (dropVal x) := Writes.same fun _ => rfl
theorem Writes.owning {m : M (St α) β} (x : α) (h : Writes V m) : Writes V (owning x m) := fun s => by
  have h1 := h s
  unfold CB.owning
  rcases hm : m s with ⟨_ | b, s'⟩ <;> rw [hm] at h1 <;> exact h1
theorem Writes.ite {c : Prop} [Decidable c] {m m' : M (St α) β} (h : Writes V m) (h' : Writes V m') :
    Writes V (if c then m else m') := by split <;> assumption

theorem Writes.incrEnd : Writes V (incrEnd : M (St α) Unit) := by
  refine (Writes.debugAssert _).bind fun _ => (Writes.self _).bind fun _ => Writes.bind (Writes.setBuf ?_) fun _ => Writes.setBuf ?_
  · exact fun _ => Over.refl _ _
  · intro cb; split <;> exact Over.refl _ _
theorem Writes.decrEnd : Writes V (decrEnd : M (St α) Unit) :=
  (Writes.debugAssert _).bind fun _ => (Writes.self _).bind fun _ => Writes.setBuf fun _ => Over.refl _ _
theorem Writes.incrStart : Writes V (incrStart : M (St α) Unit) := by
  refine (Writes.debugAssert _).bind fun _ => (Writes.self _).bind fun _ => Writes.bind (Writes.setBuf ?_) fun _ => Writes.setBuf ?_
  · exact fun _ => Over.refl _ _
  · intro cb; split <;> exact Over.refl _ _
theorem Writes.decrStart : Writes V (decrStart : M (St α) Unit) :=
  (Writes.debugAssert _).bind fun _ => (Writes.self _).bind fun _ => Writes.setBuf fun _ => Over.refl _ _
theorem Writes.popAt (i : Nat) : Writes V (popAt i : M (St α) α) :=
  fun s => by
    unfold CB.popAt
    cases hu : Elem.uninitOk α with
    | false => rw [uninit_refused hu]; exact Over.refl _ _
    | true =>
      rw [uninit_eq hu]
      exact ((Writes.self _).bind fun _ =>
        (Writes.setBuf fun _ => Over.vacate _ _ _).bind fun _ => Writes.pure _ :
          Writes V (do
            let v ← self_ fun cb => readCell cb.buf i
            CB.setBuf fun cb => { cb with buf := cb.buf.set i none }
            return v)) s
theorem Writes.pushAt {v : α} (hv : V v) (i : Nat) : Writes V (pushAt v i) :=
  (Writes.self _).bind fun _ => Writes.setBuf fun _ => Over.write hv _ _
theorem Writes.popBack : Writes V (popBack : M (St α) (Option α)) :=
  (Writes.self _).bind fun _ => Writes.ite (Writes.pure _)
    (Writes.decrEnd.bind fun _ => (Writes.self _).bind fun _ => (Writes.popAt _).bind fun _ => Writes.pure _)
theorem Writes.popFront : Writes V (popFront : M (St α) (Option α)) :=
  (Writes.self _).bind fun _ => Writes.ite (Writes.pure _)
    ((Writes.self _).bind fun _ => (Writes.popAt _).bind fun _ => Writes.incrStart.bind fun _ => Writes.pure _)
theorem Writes.dropOpt (o : Option α) : Writes V (dropOpt o) := by
  cases o
  · exact Writes.pure _
  · exact Writes.dropVal _
theorem Writes.pushBack {v : α} (hv : V v) : Writes V (pushBack v) := by
  refine (Writes.owning v ?_).bind fun go => Writes.ite ?_ (Writes.dropVal _)
  · exact (Writes.self _).bind fun _ => Writes.ite
      ((Writes.self _).bind fun _ => Writes.ite (Writes.pure _)
        (Writes.popFront.bind fun _ => (Writes.dropOpt _).bind fun _ => Writes.pure _)) (Writes.pure _)
  · exact (Writes.self _).bind fun _ => (Writes.pushAt hv _).bind fun _ => Writes.incrEnd
theorem Writes.pushFront {v : α} (hv : V v) : Writes V (pushFront v) := by
  refine (Writes.owning v ?_).bind fun go => Writes.ite ?_ (Writes.dropVal _)
  · exact (Writes.self _).bind fun _ => Writes.ite
      ((Writes.self _).bind fun _ => Writes.ite (Writes.pure _)
        (Writes.popBack.bind fun _ => (Writes.dropOpt _).bind fun _ => Writes.decrStart.bind fun _ => Writes.pure _))
      (Writes.decrStart.bind fun _ => Writes.pure _)
  · exact (Writes.self _).bind fun _ => Writes.pushAt hv _
theorem Writes.clearLoop : ∀ n, Writes V (clearLoop n : M (St α) Unit)
  | 0 => Writes.throw _
  | n + 1 => Writes.popBack.bind fun o => by
    cases o
    · exact Writes.pure _
    · exact (Writes.dropVal _).bind fun _ => Writes.clearLoop n
theorem Writes.clear : Writes V (clear : M (St α) Unit) := fun s => Writes.clearLoop _ s
theorem Writes.extend (p : Bool) : ∀ items : List α, (∀ v ∈ items, V v) → Writes V (extend items p)
  | [], _ => by unfold CB.extend; exact Writes.ite (Writes.throw _) (Writes.pure _)
  | v :: vs, h => (Writes.pushBack (h v (by simp))).bind fun _ => Writes.extend p vs fun w hw => h w (by simp [hw])
theorem Writes.extendRef (c : α → Except Fault α) (p : Bool) : ∀ items : List α,
    (∀ x ∈ items, ∀ v, c x = .ok v → V v) → Writes V (extendRef c items p)
  | [], _ => by unfold CB.extendRef; exact Writes.ite (Writes.throw _) (Writes.pure _)
  | x :: xs, h => by
    intro s
    show Over V s.cb.buf (((M.lift (c x) : M (St α) α) >>= fun v => CB.pushBack v >>= fun _ =>
      CB.extendRef c xs p) s).2.cb.buf
    rw [M.bind_run]
    unfold M.lift
    cases hc : c x with
    | error e => exact Over.refl _ _
    | ok v =>
      exact Writes.bind (Writes.pushBack (h x (by simp) v hc))
        (fun _ => Writes.extendRef c p xs fun w hw => h w (by simp [hw])) s
theorem Writes.drainTake : ∀ k, Writes V (drainTake k : M (St α) (List α))
  | 0 => Writes.pure _
  | k + 1 => Writes.bind (m := drainNext) Writes.popFront fun o => by
    cases o
    · exact Writes.pure _
    · exact (Writes.drainTake k).bind fun _ => Writes.pure _
theorem Writes.replacePos {v : α} (hv : V v) (i : Nat) : Writes V (replacePos i v) :=
  (Writes.self _).bind fun _ => (Writes.setBuf fun _ => Over.write hv _ _).bind fun _ => Writes.pure _
theorem Writes.replaceEach : ∀ (ps : List Nat) (vs : List α), (∀ v ∈ vs, V v) → Writes V (replaceEach ps vs)
  | [], _, _ => by unfold CB.replaceEach; exact Writes.pure _
  | _ :: _, [], _ => by unfold CB.replaceEach; exact Writes.pure _
  | p :: ps, v :: vs, h => (Writes.replacePos (h v (by simp)) p).bind fun _ =>
      (Writes.replaceEach ps vs fun w hw => h w (by simp [hw])).bind fun _ => Writes.pure _

end writes

/-- From `b` to `b'` at most `n` slots changed. -/
def Touch (n : Nat) (b b' : List (Option α)) : Prop :=
  ∃ K : List Nat, K.length ≤ n ∧ ∀ k, k ∉ K → b'[k]? = b[k]?

theorem Touch.refl (n : Nat) (b : List (Option α)) : Touch n b b := ⟨[], by simp, fun _ _ => rfl⟩
theorem Touch.trans {n m : Nat} {b c d : List (Option α)} (h : Touch n b c) (h' : Touch m c d) :
    Touch (n + m) b d := by
  obtain ⟨K, h1, h2⟩ := h
  obtain ⟨L, h3, h4⟩ := h'
  refine ⟨K ++ L, by simp; omega, fun k hk => ?_⟩
  rw [List.mem_append, not_or] at hk
  rw [h4 k hk.2, h2 k hk.1]
theorem Touch.mono {n m : Nat} {b c : List (Option α)} (h : Touch n b c) (hm : n ≤ m) : Touch m b c := by
  obtain ⟨K, h1, h2⟩ := h
  exact ⟨K, by omega, h2⟩
theorem Touch.set (b : List (Option α)) (i : Nat) (o : Option α) : Touch 1 b (b.set i o) :=
  ⟨[i], by simp, fun k hk => by rw [List.getElem?_set_ne]; intro h; subst h; simp at hk⟩

/-- `m` changes at most `n` slots. -/
def Touches (n : Nat) (m : M (St α) β) : Prop := ∀ s, Touch n s.cb.buf (m s).2.cb.buf

section touches
variable [Cfg] [Elem α]

theorem Touches.same {n : Nat} {m : M (St α) β} (h : ∀ s, (m s).2.cb.buf = s.cb.buf) : Touches n m := fun s => by
  rw [h s]; exact Touch.refl _ _
theorem Touches.pure {n : Nat} (b : β) : Touches n (Pure.pure b : M (St α) β) := Touches.same fun _ => rfl
theorem Touches.throw {n : Nat} (e : Fault) : Touches n (M.throw e : M (St α) β) := Touches.same fun _ => rfl
theorem Touches.lift {n : Nat} (e : Except Fault β) : Touches n (M.lift e : M (St α) β) := Touches.same fun _ => rfl
theorem Touches.self {n : Nat} (f : Buf α → Except Fault β) : Touches n (self_ f) := Touches.same fun _ => rfl
theorem Touches.bind {n k : Nat} {m : M (St α) β} {f : β → M (St α) γ} (h : Touches n m)
    (h' : ∀ b, Touches k (f b)) : Touches (n + k) (m >>= f) := fun s => by
  rw [M.bind_run]
  have h1 := h s
  rcases hm : m s with ⟨_ | b, s'⟩ <;> rw [hm] at h1
  · exact Touch.mono h1 (Nat.le_add_right _ _)
  · exact h1.trans (h' b s')
/-- a first part that changes no slot -/
theorem Touches.skip {k : Nat} {m : M (St α) β} {f : β → M (St α) γ} (h : Touches 0 m)
    (h' : ∀ b, Touches k (f b)) : Touches k (m >>= f) := by
  simpa using h.bind h'
/-- a second part that changes no slot -/
theorem Touches.andThen {k : Nat} {m : M (St α) β} {f : β → M (St α) γ} (h : Touches k m)
    (h' : ∀ b, Touches 0 (f b)) : Touches k (m >>= f) := h.bind h'
theorem Touches.setBuf {n : Nat} {f : Buf α → Buf α} (h : ∀ cb, Touch n cb.buf (f cb).buf) :
    Touches n (setBuf f) := fun s => h s.cb
theorem Touches.debugAssert (c : Buf α → Except Fault Bool) : Touches 0 (debugAssert c) := by
  refine Touches.same fun s => ?_
  unfold CB.debugAssert
  split
  · cases c s.cb with
    | error e => rfl
    | ok b => cases b <;> rfl
  · rfl
theorem Touches.dropVal (x : α) : Touches 0 (dropVal x) := Touches.same fun _ => rfl
theorem Touches.owning {n : Nat} {m : M (St α) β} (x : α) (h : Touches n m) : Touches n (owning x m) := fun s => by
  have h1 := h s
  unfold CB.owning
  rcases hm : m s with ⟨_ | b, s'⟩ <;> rw [hm] at h1 <;> exact h1
theorem Touches.mono {n k : Nat} {m : M (St α) β} (h : Touches n m) (hk : n ≤ k) : Touches k m :=
  fun s => (h s).mono hk
theorem Touches.ite {n : Nat} {c : Prop} [Decidable c] {m m' : M (St α) β} (h : Touches n m) (h' : Touches n m') :
    Touches n (if c then m else m') := by split <;> assumption

theorem Touches.incrEnd : Touches 0 (incrEnd : M (St α) Unit) := by
  refine (Touches.debugAssert _).skip fun _ => (Touches.self _).skip fun _ => Touches.skip (Touches.setBuf ?_) fun _ => Touches.setBuf ?_
  · exact fun _ => Touch.refl _ _
  · intro cb; split <;> exact Touch.refl _ _
theorem Touches.decrEnd : Touches 0 (decrEnd : M (St α) Unit) :=
  (Touches.debugAssert _).skip fun _ => (Touches.self _).skip fun _ => Touches.setBuf fun _ => Touch.refl _ _
theorem Touches.incrStart : Touches 0 (incrStart : M (St α) Unit) := by
  refine (Touches.debugAssert _).skip fun _ => (Touches.self _).skip fun _ => Touches.skip (Touches.setBuf ?_) fun _ => Touches.setBuf ?_
  · exact fun _ => Touch.refl _ _
  · intro cb; split <;> exact Touch.refl _ _
theorem Touches.decrStart : Touches 0 (decrStart : M (St α) Unit) :=
  (Touches.debugAssert _).skip fun _ => (Touches.self _).skip fun _ => Touches.setBuf fun _ => Touch.refl _ _
theorem Touches.popAt (i : Nat) : Touches 1 (popAt i : M (St α) α) :=
  (Touches.lift _).skip fun _ => (Touches.self _).skip fun _ =>
    (Touches.setBuf fun _ => Touch.set _ _ _).andThen fun _ => Touches.pure _
theorem Touches.pushAt (v : α) (i : Nat) : Touches 1 (pushAt v i) :=
  (Touches.self _).skip fun _ => Touches.setBuf fun _ => Touch.set _ _ _
theorem Touches.popBack : Touches 1 (popBack : M (St α) (Option α)) :=
  (Touches.self _).skip fun _ => Touches.ite (Touches.pure _)
    (Touches.decrEnd.skip fun _ => (Touches.self _).skip fun _ => (Touches.popAt _).andThen fun _ => Touches.pure _)
theorem Touches.popFront : Touches 1 (popFront : M (St α) (Option α)) :=
  (Touches.self _).skip fun _ => Touches.ite (Touches.pure _)
    ((Touches.self _).skip fun _ => (Touches.popAt _).andThen fun _ => Touches.incrStart.skip fun _ => Touches.pure _)
theorem Touches.dropOpt (o : Option α) : Touches 0 (dropOpt o) := by
  cases o
  · exact Touches.pure _
  · exact Touches.dropVal _
theorem Touches.pushBack (v : α) : Touches 2 (pushBack v) := by
  refine Touches.bind (n := 1) (k := 1) (Touches.owning v ?_) fun go => Touches.ite ?_ ((Touches.dropVal _).mono (by omega))
  · exact (Touches.self _).skip fun _ => Touches.ite
      ((Touches.self _).skip fun _ => Touches.ite (Touches.pure _)
        (Touches.popFront.andThen fun _ => (Touches.dropOpt _).skip fun _ => Touches.pure _)) (Touches.pure _)
  · exact (Touches.self _).skip fun _ => (Touches.pushAt _ _).andThen fun _ => Touches.incrEnd
theorem Touches.pushFront (v : α) : Touches 2 (pushFront v) := by
  refine Touches.bind (n := 1) (k := 1) (Touches.owning v ?_) fun go => Touches.ite ?_ ((Touches.dropVal _).mono (by omega))
  · exact (Touches.self _).skip fun _ => Touches.ite
      ((Touches.self _).skip fun _ => Touches.ite (Touches.pure _)
        (Touches.popBack.andThen fun _ => (Touches.dropOpt _).skip fun _ => Touches.decrStart.skip fun _ =>
          Touches.pure _))
      ((Touches.decrStart.skip fun _ => Touches.pure _))
  · exact (Touches.self _).skip fun _ => Touches.pushAt _ _
theorem Touches.extend (p : Bool) : ∀ items : List α, Touches (2 * items.length) (extend items p)
  | [] => by unfold CB.extend; exact Touches.ite (Touches.throw _) (Touches.pure _)
  | v :: vs => ((Touches.pushBack v).bind fun _ => Touches.extend p vs).mono (by simp; omega)
theorem Touches.extendRef (c : α → Except Fault α) (p : Bool) : ∀ items : List α,
    Touches (2 * items.length) (extendRef c items p)
  | [] => by unfold CB.extendRef; exact Touches.ite (Touches.throw _) (Touches.pure _)
  | x :: xs => Touches.mono ((Touches.lift (n := 0) (c x)).bind fun v =>
      (Touches.pushBack v).bind fun _ => Touches.extendRef c p xs) (by simp; omega)
theorem Touches.drainTake : ∀ k, Touches k (drainTake k : M (St α) (List α))
  | 0 => Touches.pure _
  | k + 1 => (Touches.bind (m := drainNext) Touches.popFront fun o => (by
    cases o
    · exact Touches.pure (n := k) _
    · exact (Touches.drainTake k).andThen fun _ => Touches.pure _ : Touches k _)).mono (by omega)
theorem Touches.replacePos (v : α) (i : Nat) : Touches 1 (replacePos i v) :=
  (Touches.self _).skip fun _ => (Touches.setBuf fun _ => Touch.set _ _ _).andThen fun _ => Touches.pure _
theorem Touches.replaceEach : ∀ (ps : List Nat) (vs : List α), Touches vs.length (replaceEach ps vs)
  | [], _ => by unfold CB.replaceEach; exact Touches.pure _
  | _ :: _, [] => by unfold CB.replaceEach; exact Touches.pure _
  | p :: ps, v :: vs => ((Touches.replacePos v p).bind fun _ =>
      (Touches.replaceEach ps vs).andThen fun _ => Touches.pure _).mono (by simp; omega)
theorem sliceSwap_touch {b b' : List (Option α)} {i j : Nat} (h : sliceSwap b i j = .ok b') : Touch 2 b b' := by
  unfold sliceSwap at h
  split at h
  · cases h; exact (Touch.set _ _ _).trans (Touch.set _ _ _)
  · cases h
theorem Touches.swap (a b : Nat) : Touches 2 (swap a b : M (St α) Unit) := fun s => by
  show Touch 2 s.cb.buf ((self_ _ >>= fun buf => CB.setBuf fun cb => { cb with buf := buf }) s).2.cb.buf
  rw [M.bind_run, self_run]
  split
  · rename_i buf s' h
    rw [Prod.mk.injEq] at h
    obtain ⟨h, rfl⟩ := h
    show Touch 2 _ buf
    revert h
    cases s.cb.internalIndex a with
    | error e => intro h; cases h
    | ok i =>
      cases s.cb.internalIndex b with
      | error e => intro h; cases h
      | ok j => intro h; exact sliceSwap_touch h
  · rename_i e s' h
    rw [Prod.mk.injEq] at h
    obtain ⟨h, rfl⟩ := h
    exact Touch.refl _ _

end touches

section steps
open Spec (Deque)
variable [Cfg] [Elem α] {cb : Buf α}

/-- The calls that are not meant to move elements: all but `resize`, `linearize`, `swap` and `reverse`. -/
def Still : Op α → Prop
  | .resize _ | .linearize | .swap _ _ | .reverse => False
  | _ => True

/-- The call can put the value `x` into the buffer. -/
def Gives : Op α → α → Prop
  | .pushBack v, x => x = v
  | .pushFront v, x => x = v
  | .extend items _, x => x ∈ items
  | .extendRef c items _, x => ∃ y ∈ items, c y = .ok x
  | .replaceAt _ v, x => x = v
  | .replaceFirst v, x => x = v
  | .replaceLast v, x => x = v
  | .replaceIter vs, x => x ∈ vs
  | _, _ => False

/-- How many slots a call may change; `none` for calls that may change all of them. -/
def slotBudget : Op α → Option Nat
  | .pushBack _ | .pushFront _ => some 2
  | .popBack | .popFront => some 1
  | .extend items _ | .extendRef _ items _ => some (2 * items.length)
  | .drain k => some k
  | .swap _ _ => some 2
  | .replaceAt _ _ | .replaceFirst _ | .replaceLast _ => some 1
  | .replaceIter vs => some vs.length
  | .clear | .resize _ | .linearize | .reverse => none
  | .len | .capacity | .isEmpty | .isFull | .first | .last | .index _ | .iter => some 0

theorem step_writes (op : Op α) (hop : Still op) : Writes (Gives op) (step op) := by
  cases op with
  | pushBack v =>
    have hv : Gives (Op.pushBack v) v := rfl
    exact (Writes.pushBack hv).bind fun _ => Writes.pure _
  | pushFront v =>
    have hv : Gives (Op.pushFront v) v := rfl
    exact (Writes.pushFront hv).bind fun _ => Writes.pure _
  | popBack => exact Writes.popBack.bind fun _ => Writes.pure _
  | popFront => exact Writes.popFront.bind fun _ => Writes.pure _
  | clear => exact Writes.clear.bind fun _ => Writes.pure _
  | resize n => cases hop
  | extend items p => exact (Writes.extend p items fun _ h => h).bind fun _ => Writes.pure _
  | extendRef c items p =>
    exact (Writes.extendRef c p items fun x hx _ h => ⟨x, hx, h⟩).bind fun _ => Writes.pure _
  | drain k => exact (Writes.drainTake k).bind fun _ => Writes.pure _
  | linearize => cases hop
  | swap a b => cases hop
  | reverse => cases hop
  | replaceAt i v =>
    have hv : Gives (Op.replaceAt i v) v := rfl
    exact ((Writes.self _).bind fun _ => Writes.replacePos hv _).bind fun _ => Writes.pure _
  | replaceFirst v =>
    have hv : Gives (Op.replaceFirst v) v := rfl
    exact ((Writes.self _).bind fun _ => Writes.ite (Writes.pure _) ((Writes.self _).bind fun _ =>
      (Writes.replacePos hv _).bind fun _ => Writes.pure _)).bind fun _ => Writes.pure _
  | replaceLast v =>
    have hv : Gives (Op.replaceLast v) v := rfl
    exact ((Writes.self _).bind fun _ => Writes.ite (Writes.pure _) ((Writes.self _).bind fun _ =>
      (Writes.replacePos hv _).bind fun _ => Writes.pure _)).bind fun _ => Writes.pure _
  | replaceIter vs =>
    exact ((Writes.self _).bind fun _ => Writes.replaceEach _ _ fun _ h => h).bind fun _ => Writes.pure _
  | len => exact (Writes.self _).bind fun _ => Writes.pure _
  | capacity => exact (Writes.self _).bind fun _ => Writes.pure _
  | isEmpty => exact (Writes.self _).bind fun _ => Writes.pure _
  | isFull => exact (Writes.self _).bind fun _ => Writes.pure _
  | first => exact (Writes.self _).bind fun _ => Writes.pure _
  | last => exact (Writes.self _).bind fun _ => Writes.pure _
  | index i => exact (Writes.self _).bind fun _ => Writes.pure _
  | iter => exact (Writes.self _).bind fun _ => Writes.pure _

theorem run_writes : ∀ (ops : List (Op α)), (∀ op ∈ ops, Still op) → ∀ s : St α,
    Over (fun x => ∃ op ∈ ops, Gives op x) s.cb.buf (run ops s).2.cb.buf
  | [], _, s => Over.refl _ _
  | op :: ops, hops, s => by
    have h1 : Over (fun x => ∃ op' ∈ op :: ops, Gives op' x) s.cb.buf (step op s).2.cb.buf :=
      (step_writes op (hops op (by simp)) s).mono fun v hv => ⟨op, by simp, hv⟩
    rcases hst : step op s with ⟨r, s'⟩
    rw [hst] at h1
    by_cases ha : r = .error .abort
    · subst ha; rw [run_cons_abort hst]; exact h1
    · rw [run_cons hst ha]
      exact h1.trans ((run_writes ops (fun o ho => hops o (by simp [ho])) s').mono
        fun v ⟨o, ho, hv⟩ => ⟨o, by simp [ho], hv⟩)

theorem Rep.slot_of {d : Deque α} (r : Rep cb d) (hs : d.cap ≤ isizeMax) {k : Nat} {x : α} (hk : cb.buf[k]? = some (some x)) :
    ∃ i, d.items[i]? = some x ∧ cb.internalIndex i = .ok k := by
  have h1 := r.len_buf; have h3 := r.start_le; have h4 := r.le_cap
  have hlt : k < cb.buf.length := (List.getElem?_eq_some_iff.mp hk).1
  refine ⟨if cb.start ≤ k then k - cb.start else k + (d.cap + 1) - cb.start, ?_⟩
  have hw : wrap (d.cap + 1) (cb.start + (if cb.start ≤ k then k - cb.start else k + (d.cap + 1) - cb.start)) = k := by
    unfold wrap; split <;> split <;> omega
  have hc := r.cells (if cb.start ≤ k then k - cb.start else k + (d.cap + 1) - cb.start) (by split <;> omega)
  rw [hw, hk] at hc
  have hi := Option.some.inj hc
  refine ⟨hi.symm, ?_⟩
  rw [r.internalIndex_ok hs (List.getElem?_eq_some_iff.mp hi.symm).1, hw]

theorem dropVec_manually : ∀ (l log : List α), dropVec dropManually l log = (.ok (), log)
  | [], _ => rfl
  | x :: xs, log => by
    show (dropManually x >>= fun _ => dropVec dropManually xs) log = _
    rw [M.bind_ok (show dropManually x log = (.ok (), log) from rfl)]
    exact dropVec_manually xs log

theorem fromIterLog_eq (items : List α) (panics : Bool) (l : List α) :
    fromIterLog items panics l = (fromIter items panics, l) := by
  unfold fromIterLog
  cases fromIter items panics with
  | ok cb => rfl
  | error e => show (dropVec dropManually items >>= fun _ => M.throw e) l = _; rw [M.bind_ok (dropVec_manually _ _)]; rfl

theorem fromIterRefLog_eq (c : α → Except Fault α) (items l : List α) :
    fromIterRefLog c items l = (fromIterRef c items, l) := by
  unfold fromIterRefLog
  cases fromIterRef c items with
  | ok cb => rfl
  | error e =>
    show (dropVec dropManually (clonesMade c items) >>= fun _ => M.throw e) l = _
    rw [M.bind_ok (dropVec_manually _ _)]; rfl

theorem step_touches (op : Op α) {n : Nat} (hn : slotBudget op = some n) : Touches n (step op) := by
  cases op with
  | pushBack v => cases hn; exact (Touches.pushBack v).andThen fun _ => Touches.pure _
  | pushFront v => cases hn; exact (Touches.pushFront v).andThen fun _ => Touches.pure _
  | popBack => cases hn; exact Touches.popBack.andThen fun _ => Touches.pure _
  | popFront => cases hn; exact Touches.popFront.andThen fun _ => Touches.pure _
  | clear => cases hn
  | resize n => cases hn
  | extend items p => cases hn; exact (Touches.extend p items).andThen fun _ => Touches.pure _
  | extendRef c items p => cases hn; exact (Touches.extendRef c p items).andThen fun _ => Touches.pure _
  | drain k => cases hn; exact (Touches.drainTake _).andThen fun _ => Touches.pure _
  | linearize => cases hn
  | swap a b => cases hn; exact (Touches.swap a b).andThen fun _ => Touches.pure _
  | reverse => cases hn
  | replaceAt i v =>
    cases hn
    exact ((Touches.self _).skip fun _ => Touches.replacePos v _).andThen fun _ => Touches.pure _
  | replaceFirst v =>
    cases hn
    exact ((Touches.self _).skip fun _ => Touches.ite (Touches.pure _) ((Touches.self _).skip fun _ =>
      (Touches.replacePos v _).andThen fun _ => Touches.pure _)).andThen fun _ => Touches.pure _
  | replaceLast v =>
    cases hn
    exact ((Touches.self _).skip fun _ => Touches.ite (Touches.pure _) ((Touches.self _).skip fun _ =>
      (Touches.replacePos v _).andThen fun _ => Touches.pure _)).andThen fun _ => Touches.pure _
  | replaceIter vs =>
    cases hn
    exact ((Touches.self _).skip fun _ => Touches.replaceEach _ vs).andThen fun _ => Touches.pure _
  | len => cases hn; exact (Touches.self _).skip fun _ => Touches.pure _
  | capacity => cases hn; exact (Touches.self _).skip fun _ => Touches.pure _
  | isEmpty => cases hn; exact (Touches.self _).skip fun _ => Touches.pure _
  | isFull => cases hn; exact (Touches.self _).skip fun _ => Touches.pure _
  | first => cases hn; exact (Touches.self _).skip fun _ => Touches.pure _
  | last => cases hn; exact (Touches.self _).skip fun _ => Touches.pure _
  | index i => cases hn; exact (Touches.self _).skip fun _ => Touches.pure _
  | iter => cases hn; exact (Touches.self _).skip fun _ => Touches.pure _

end steps
end CB
