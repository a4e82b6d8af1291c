import Verif.CB.SpecCost
import Verif.CB.ModelCost
import Verif.CB.Reach
/-!
# Helper lemmas about the counted circular buffer
-/

set_option linter.unusedSectionVars false

open Rust
namespace CB.Cost
open Spec (Deque)

variable {α : Type} [Cfg] [Elem α] {β γ : Type}

/-- From `s`, `m` does what `p` does, in at most `k` steps, and asks for no memory. -/
def Fine (m : M (State α) β) (p : M (St α) β) (s : State α) (k : Nat) : Prop :=
  ∃ j, j ≤ k ∧ m s = ((p s.1).1, (p s.1).2, { s.2 with steps := s.2.steps + j })

theorem Fine.mono {m : M (State α) β} {p : M (St α) β} {s : State α} {k k' : Nat} (h : Fine m p s k) (hk : k ≤ k') :
    Fine m p s k' := by
  obtain ⟨j, hj, h⟩ := h
  exact ⟨j, Nat.le_trans hj hk, h⟩

theorem fine_paid (k : Nat) (p : M (St α) β) (s : State α) : Fine (paid k p) p s k := ⟨k, Nat.le_refl _, rfl⟩

theorem fine_pure (b : β) (s : State α) : Fine (pure b) (pure b) s 0 := ⟨0, Nat.le_refl _, rfl⟩

theorem fine_throw (e : Fault) (s : State α) : Fine (M.throw e : M (State α) β) (M.throw e) s 0 := ⟨0, Nat.le_refl _, rfl⟩

/-- sequencing; what comes after may use what came before -/
theorem fine_bind {m : M (State α) β} {p : M (St α) β} {f : β → M (State α) γ} {g : β → M (St α) γ} {s : State α}
    {k k' : Nat} (hm : Fine m p s k) (hf : ∀ b t sp, p s.1 = (.ok b, t) → Fine (f b) (g b) (t, sp) k') :
    Fine (m >>= f) (p >>= g) s (k + k') := by
  obtain ⟨j, hj, hm⟩ := hm
  unfold Fine
  rw [M.bind_run, M.bind_run, hm]
  rcases hp : p s.1 with ⟨r, t⟩
  cases r with
  | error e => exact ⟨j, by omega, rfl⟩
  | ok b =>
    obtain ⟨j', hj', hf⟩ := hf b t { s.2 with steps := s.2.steps + j } hp
    refine ⟨j + j', by omega, ?_⟩
    simp only [hf]
    rw [Nat.add_assoc]

theorem fine_ite {c : Prop} [Decidable c] {m m' : M (State α) β} {p p' : M (St α) β} {s : State α} {k : Nat}
    (h : Fine m p s k) (h' : Fine m' p' s k) : Fine (if c then m else m') (if c then p else p') s k := by
  split
  · exact h
  · exact h'

theorem fine_owning {m : M (State α) β} {p : M (St α) β} {s : State α} {k : Nat} (x : α) (h : Fine m p s k) :
    Fine (owning x m) (CB.owning x p) s (k + 1) := by
  obtain ⟨j, hj, h⟩ := h
  unfold Fine owning CB.owning
  rw [h]
  rcases p s.1 with ⟨r, t⟩
  cases r with
  | ok b => exact ⟨j, by omega, rfl⟩
  | error e => exact ⟨j + 1, by omega, rfl⟩

/-! ## the methods -/

theorem incrEnd_fine (s : State α) : Fine incrEnd CB.incrEnd s 4 :=
  fine_bind (fine_paid 1 _ _) fun _ _ _ _ => fine_bind (fine_paid 1 _ _) fun _ _ _ _ =>
    fine_bind (fine_paid 1 _ _) fun _ _ _ _ => fine_paid 1 _ _

theorem decrEnd_fine (s : State α) : Fine decrEnd CB.decrEnd s 3 :=
  fine_bind (fine_paid 1 _ _) fun _ _ _ _ => fine_bind (fine_paid 1 _ _) fun _ _ _ _ => fine_paid 1 _ _

theorem incrStart_fine (s : State α) : Fine incrStart CB.incrStart s 4 :=
  fine_bind (fine_paid 1 _ _) fun _ _ _ _ => fine_bind (fine_paid 1 _ _) fun _ _ _ _ =>
    fine_bind (fine_paid 1 _ _) fun _ _ _ _ => fine_paid 1 _ _

theorem decrStart_fine (s : State α) : Fine decrStart CB.decrStart s 3 :=
  fine_bind (fine_paid 1 _ _) fun _ _ _ _ => fine_bind (fine_paid 1 _ _) fun _ _ _ _ => fine_paid 1 _ _

theorem popAt_fine (i : Nat) (s : State α) : Fine (popAt i) (CB.popAt i) s 3 :=
  fine_bind (fine_paid 1 _ _) fun _ _ _ _ => fine_bind (fine_paid 1 _ _) fun _ _ _ _ =>
    fine_bind (fine_paid 1 _ _) fun _ _ _ _ => fine_pure _ _

theorem pushAt_fine (v : α) (i : Nat) (s : State α) : Fine (pushAt v i) (CB.pushAt v i) s 2 :=
  fine_bind (fine_paid 1 _ _) fun _ _ _ _ => fine_paid 1 _ _

theorem popBack_fine (s : State α) : Fine popBack CB.popBack s 8 :=
  fine_bind (fine_paid 1 _ _) fun _ _ _ _ => fine_ite ((fine_pure _ _).mono (Nat.zero_le 7))
    (fine_bind (decrEnd_fine _) fun _ _ _ _ => fine_bind (fine_paid 1 _ _) fun _ _ _ _ =>
      fine_bind (popAt_fine _ _) fun _ _ _ _ => fine_pure _ _)

theorem popFront_fine (s : State α) : Fine popFront CB.popFront s 9 :=
  fine_bind (fine_paid 1 _ _) fun _ _ _ _ => fine_ite ((fine_pure _ _).mono (Nat.zero_le 8))
    (fine_bind (fine_paid 1 _ _) fun _ _ _ _ => fine_bind (popAt_fine _ _) fun _ _ _ _ =>
      fine_bind (incrStart_fine _) fun _ _ _ _ => fine_pure _ _)

theorem dropOpt_fine (v : Option α) (s : State α) : Fine (dropOpt v) (CB.dropOpt v) s 1 := fine_paid 1 _ _

theorem pushBack_fine (v : α) (s : State α) : Fine (pushBack v) (CB.pushBack v) s 20 := by
  refine (fine_bind (k := 13) (k' := 7) (fine_owning v (k := 12) ?_) fun go t sp _ => ?_)
  · exact fine_bind (k' := 11) (fine_paid 1 _ _) fun _ _ _ _ => fine_ite
      (fine_bind (k' := 10) (fine_paid 1 _ _) fun _ _ _ _ => fine_ite ((fine_pure _ _).mono (Nat.zero_le 10))
        (fine_bind (popFront_fine _) fun _ _ _ _ => fine_bind (dropOpt_fine _ _) fun _ _ _ _ => fine_pure _ _))
      ((fine_pure _ _).mono (Nat.zero_le 11))
  · exact fine_ite (fine_bind (fine_paid 1 _ _) fun _ _ _ _ => fine_bind (pushAt_fine _ _ _) fun _ _ _ _ =>
      incrEnd_fine _) ((fine_paid 1 _ _).mono (by omega))

theorem pushFront_fine (v : α) (s : State α) : Fine (pushFront v) (CB.pushFront v) s 18 := by
  refine (fine_bind (k := 15) (k' := 3) (fine_owning v (k := 14) ?_) fun go t sp _ => ?_)
  · exact fine_bind (k' := 13) (fine_paid 1 _ _) fun _ _ _ _ => fine_ite
      (fine_bind (k' := 12) (fine_paid 1 _ _) fun _ _ _ _ => fine_ite ((fine_pure _ _).mono (Nat.zero_le 12))
        (fine_bind (popBack_fine _) fun _ _ _ _ => fine_bind (dropOpt_fine _ _) fun _ _ _ _ =>
          fine_bind (decrStart_fine _) fun _ _ _ _ => fine_pure _ _))
      ((fine_bind (decrStart_fine _) fun _ _ _ _ => fine_pure _ _).mono (by omega))
  · exact fine_ite (fine_bind (fine_paid 1 _ _) fun _ _ _ _ => pushAt_fine _ _ _) ((fine_paid 1 _ _).mono (by omega))

theorem clearLoop_fine (fuel : Nat) : ∀ s : State α, Fine (clearLoop fuel) (CB.clearLoop fuel) s (9 * fuel) := by
  induction fuel with
  | zero => exact fun s => fine_throw _ _
  | succ fuel ih =>
    intro s
    refine (fine_bind (k' := 9 * fuel + 1) (popBack_fine s) fun v t sp _ => ?_).mono (by omega)
    cases v with
    | none => exact (fine_pure _ _).mono (Nat.zero_le _)
    | some v => exact (fine_bind (fine_paid 1 _ _) fun _ _ _ _ => ih _).mono (by omega)

theorem clear_fine (s : State α) : Fine clear CB.clear s (9 * (s.1.cb.buf.length + 1)) := clearLoop_fine _ s

theorem skipLoop_fine (n : Nat) : ∀ s : State α, Fine (skipLoop n) (CB.skipLoop n) s (10 * n) := by
  induction n with
  | zero => exact fun s => fine_pure _ _
  | succ n ih =>
    intro s
    refine (fine_bind (k' := 10 * n + 1) (popFront_fine s) fun v t sp _ => ?_).mono (by omega)
    cases v with
    | none => exact (fine_pure _ _).mono (Nat.zero_le _)
    | some v => exact (fine_bind (fine_paid 1 _ _) fun _ _ _ _ => ih _).mono (by omega)

theorem collectLoop_fine (fuel : Nat) : ∀ s : State α, Fine (collectLoop fuel) (CB.collectLoop fuel) s (9 * fuel) := by
  induction fuel with
  | zero => exact fun s => fine_throw _ _
  | succ fuel ih =>
    intro s
    refine (fine_bind (k' := 9 * fuel) (popFront_fine s) fun v t sp _ => ?_).mono (by omega)
    cases v with
    | none => exact (fine_pure _ _).mono (Nat.zero_le _)
    | some v => exact fine_bind (ih _) fun _ _ _ _ => fine_pure _ _

theorem extend_fine (p : Bool) (items : List α) : ∀ s : State α,
    Fine (extend items p) (CB.extend items p) s (20 * items.length) := by
  induction items with
  | nil =>
    intro s
    cases p
    · exact fine_pure _ _
    · exact fine_throw _ _
  | cons x xs ih =>
    intro s
    refine (fine_bind (pushBack_fine x s) fun _ _ _ _ => ih _).mono ?_
    rw [List.length_cons]; omega

theorem extendRef_fine (c : α → Except Fault α) (p : Bool) (items : List α) : ∀ s : State α,
    Fine (extendRef c items p) (CB.extendRef c items p) s (21 * items.length) := by
  induction items with
  | nil =>
    intro s
    cases p
    · exact fine_pure _ _
    · exact fine_throw _ _
  | cons x xs ih =>
    intro s
    refine (fine_bind (fine_paid 1 _ _) fun _ _ _ _ => fine_bind (pushBack_fine _ _) fun _ _ _ _ => ih _).mono ?_
    rw [List.length_cons]; omega

theorem linearize_fine (s : State α) : Fine linearize CB.linearize s (s.1.cb.buf.length + 5) := by
  have h := fine_bind (fine_paid s.1.cb.buf.length (self_ fun cb : Buf α => rotateLeft cb.buf cb.start) s)
    (fun b _ _ _ => fine_bind (fine_paid 1 (setBuf fun cb => { cb with buf := b }) _) fun _ _ _ _ =>
      fine_bind (fine_paid 1 (self_ Buf.len) _) fun l _ _ _ =>
        fine_bind (fine_paid 1 (setBuf fun cb => { cb with end_ := l }) _) fun _ _ _ _ =>
          fine_bind (fine_paid 1 (setBuf fun cb => { cb with start := 0 }) _) fun _ _ _ _ =>
            fine_paid 1 (self_ fun cb => do asInit (← sliceRange cb.buf 0 cb.end_)) _)
  exact h

theorem swap_fine (a b : Nat) (s : State α) : Fine (swap a b) (CB.swap a b) s 4 :=
  fine_bind (fine_paid 3 _ _) fun _ _ _ _ => fine_paid 1 _ _

theorem reverseLoop_fine (as : List Nat) : ∀ s : State α,
    Fine (reverseLoop as) (CB.reverseLoop as) s (5 * as.length) := by
  induction as with
  | nil => exact fun s => fine_pure _ _
  | cons a as ih =>
    intro s
    refine (fine_bind (fine_paid 1 _ _) fun _ _ _ _ => fine_bind (fine_paid 3 _ _) fun _ _ _ _ =>
      fine_bind (fine_paid 1 _ _) fun _ _ _ _ => ih _).mono ?_
    rw [List.length_cons]; omega

/-- `reverse` takes a constant number of steps for each element. -/
theorem reverse_fine (s : State α) {l : Nat} (hl : ∀ n, s.1.cb.len = .ok n → n ≤ l) :
    Fine reverse CB.reverse s (3 * l + 1) := by
  refine (fine_bind (k' := 3 * l) (fine_paid 1 _ _) fun n t sp h => ?_).mono (by omega)
  refine (reverseLoop_fine _ _).mono ?_
  have : n ≤ l := hl n (congrArg Prod.fst h)
  rw [List.length_range]; omega

theorem replacePos_fine (i : Nat) (v : α) (s : State α) : Fine (replacePos i v) (CB.replacePos i v) s 2 :=
  fine_bind (fine_paid 1 _ _) fun _ _ _ _ => fine_bind (fine_paid 1 _ _) fun _ _ _ _ => fine_pure _ _

theorem replaceAt_fine (i : Nat) (v : α) (s : State α) : Fine (replaceAt i v) (CB.replaceAt i v) s 3 :=
  fine_bind (fine_paid 1 _ _) fun _ _ _ _ => replacePos_fine _ _ _

theorem replaceFirst_fine (v : α) (s : State α) : Fine (replaceFirst v) (CB.replaceFirst v) s 4 :=
  fine_bind (fine_paid 1 _ _) fun _ _ _ _ => fine_ite ((fine_pure _ _).mono (Nat.zero_le 3))
    (fine_bind (fine_paid 1 _ _) fun _ _ _ _ => fine_bind (replacePos_fine _ _ _) fun _ _ _ _ => fine_pure _ _)

theorem replaceLast_fine (v : α) (s : State α) : Fine (replaceLast v) (CB.replaceLast v) s 5 :=
  fine_bind (fine_paid 1 _ _) fun _ _ _ _ => fine_ite ((fine_pure _ _).mono (Nat.zero_le 4))
    (fine_bind (fine_paid 2 _ _) fun _ _ _ _ => fine_bind (replacePos_fine _ _ _) fun _ _ _ _ => fine_pure _ _)

theorem replaceEach_fine (ps : List Nat) (vs : List α) : ∀ s : State α,
    Fine (replaceEach ps vs) (CB.replaceEach ps vs) s (2 * min ps.length vs.length) := by
  induction ps generalizing vs with
  | nil => exact fun s => (fine_pure _ _).mono (Nat.zero_le _)
  | cons p ps ih =>
    intro s
    cases vs with
    | nil => exact (fine_pure _ _).mono (Nat.zero_le _)
    | cons v vs =>
      refine (fine_bind (replacePos_fine p v s) fun _ _ _ _ => fine_bind (ih vs _) fun _ _ _ _ => fine_pure _ _).mono ?_
      simp only [List.length_cons]; omega

theorem replaceIter_fine (vs : List α) (s : State α) {l : Nat} (hl : ∀ ps, s.1.cb.iterMut = .ok ps → ps.length ≤ l) :
    Fine (replaceIter vs) (CB.replaceIter vs) s (2 * min l vs.length + 2) := by
  refine (fine_bind (k' := 2 * min l vs.length) (fine_paid 2 _ _) fun ps t sp h => ?_).mono (by omega)
  refine (replaceEach_fine _ _ _).mono ?_
  have : ps.length ≤ l := hl ps (congrArg Prod.fst h)
  omega

theorem drainTake_fine (k : Nat) : ∀ s : State α, Fine (drainTake k) (CB.drainTake k) s (9 * k) := by
  induction k with
  | zero => exact fun s => fine_pure _ _
  | succ k ih =>
    intro s
    refine (fine_bind (k' := 9 * k) (popFront_fine s) fun v t sp _ => ?_).mono (by omega)
    cases v with
    | none => exact (fine_pure _ _).mono (Nat.zero_le _)
    | some v => exact fine_bind (ih _) fun _ _ _ _ => fine_pure _ _

theorem iter_fine (s : State α) {l : Nat} (hl : ∀ xs, s.1.cb.contents = .ok xs → xs.length ≤ l) :
    Fine iter (self_ Buf.contents) s (l + 2) := by
  have h : Fine iter ((self_ Buf.contents : M (St α) (List α)) >>= fun xs => pure xs) s (2 + l) := by
    refine fine_bind (fine_paid 2 _ _) fun xs t sp h => ?_
    exact (fine_paid xs.length (pure xs) _).mono (hl xs (congrArg Prod.fst h))
  rw [Nat.add_comm] at h
  have e : ((self_ Buf.contents : M (St α) (List α)) >>= fun xs => pure xs) = self_ Buf.contents := by
    funext t
    rw [M.bind_run]
    simp only [self_, M.ask]
    cases t.cb.contents <;> rfl
  rwa [e] at h

/-! ## with the representation -/

/-- `clear` takes a constant number of steps for each element, however large the buffer is. -/
theorem clearLoop_rep (fuel : Nat) : ∀ {s : State α} {d : Deque α}, Rep s.1.cb d →
    Fine (clearLoop fuel) (CB.clearLoop fuel) s (9 * (d.items.length + 1)) := by
  induction fuel with
  | zero => exact fun _ => (fine_throw _ _).mono (Nat.zero_le _)
  | succ fuel ih =>
    intro s d h
    obtain ⟨cb1, e1, r1⟩ := popBack_sim h
    refine (fine_bind (k' := 9 * d.items.length + 1) (popBack_fine s) fun v t sp hp => ?_).mono (by omega)
    rw [e1] at hp
    cases hp
    rcases List.eq_nil_or_concat d.items with hd | ⟨xs, x, hd⟩
    · rw [hd]
      exact (fine_pure _ _).mono (Nat.zero_le _)
    · rw [List.concat_eq_append] at hd
      have hla : (xs ++ [x]).getLast? = some x := by simp
      have hdl : (xs ++ [x]).dropLast = xs := by simp
      rw [hd, hdl] at r1
      rw [hd, hla]
      refine (fine_bind (k' := 9 * (xs.length + 1)) (fine_paid 1 _ _) fun u t sp hp => ?_).mono ?_
      · have : t.cb = cb1 := by
          have := congrArg (fun q => q.2.cb) hp
          exact this.symm
        exact ih (s := (t, sp)) (d := { d with items := xs }) (by rw [this]; exact r1)
      · rw [List.length_append, List.length_singleton]; omega

theorem collectLoop_rep (fuel : Nat) : ∀ {s : State α} {d : Deque α}, Rep s.1.cb d →
    Fine (collectLoop fuel) (CB.collectLoop fuel) s (9 * (d.items.length + 1)) := by
  induction fuel with
  | zero => exact fun _ => (fine_throw _ _).mono (Nat.zero_le _)
  | succ fuel ih =>
    intro s d h
    obtain ⟨cb1, e1, r1⟩ := popFront_sim h
    refine (fine_bind (k' := 9 * d.items.length) (popFront_fine s) fun v t sp hp => ?_).mono (by omega)
    rw [e1] at hp
    cases hp
    cases hd : d.items with
    | nil => exact (fine_pure _ _).mono (Nat.zero_le _)
    | cons x xs =>
      rw [hd] at r1
      exact (fine_bind (ih (s := (⟨cb1, s.1.dropped⟩, sp)) (d := { d with items := xs }) r1) fun _ _ _ _ =>
        fine_pure _ _).mono (Nat.le_of_eq (Nat.add_zero _))

theorem drainTake_rep (k : Nat) : ∀ {s : State α} {d : Deque α}, Rep s.1.cb d →
    Fine (drainTake k) (CB.drainTake k) s (9 * (min k d.items.length + 1)) := by
  induction k with
  | zero => exact fun _ => (fine_pure _ _).mono (Nat.zero_le _)
  | succ k ih =>
    intro s d h
    obtain ⟨cb1, e1, r1⟩ := popFront_sim h
    refine (fine_bind (k' := 9 * min (k + 1) d.items.length) (popFront_fine s) fun v t sp hp => ?_).mono (by omega)
    rw [e1] at hp
    cases hp
    cases hd : d.items with
    | nil => exact (fine_pure _ _).mono (Nat.zero_le _)
    | cons x xs =>
      rw [hd] at r1
      refine (fine_bind (ih (s := (⟨cb1, s.1.dropped⟩, sp)) (d := { d with items := xs }) r1) fun _ _ _ _ =>
        fine_pure _ _).mono ?_
      simp only [List.length_cons]; omega

/-! ## resize -/

/-- `resize` after its request for memory -/
def resizeRest (capacity : Nat) : M (State α) Unit := do
  let l ← paid 1 (self_ Buf.len)
  let toBeSkipped ← paid 1 (M.lift (if l > capacity then usub l capacity else .ok 0))
  skipLoop toBeSkipped
  let slots ← paid 0 (self_ fun cb => .ok cb.buf.length)
  let newBuf ← collectLoop (slots + 1)
  let elemNum := newBuf.length
  let extra ← paid 1 (M.lift (do uadd (← usub capacity newBuf.length) 1))
  let fill ← paid extra (M.lift (uninits α extra))
  paid 0 (M.lift (allocCheck α (elemNum + extra)))
  paid 1 (setBuf fun _ => { buf := newBuf.map some ++ fill, start := 0, end_ := elemNum })

/-- the same, not counted -/
def resizeRest' (capacity : Nat) : M (St α) Unit := do
  let l ← self_ Buf.len
  let toBeSkipped ← M.lift (if l > capacity then usub l capacity else .ok 0)
  CB.skipLoop toBeSkipped
  let slots ← self_ fun cb => .ok cb.buf.length
  let newBuf ← CB.collectLoop (slots + 1)
  let elemNum := newBuf.length
  let extra ← M.lift (do uadd (← usub capacity newBuf.length) 1)
  let fill ← M.lift (uninits α extra)
  M.lift (allocCheck α (elemNum + extra))
  setBuf fun _ => { buf := newBuf.map some ++ fill, start := 0, end_ := elemNum }

theorem resize_eq (n : Nat) :
    (resize n : M (State α) Unit) = paid 1 (M.lift (uadd n 1)) >>= fun m => request m >>= fun _ => resizeRest n := rfl

theorem resize_eq' (n : Nat) :
    (CB.resize n : M (St α) Unit) =
      M.lift (uadd n 1) >>= fun m => M.lift (allocCheck α m) >>= fun _ => resizeRest' n := rfl

theorem some_fine_bind {m : M (State α) β} {p : M (St α) β} {f : β → M (State α) γ} {g : β → M (St α) γ} {s : State α}
    {k : Nat} (hm : Fine m p s k) (hf : ∀ b s', ∃ k', Fine (f b) (g b) s' k') : ∃ k', Fine (m >>= f) (p >>= g) s k' := by
  obtain ⟨j, hj, hm⟩ := hm
  rcases hp : p s.1 with ⟨r, t⟩
  cases r with
  | error e =>
    refine ⟨k + 0, fine_bind ⟨j, hj, hm⟩ fun b t sp h => ?_⟩
    rw [hp] at h
    cases h
  | ok b =>
    obtain ⟨k', j', hj', hf⟩ := hf b (t, { s.2 with steps := s.2.steps + j })
    refine ⟨j + j', j + j', Nat.le_refl _, ?_⟩
    rw [M.bind_run, M.bind_run, hm, hp]
    simp only [hf]
    rw [Nat.add_assoc]

theorem resizeRest_fine (n : Nat) (s : State α) : ∃ k, Fine (resizeRest n) (resizeRest' n) s k :=
  some_fine_bind (fine_paid 1 _ _) fun _ _ => some_fine_bind (fine_paid 1 _ _) fun _ _ =>
    some_fine_bind (skipLoop_fine _ _) fun _ _ => some_fine_bind (fine_paid 0 _ _) fun _ _ =>
      some_fine_bind (collectLoop_fine _ _) fun _ _ => some_fine_bind (fine_paid 1 _ _) fun _ _ =>
        some_fine_bind (fine_paid _ _ _) fun _ _ => some_fine_bind (fine_paid 0 _ _) fun _ _ => ⟨1, fine_paid 1 _ _⟩

theorem resizeRest_rep {n : Nat} (hn : n < usizeMax) {s : State α} {d : Deque α} (h : Rep s.1.cb d) :
    Fine (resizeRest n) (resizeRest' n) s (10 * d.items.length + n + 14) := by
  have hskip : ∀ l k, s.1.cb.len = .ok l → (if l > n then usub l n else .ok 0) = .ok k →
      l = d.items.length ∧ k = d.items.length - n := by
    intro l k hl hk
    rw [h.len_eq] at hl
    cases hl
    refine ⟨rfl, ?_⟩
    split at hk
    · rw [usub_ok (by omega)] at hk
      cases hk; rfl
    · cases hk; omega
  refine (fine_bind (k' := 10 * d.items.length + n + 13) (fine_paid 1 _ _) fun l t sp e1 => ?_).mono (by omega)
  have e1' : s.1.cb.len = .ok l := congrArg Prod.fst e1
  have et : t = s.1 := (congrArg Prod.snd e1).symm
  subst et
  refine (fine_bind (k' := 10 * d.items.length + n + 12) (fine_paid 1 _ _) fun k t sp e2 => ?_).mono (by omega)
  have et : t = s.1 := (congrArg Prod.snd e2).symm
  subst et
  obtain ⟨rfl, rfl⟩ := hskip l k e1' (congrArg Prod.fst e2)
  obtain ⟨cb1, e3, r1⟩ := skipLoop_sim (d.items.length - n) h (by omega)
  refine (fine_bind (k' := 9 * (d.items.length - (d.items.length - n)) + n + 12) (skipLoop_fine _ _)
    fun u t sp e4 => ?_).mono (by omega)
  change CB.skipLoop (d.items.length - n) s.1 = _ at e4
  rw [e3] at e4
  have hp : (Spec.dropSeq (d.items.take (d.items.length - n))).2.2 = false := by
    have := congrArg Prod.fst e4
    simp only [Spec.userIf] at this
    split at this
    · cases this
    · rename_i hf; simpa using hf
  have et : t = ⟨cb1, s.1.dropped ++ (Spec.dropSeq (d.items.take (d.items.length - n))).1⟩ := (congrArg Prod.snd e4).symm
  subst et
  rw [dropSeq_noPanic _ hp, List.nil_append] at r1
  have hl1 : (d.items.drop (d.items.length - n)).length ≤ n := by rw [List.length_drop]; omega
  refine (fine_bind (k' := 9 * (d.items.length - (d.items.length - n)) + n + 12) (fine_paid 0 _ _)
    fun slots t sp e5 => ?_).mono (by omega)
  have et := (congrArg Prod.snd e5).symm
  change t = _ at et
  subst et
  refine (fine_bind (k' := n + 3) (collectLoop_rep (slots + 1) (s := (_, sp)) r1) fun newBuf t sp e6 => ?_).mono ?_
  · have hb : slots = d.cap + 1 := by
      have h5 : (Except.ok cb1.buf.length : Except Fault Nat) = .ok slots := congrArg Prod.fst e5
      cases h5
      exact r1.len_buf
    obtain ⟨cb2, e7, _⟩ := collectLoop_sim (slots + 1)
      (s := ⟨cb1, s.1.dropped ++ (Spec.dropSeq (d.items.take (d.items.length - n))).1⟩) r1
      (by have := h.le_cap; simp only [List.length_drop]; omega)
    change CB.collectLoop (slots + 1)
      ⟨cb1, s.1.dropped ++ (Spec.dropSeq (d.items.take (d.items.length - n))).1⟩ = _ at e6
    rw [e7] at e6
    have e6' : d.items.drop (d.items.length - n) = newBuf := by
      have := congrArg Prod.fst e6
      cases this; rfl
    subst e6'
    refine (fine_bind (k' := n + 2) (fine_paid 1 _ _) fun extra t sp e8 => ?_).mono (by omega)
    have he : extra ≤ n + 1 := by
      have := congrArg Prod.fst e8
      change (do uadd (← usub n (d.items.drop (d.items.length - n)).length) 1 : Except Fault Nat) = .ok extra at this
      rw [usub_ok hl1] at this
      change uadd (n - (d.items.drop (d.items.length - n)).length) 1 = .ok extra at this
      rw [uadd_ok (by omega)] at this
      cases this
      omega
    refine (fine_bind (k' := 1) (fine_paid extra _ _) fun _ _ _ _ => ?_).mono (by omega)
    exact fine_bind (k' := 1) (fine_paid 0 _ _) fun _ _ _ _ => fine_paid 1 _ _
  · simp only [List.length_drop]; omega

/-- what `resize` asks for -/
def asks (α : Type) [Elem α] (n : Nat) : List Nat :=
  match uadd n 1 with
  | .ok m => match allocCheck α m with
    | .ok () => [m]
    | .error _ => []
  | .error _ => []

theorem resize_spent (n : Nat) (s : State α) {k : Nat}
    (hr : ∀ m, uadd n 1 = .ok m → Fine (resizeRest n) (resizeRest' n) (s.1, ⟨s.2.steps + 1, s.2.requests ++ [m]⟩) k) :
    ∃ j, j ≤ k + 1 ∧ resize n s = ((CB.resize n s.1).1, (CB.resize n s.1).2,
      { steps := s.2.steps + j, requests := s.2.requests ++ asks α n }) := by
  rw [resize_eq, resize_eq', M.bind_run, M.bind_run, asks]
  simp only [paid, M.lift]
  cases hu : uadd n 1 with
  | error e => exact ⟨1, by omega, by simp⟩
  | ok m =>
    simp only [M.bind_run, request, M.lift]
    cases allocCheck α m with
    | error e => exact ⟨1, by omega, by simp⟩
    | ok u =>
      obtain ⟨j, hj, h⟩ := hr m hu
      refine ⟨j + 1, by omega, ?_⟩
      simp only [h]
      rw [Nat.add_assoc, Nat.add_comm 1 j]

/-! ## two buffers -/

/-- the judgement for calls on two buffers -/
def Fine2 (m : M (St2 α × Spent) β) (p : M (St2 α) β) (s : St2 α × Spent) (k : Nat) : Prop :=
  ∃ j, j ≤ k ∧ m s = ((p s.1).1, (p s.1).2, { s.2 with steps := s.2.steps + j })

theorem fine2_bind {m : M (St2 α × Spent) β} {p : M (St2 α) β} {f : β → M (St2 α × Spent) γ} {g : β → M (St2 α) γ}
    {s : St2 α × Spent} {k k' : Nat} (hm : Fine2 m p s k)
    (hf : ∀ b t sp, p s.1 = (.ok b, t) → Fine2 (f b) (g b) (t, sp) k') : Fine2 (m >>= f) (p >>= g) s (k + k') := by
  obtain ⟨j, hj, hm⟩ := hm
  unfold Fine2
  rw [M.bind_run, M.bind_run, hm]
  rcases hp : p s.1 with ⟨r, t⟩
  cases r with
  | error e => exact ⟨j, by omega, rfl⟩
  | ok b =>
    obtain ⟨j', hj', hf⟩ := hf b t { s.2 with steps := s.2.steps + j } hp
    refine ⟨j + j', by omega, ?_⟩
    simp only [hf]
    rw [Nat.add_assoc]

theorem Fine2.mono {m : M (St2 α × Spent) β} {p : M (St2 α) β} {s : St2 α × Spent} {k k' : Nat} (h : Fine2 m p s k)
    (hk : k ≤ k') : Fine2 m p s k' := by
  obtain ⟨j, hj, h⟩ := h
  exact ⟨j, Nat.le_trans hj hk, h⟩

theorem onSelf_fine {m : M (State α) β} {p : M (St α) β} {s : St2 α × Spent} {k : Nat}
    (h : Fine m p (⟨s.1.self, s.1.dropped⟩, s.2) k) : Fine2 (onSelf m) (CB.onSelf p) s k := by
  obtain ⟨j, hj, h⟩ := h
  exact ⟨j, hj, by simp only [onSelf, CB.onSelf, h]⟩

theorem onOther_fine {m : M (State α) β} {p : M (St α) β} {s : St2 α × Spent} {k : Nat}
    (h : Fine m p (⟨s.1.other, s.1.dropped⟩, s.2) k) : Fine2 (onOther m) (CB.onOther p) s k := by
  obtain ⟨j, hj, h⟩ := h
  exact ⟨j, hj, by simp only [onOther, CB.onOther, h]⟩

theorem appendLoop_rep (fuel : Nat) : ∀ {s : St2 α × Spent} {o : Deque α}, Rep s.1.other o →
    Fine2 (appendLoop fuel) (CB.appendLoop fuel) s (29 * o.items.length + 9) := by
  induction fuel with
  | zero => exact fun _ => ⟨0, Nat.zero_le _, rfl⟩
  | succ fuel ih =>
    intro s o h
    obtain ⟨cb1, e1, r1⟩ := popFront_sim (s := ⟨s.1.other, s.1.dropped⟩) h
    refine (fine2_bind (k' := 29 * o.items.length) (onOther_fine (popFront_fine _)) fun v t sp hp => ?_).mono (by omega)
    have hq : CB.onOther CB.drainNext s.1 = (.ok o.items.head?, ⟨s.1.self, cb1, s.1.dropped⟩) := by
      unfold CB.onOther drainNext; rw [e1]
    change CB.onOther CB.drainNext s.1 = _ at hp
    rw [hq] at hp
    cases hp
    cases hd : o.items with
    | nil => exact ⟨0, Nat.zero_le _, rfl⟩
    | cons x xs =>
      rw [hd] at r1
      refine (fine2_bind (k' := 29 * xs.length + 9) (onSelf_fine (pushBack_fine x _)) fun u t sp hp => ?_).mono ?_
      · have ht : t.other = cb1 := by
          have := congrArg (fun q => q.2.other) hp
          exact this.symm
        exact ih (s := (t, sp)) (o := { o with items := xs }) (by rw [ht]; exact r1)
      · rw [List.length_cons]; omega

theorem appendLoop_fine (fuel : Nat) : ∀ s : St2 α × Spent,
    Fine2 (appendLoop fuel) (CB.appendLoop fuel) s (29 * fuel) := by
  induction fuel with
  | zero => exact fun _ => ⟨0, Nat.zero_le _, rfl⟩
  | succ fuel ih =>
    intro s
    refine (fine2_bind (k' := 20 + 29 * fuel) (onOther_fine (popFront_fine _)) fun v t sp _ => ?_).mono (by omega)
    cases v with
    | none => exact ⟨0, Nat.zero_le _, rfl⟩
    | some x => exact fine2_bind (onSelf_fine (pushBack_fine x _)) fun _ _ _ _ => ih _

/-! ## every call -/

theorem fine_map {m : M (State α) β} {p : M (St α) β} {s : State α} {k : Nat} (f : β → γ) (h : Fine m p s k) :
    Fine (m >>= fun b => pure (f b)) (p >>= fun b => pure (f b)) s k :=
  fine_bind h fun _ _ _ _ => fine_pure _ _

theorem step_fine {op : Op α} (hop : ∀ n, op ≠ .resize n) (s : State α) : ∃ k, Fine (step op) (CB.step op) s k := by
  cases op with
  | pushBack v => exact ⟨_, fine_map _ (pushBack_fine v s)⟩
  | pushFront v => exact ⟨_, fine_map _ (pushFront_fine v s)⟩
  | popBack => exact ⟨_, fine_map _ (popBack_fine s)⟩
  | popFront => exact ⟨_, fine_map _ (popFront_fine s)⟩
  | clear => exact ⟨_, fine_map _ (clear_fine s)⟩
  | resize n => exact absurd rfl (hop n)
  | extend items p => exact ⟨_, fine_map _ (extend_fine p items s)⟩
  | extendRef c items p => exact ⟨_, fine_map _ (extendRef_fine c p items s)⟩
  | drain k => exact ⟨_, fine_map _ (drainTake_fine k s)⟩
  | linearize => exact ⟨_, fine_map _ (linearize_fine s)⟩
  | swap a b => exact ⟨_, fine_map _ (swap_fine a b s)⟩
  | reverse =>
    refine ⟨_, fine_map _ (reverse_fine s (l := match s.1.cb.len with | .ok n => n | .error _ => 0) fun n h => ?_)⟩
    exact Nat.le_of_eq (by simp only [h])
  | replaceAt i v => exact ⟨_, fine_map _ (replaceAt_fine i v s)⟩
  | replaceFirst v => exact ⟨_, fine_map _ (replaceFirst_fine v s)⟩
  | replaceLast v => exact ⟨_, fine_map _ (replaceLast_fine v s)⟩
  | replaceIter vs =>
    refine ⟨_, fine_map _ (replaceIter_fine vs s (l := match s.1.cb.iterMut with | .ok n => n.length | .error _ => 0)
      fun n h => ?_)⟩
    exact Nat.le_of_eq (by simp only [h])
  | len => exact ⟨_, fine_map _ (fine_paid 1 _ s)⟩
  | capacity => exact ⟨_, fine_map _ (fine_paid 1 _ s)⟩
  | isEmpty => exact ⟨_, fine_map _ (fine_paid 1 _ s)⟩
  | isFull => exact ⟨_, fine_map _ (fine_paid 1 _ s)⟩
  | first => exact ⟨_, fine_map _ (fine_paid 3 _ s)⟩
  | last => exact ⟨_, fine_map _ (fine_paid 4 _ s)⟩
  | index i => exact ⟨_, fine_map _ (fine_paid 2 _ s)⟩
  | iter =>
    refine ⟨_, fine_map _ (iter_fine s (l := match s.1.cb.contents with | .ok n => n.length | .error _ => 0)
      fun n h => ?_)⟩
    exact Nat.le_of_eq (by simp only [h])

theorem step_quick {op : Op α} (hop : Quick op) (s : State α) : Fine (step op) (CB.step op) s 20 := by
  cases op with
  | pushBack v => exact fine_map _ (pushBack_fine v s)
  | pushFront v => exact (fine_map _ (pushFront_fine v s)).mono (by decide)
  | popBack => exact (fine_map _ (popBack_fine s)).mono (by decide)
  | popFront => exact (fine_map _ (popFront_fine s)).mono (by decide)
  | swap a b => exact (fine_map _ (swap_fine a b s)).mono (by decide)
  | replaceAt i v => exact (fine_map _ (replaceAt_fine i v s)).mono (by decide)
  | replaceFirst v => exact (fine_map _ (replaceFirst_fine v s)).mono (by decide)
  | replaceLast v => exact (fine_map _ (replaceLast_fine v s)).mono (by decide)
  | len => exact (fine_map _ (fine_paid 1 _ s)).mono (by decide)
  | capacity => exact (fine_map _ (fine_paid 1 _ s)).mono (by decide)
  | isEmpty => exact (fine_map _ (fine_paid 1 _ s)).mono (by decide)
  | isFull => exact (fine_map _ (fine_paid 1 _ s)).mono (by decide)
  | first => exact (fine_map _ (fine_paid 3 _ s)).mono (by decide)
  | last => exact (fine_map _ (fine_paid 4 _ s)).mono (by decide)
  | index i => exact (fine_map _ (fine_paid 2 _ s)).mono (by decide)
  | _ => exact hop.elim

/-- what a call asks for -/
def wants : Op α → List Nat
  | .resize n => asks α n
  | _ => []

theorem step_resize (n : Nat) (s : State α) {k : Nat}
    (hr : ∀ m, uadd n 1 = .ok m → Fine (resizeRest n) (resizeRest' n) (s.1, ⟨s.2.steps + 1, s.2.requests ++ [m]⟩) k) :
    ∃ j, j ≤ k + 1 ∧ step (.resize n) s = ((CB.step (.resize n) s.1).1, (CB.step (.resize n) s.1).2,
      { steps := s.2.steps + j, requests := s.2.requests ++ asks α n }) := by
  obtain ⟨j, hj, h⟩ := resize_spent n s hr
  refine ⟨j, hj, ?_⟩
  change (resize n >>= fun _ => pure Out.unit) s = (((CB.resize n >>= fun _ => pure Out.unit) s.1).1, _, _)
  rw [M.bind_run, h]
  change _ = (_, ((CB.resize n >>= fun _ => pure Out.unit) s.1).2, _)
  rw [M.bind_run]
  rcases CB.resize n s.1 with ⟨r, t⟩
  cases r <;> rfl

theorem step_spent (op : Op α) (s : State α) : ∃ j, step op s = ((CB.step op s.1).1, (CB.step op s.1).2,
    { steps := s.2.steps + j, requests := s.2.requests ++ wants op }) := by
  by_cases hop : ∀ n, op ≠ .resize n
  · obtain ⟨k, j, _, h⟩ := step_fine hop s
    refine ⟨j, ?_⟩
    rw [h]
    cases op <;> simp [wants] at hop ⊢
  · obtain ⟨n, rfl⟩ := Classical.not_forall_not.mp hop
    cases hu : uadd n 1 with
    | error e =>
      obtain ⟨j, _, h⟩ := step_resize n s (k := 0) fun m hm => by rw [hu] at hm; cases hm
      exact ⟨j, h⟩
    | ok m =>
      obtain ⟨k, hk⟩ := resizeRest_fine n (s.1, ⟨s.2.steps + 1, s.2.requests ++ [m]⟩)
      obtain ⟨j, _, h⟩ := step_resize n s fun m' hm => by rw [hu] at hm; cases hm; exact hk
      exact ⟨j, h⟩

theorem step_rep {op : Op α} (hop : OpOk op) {s : State α} {d : Deque α} (h : Rep s.1.cb d) :
    ∃ j, j ≤ 20 + 30 * load d op ∧ step op s = ((CB.step op s.1).1, (CB.step op s.1).2,
      { steps := s.2.steps + j, requests := s.2.requests ++ wants op }) := by
  have go : ∀ {op : Op α} {k : Nat}, wants op = [] → k ≤ 20 + 30 * load d op → Fine (step op) (CB.step op) s k →
      ∃ j, j ≤ 20 + 30 * load d op ∧ step op s = ((CB.step op s.1).1, (CB.step op s.1).2,
        { steps := s.2.steps + j, requests := s.2.requests ++ wants op }) := by
    rintro op k hw hk ⟨j, hj, h⟩
    refine ⟨j, Nat.le_trans hj hk, ?_⟩
    rw [h, hw, List.append_nil]
  cases op with
  | pushBack v => exact go rfl (by simp [load]) (fine_map _ (pushBack_fine v s))
  | pushFront v => exact go rfl (by simp [load]) (fine_map _ (pushFront_fine v s))
  | popBack => exact go rfl (by simp [load]) (fine_map _ (popBack_fine s))
  | popFront => exact go rfl (by simp [load]) (fine_map _ (popFront_fine s))
  | clear => exact go rfl (by simp only [load]; omega) (fine_map _ (clearLoop_rep _ h))
  | resize n =>
    have h6 := two_isizeMax
    have hn : n < usizeMax := by rcases hop with hop | hop <;> omega
    obtain ⟨j, hj, e⟩ := step_resize n s fun m hm => resizeRest_rep hn h
    exact ⟨j, by simp only [load]; omega, e⟩
  | extend items p => exact go rfl (by simp only [load]; omega) (fine_map _ (extend_fine p items s))
  | extendRef c items p => exact go rfl (by simp only [load]; omega) (fine_map _ (extendRef_fine c p items s))
  | drain k => exact go rfl (by simp only [load]; omega) (fine_map _ (drainTake_rep k h))
  | linearize =>
    refine go rfl ?_ (fine_map _ (linearize_fine s))
    rw [h.len_buf]; simp only [load]; omega
  | swap a b => exact go rfl (by simp [load]) (fine_map _ (swap_fine a b s))
  | reverse =>
    refine go rfl ?_ (fine_map _ (reverse_fine s (l := d.items.length) fun n e => ?_))
    · simp only [load]; omega
    · rw [h.len_eq] at e; cases e; exact Nat.le_refl _
  | replaceAt i v => exact go rfl (by simp [load]) (fine_map _ (replaceAt_fine i v s))
  | replaceFirst v => exact go rfl (by simp [load]) (fine_map _ (replaceFirst_fine v s))
  | replaceLast v => exact go rfl (by simp [load]) (fine_map _ (replaceLast_fine v s))
  | replaceIter vs =>
    refine go rfl ?_ (fine_map _ (replaceIter_fine vs s (l := d.items.length) fun n e => ?_))
    · simp only [load]; omega
    · rw [h.iterMut_eq] at e; cases e; simp
  | len => exact go rfl (by simp [load]) (fine_map _ (fine_paid 1 _ s))
  | capacity => exact go rfl (by simp [load]) (fine_map _ (fine_paid 1 _ s))
  | isEmpty => exact go rfl (by simp [load]) (fine_map _ (fine_paid 1 _ s))
  | isFull => exact go rfl (by simp [load]) (fine_map _ (fine_paid 1 _ s))
  | first => exact go rfl (by simp [load]) (fine_map _ (fine_paid 3 _ s))
  | last => exact go rfl (by simp [load]) (fine_map _ (fine_paid 4 _ s))
  | index i => exact go rfl (by simp [load]) (fine_map _ (fine_paid 2 _ s))
  | iter =>
    refine go rfl ?_ (fine_map _ (iter_fine s (l := d.items.length) fun n e => ?_))
    · simp only [load]; omega
    · rw [h.contents_eq] at e; cases e; exact Nat.le_refl _

theorem run_cons {op : Op α} {ops : List (Op α)} {s s' : State α} {r : Except Fault (Out α)}
    (h : step op s = (r, s')) (hr : r ≠ .error .abort) :
    run (op :: ops) s = (r :: (run ops s').1, (run ops s').2) := by
  rw [run, h]
  cases r with
  | ok _ => rfl
  | error e => cases e <;> first | rfl | contradiction

theorem run_cons_abort {op : Op α} {ops : List (Op α)} {s s' : State α}
    (h : step op s = (.error .abort, s')) : run (op :: ops) s = ([.error .abort], s') := by
  unfold run; rw [h]

theorem run_spent : ∀ (ops : List (Op α)) (s : State α), ∃ j, run ops s = ((CB.run ops s.1).1, (CB.run ops s.1).2,
    { steps := s.2.steps + j,
      requests := s.2.requests ++ (ops.take (CB.run ops s.1).1.length).flatMap wants })
  | [], s => ⟨0, by simp [run, CB.run]⟩
  | op :: ops, s => by
    obtain ⟨j, e⟩ := step_spent op s
    rcases hp : CB.step op s.1 with ⟨r, t⟩
    rw [hp] at e
    obtain ⟨j', e'⟩ := run_spent ops (t, ⟨s.2.steps + j, s.2.requests ++ wants op⟩)
    by_cases hr : r = .error .abort
    · subst hr
      rw [run_cons_abort e, CB.run_cons_abort hp]
      exact ⟨j, by simp⟩
    · rw [run_cons e hr, CB.run_cons hp hr, e']
      exact ⟨j + j', by simp [Nat.add_assoc]⟩

theorem run_constant : ∀ (ops : List (Op α)) (s : State α), (∀ op ∈ ops, Quick op) →
    ∃ j, j ≤ 20 * ops.length ∧ run ops s = ((CB.run ops s.1).1, (CB.run ops s.1).2,
      { s.2 with steps := s.2.steps + j })
  | [], s, _ => ⟨0, by simp [run, CB.run]⟩
  | op :: ops, s, h => by
    obtain ⟨j, hj, e⟩ := step_quick (h op (by simp)) s
    rcases hp : CB.step op s.1 with ⟨r, t⟩
    rw [hp] at e
    obtain ⟨j', hj', e'⟩ := run_constant ops (t, { s.2 with steps := s.2.steps + j }) fun o ho => h o (by simp [ho])
    by_cases hr : r = .error .abort
    · subst hr
      rw [run_cons_abort e, CB.run_cons_abort hp]
      exact ⟨j, by simp only [List.length_cons]; omega, by simp⟩
    · rw [run_cons e hr, CB.run_cons hp hr, e']
      exact ⟨j + j', by simp only [List.length_cons]; omega, by simp [Nat.add_assoc]⟩

end CB.Cost
