import Verif.CB.Sim3
/-!
# Refinement: every sequence of calls behaves like the bounded deque
-/

set_option linter.unusedSectionVars false

open Rust
namespace CB
open Spec (Deque)

variable {α : Type} [Cfg] [Elem α]

/-- The calls the refinement covers: all, except resizing to a capacity at the very end of the address
space (more than `isize::MAX` elements of a zero-sized type, or `usize::MAX`). A `Clone` may fail with a user panic (or
the abort it may lead to) only, which is what `Fault.user` is for. -/
def OpOk : Op α → Prop
  | .resize n => n ≤ isizeMax ∨ (0 < Elem.size α ∧ n < usizeMax)
  | .extendRef c _ _ => ∀ x e, c x = .error e → e = .user ∨ e = .abort
  | _ => True

theorem extendRef_sim (c : α → Except Fault α) (p : Bool) : ∀ (vs : List α) {s : St α} {d : Deque α},
    Rep s.cb d →
    ∃ cb', extendRef c vs p s
        = ((Spec.extendF d (Spec.clonePrefix c p vs).1 (Spec.clonePrefix c p vs).2).ret, ⟨cb', s.dropped ++
            (Spec.extendF d (Spec.clonePrefix c p vs).1 (Spec.clonePrefix c p vs).2).dropped⟩) ∧
      Rep cb' (Spec.extendF d (Spec.clonePrefix c p vs).1 (Spec.clonePrefix c p vs).2).deque
  | [], s, d, h => by
    refine ⟨s.cb, ?_, h⟩
    unfold extendRef Spec.clonePrefix Spec.extendF
    cases p <;> simp [Spec.extend, Spec.userIf] <;> rfl
  | v :: vs, s, d, h => by
    unfold extendRef Spec.clonePrefix
    cases hc : c v with
    | error e =>
      refine ⟨s.cb, ?_, h⟩
      rw [show (M.lift (Except.error e : Except Fault α) >>= fun w => do pushBack w; extendRef c vs p) s = (.error e, s) from rfl]
      simp [Spec.extendF, Spec.extend, Spec.userIf]
    | ok w =>
      rw [lift_bind _ rfl]
      obtain ⟨cb1, e1, r1⟩ := pushBack_sim h w
      cases hr : (Spec.pushBack d w).ret with
      | error e =>
        rw [hr] at e1
        rw [M.bind_error e1]
        exact ⟨cb1, by simp [Spec.extendF, Spec.extend, hr], by simpa [Spec.extendF, Spec.extend, hr] using r1⟩
      | ok u =>
        rw [hr] at e1
        rw [M.bind_ok e1]
        obtain ⟨cb2, e2, r2⟩ := extendRef_sim c p vs (s := ⟨cb1, s.dropped ++ (Spec.pushBack d w).dropped⟩) r1
        refine ⟨cb2, e2.trans ?_, ?_⟩
        · simp only [Spec.extendF, Spec.extend, hr]
          cases hq : (Spec.extend (Spec.pushBack d w).deque (Spec.clonePrefix c p vs).1 false).ret <;>
            simp
        · revert r2
          simp only [Spec.extendF, Spec.extend, hr]
          cases hq : (Spec.extend (Spec.pushBack d w).deque (Spec.clonePrefix c p vs).1 false).ret <;>
            simp

theorem drainTake_sim (k : Nat) : ∀ {s : St α} {d : Deque α}, Rep s.cb d →
    ∃ cb', drainTake k s = (.ok (d.items.take k), ⟨cb', s.dropped⟩) ∧
      Rep cb' { d with items := d.items.drop k } := by
  induction k with
  | zero => intro s d h; exact ⟨s.cb, by simp [drainTake, M.pure_run], by simpa using h⟩
  | succ k ih =>
    intro s d h
    obtain ⟨cb1, e1, r1⟩ := popFront_sim h
    unfold drainTake
    cases hd : d.items with
    | nil =>
      rw [hd] at e1 r1
      refine ⟨cb1, ?_, by simpa using r1⟩
      rw [M.bind_ok (show drainNext s = _ from e1)]
      simp [M.pure_run]
    | cons x xs =>
      rw [hd] at e1 r1
      obtain ⟨cb2, e2, r2⟩ := ih (s := ⟨cb1, s.dropped⟩) r1
      refine ⟨cb2, ?_, by simpa using r2⟩
      rw [M.bind_ok (show drainNext s = _ from e1)]
      simp only [List.head?_cons]
      rw [M.bind_ok e2]
      simp [M.pure_run]

/-- as `OpOk`, and resizing to a wide capacity -/
def OpWide : Op α → Prop
  | .resize n => OpOk (.resize n : Op α) ∨ Wide α n
  | op => OpOk op

theorem OpOk.wide {op : Op α} (h : OpOk op) : OpWide op := by
  cases op with
  | resize n => exact .inl h
  | _ => exact h

theorem step_sim_wide {s : St α} {d : Deque α} (h : Rep s.cb d) (op : Op α) (hop : OpWide op) :
    ∃ cb', step op s
        = ((Spec.step d op).ret, ⟨cb', s.dropped ++ (Spec.step d op).dropped⟩) ∧
      Rep cb' (Spec.step d op).deque := by
  have map_unit : ∀ {m : M (St α) Unit} {r : Except Fault Unit} {s s' : St α}, m s = (r, s') →
      (do m; return Out.unit (α := α)) s = (r.map fun _ => .unit, s') := by
    intro m r s s' e
    cases r with
    | error e' => rw [M.bind_error e]; rfl
    | ok u => rw [M.bind_ok e]; rfl
  cases op with
  | pushBack v =>
    obtain ⟨cb', e, r⟩ := pushBack_sim h v
    exact ⟨cb', map_unit e, r⟩
  | pushFront v =>
    obtain ⟨cb', e, r⟩ := pushFront_sim h v
    exact ⟨cb', map_unit e, r⟩
  | popBack =>
    obtain ⟨cb', e, r⟩ := popBack_sim h
    exact ⟨cb', by rw [step, M.bind_ok e]; simp [Spec.step, M.pure_run], r⟩
  | popFront =>
    obtain ⟨cb', e, r⟩ := popFront_sim h
    exact ⟨cb', by rw [step, M.bind_ok e]; simp [Spec.step, M.pure_run], r⟩
  | clear =>
    obtain ⟨cb', e, r⟩ := clear_sim h
    exact ⟨cb', map_unit e, r⟩
  | resize n =>
    obtain ⟨cb', e, r⟩ := resize_sim h n hop
    exact ⟨cb', map_unit e, r⟩
  | extend items p =>
    obtain ⟨cb', e, r⟩ := extend_sim items p h
    exact ⟨cb', map_unit e, r⟩
  | extendRef c items p =>
    obtain ⟨cb', e, r⟩ := extendRef_sim c p items h
    exact ⟨cb', map_unit e, r⟩
  | drain k =>
    obtain ⟨cb', e, r⟩ := drainTake_sim k h
    exact ⟨cb', by rw [step, M.bind_ok e]; simp [Spec.step, M.pure_run], r⟩
  | linearize =>
    obtain ⟨cb', e, r, _⟩ := linearize_sim h
    exact ⟨cb', by rw [step, M.bind_ok e]; simp [Spec.step, M.pure_run], r⟩
  | swap a b =>
    obtain ⟨cb', e, r⟩ := swap_sim h a b
    refine ⟨cb', (map_unit e).trans ?_, ?_⟩
    · simp only [Spec.step]; split <;> simp_all [Except.map]
    · simp only [Spec.step]; split <;> simp_all
  | reverse =>
    obtain ⟨cb', e, r⟩ := reverse_sim h
    exact ⟨cb', by rw [step, map_unit e]; simp [Spec.step, Except.map], r⟩
  | replaceAt i v =>
    obtain ⟨cb', e, r⟩ := replaceAt_sim h i v
    refine ⟨cb', ?_, ?_⟩
    · simp only [step, Spec.step]
      cases hd : d.items[i]? with
      | none => rw [hd] at e; rw [M.bind_error e]; simp
      | some x => rw [hd] at e; rw [M.bind_ok e]; simp [M.pure_run]
    · simp only [Spec.step]
      cases hd : d.items[i]? with
      | none =>
        rw [List.set_eq_of_length_le (by simpa using hd)] at r; exact r
      | some x => exact r
  | replaceFirst v =>
    obtain ⟨cb', e, r⟩ := replaceFirst_sim h v
    exact ⟨cb', by rw [step, M.bind_ok e]; simp [Spec.step, M.pure_run], r⟩
  | replaceLast v =>
    obtain ⟨cb', e, r⟩ := replaceLast_sim h v
    exact ⟨cb', by rw [step, M.bind_ok e]; simp [Spec.step, M.pure_run], r⟩
  | replaceIter vs =>
    obtain ⟨cb', e, r⟩ := replaceIter_sim h vs
    exact ⟨cb', by rw [step, M.bind_ok e]; simp [Spec.step, M.pure_run], r⟩
  | len => exact ⟨s.cb, by rw [step, self_bind _ _ h.len_eq]; simp [Spec.step, M.pure_run], h⟩
  | capacity =>
    exact ⟨s.cb, by rw [step, self_bind _ _ h.capacity_eq]; simp [Spec.step, M.pure_run], h⟩
  | isEmpty =>
    exact ⟨s.cb, by rw [step, selfp_bind, h.isEmpty_eq]; simp [Spec.step, M.pure_run], h⟩
  | isFull =>
    exact ⟨s.cb, by rw [step, self_bind _ _ h.isFull_eq]; simp [Spec.step, M.pure_run], h⟩
  | first =>
    exact ⟨s.cb, by rw [step, self_bind _ _ h.first_eq]; simp [Spec.step, M.pure_run], h⟩
  | last =>
    exact ⟨s.cb, by rw [step, self_bind _ _ h.last_eq]; simp [Spec.step, M.pure_run], h⟩
  | index i =>
    simp only [step, Spec.step]
    by_cases hi : i < d.items.length
    · rw [self_bind _ _ (h.index_ok hi), List.getElem?_eq_getElem hi]
      exact ⟨s.cb, by simp [M.pure_run], h⟩
    · rw [M.bind_error (e := .explicit) (s' := s) (by rw [self_run, h.index_err (by omega)]),
        List.getElem?_eq_none (by omega)]
      exact ⟨s.cb, by simp, h⟩
  | iter =>
    exact ⟨s.cb, by rw [step, self_bind _ _ h.contents_eq]; simp [Spec.step, M.pure_run], h⟩

theorem run_cons {op : Op α} {ops : List (Op α)} {s s' : St α} {r : Except Fault (Out α)}
    (h : step op s = (r, s')) (hr : r ≠ .error .abort) :
    run (op :: ops) s = (r :: (run ops s').1, (run ops s').2) := by
  rw [run, h]
  cases r with
  | ok _ => rfl
  | error e => cases e <;> first | rfl | contradiction

theorem run_cons_abort {op : Op α} {ops : List (Op α)} {s s' : St α}
    (h : step op s = (.error .abort, s')) : run (op :: ops) s = ([.error .abort], s') := by
  unfold run; rw [h]

theorem specRun_cons {op : Op α} {ops : List (Op α)} {d : Deque α}
    (hr : (Spec.step d op).ret ≠ .error .abort) :
    Spec.run (op :: ops) d = ((Spec.step d op).ret :: (Spec.run ops (Spec.step d op).deque).1,
      (Spec.run ops (Spec.step d op).deque).2.1,
      (Spec.step d op).dropped ++ (Spec.run ops (Spec.step d op).deque).2.2) := by
  rw [Spec.run]
  generalize Spec.step d op = r at *
  rcases r with ⟨ret, dq, dr⟩
  cases ret with
  | ok _ => rfl
  | error e => cases e <;> first | rfl | contradiction

theorem specRun_cons_abort {op : Op α} {ops : List (Op α)} {d : Deque α}
    (hr : (Spec.step d op).ret = .error .abort) :
    Spec.run (op :: ops) d
      = ([.error .abort], (Spec.step d op).deque, (Spec.step d op).dropped) := by
  rw [Spec.run]
  generalize Spec.step d op = r at *
  rcases r with ⟨ret, dq, dr⟩
  simp only at hr
  subst hr; rfl

theorem step_sim {s : St α} {d : Deque α} (h : Rep s.cb d) (op : Op α) (hop : OpOk op) :
    ∃ cb', step op s
        = ((Spec.step d op).ret, ⟨cb', s.dropped ++ (Spec.step d op).dropped⟩) ∧
      Rep cb' (Spec.step d op).deque :=
  step_sim_wide h op hop.wide

theorem run_sim_wide : ∀ (ops : List (Op α)) {s : St α} {d : Deque α}, Rep s.cb d → (∀ op ∈ ops, OpWide op) →
    ∃ cb', run ops s = ((Spec.run ops d).1, ⟨cb', s.dropped ++ (Spec.run ops d).2.2⟩) ∧
      Rep cb' (Spec.run ops d).2.1
  | [], s, d, h, _ => ⟨s.cb, by simp [run, Spec.run], h⟩
  | op :: ops, s, d, h, hop => by
    obtain ⟨cb1, e1, r1⟩ := step_sim_wide h op (hop op (by simp))
    obtain ⟨cb2, e2, r2⟩ := run_sim_wide ops (s := ⟨cb1, s.dropped ++ (Spec.step d op).dropped⟩) r1
      (fun o ho => hop o (by simp [ho]))
    by_cases ha : (Spec.step d op).ret = .error .abort
    · rw [ha] at e1
      rw [run_cons_abort e1, specRun_cons_abort ha]
      exact ⟨cb1, rfl, r1⟩
    · rw [run_cons e1 ha, specRun_cons ha, e2]
      exact ⟨cb2, by simp, r2⟩

theorem run_sim (ops : List (Op α)) {s : St α} {d : Deque α} (h : Rep s.cb d) (hops : ∀ op ∈ ops, OpOk op) :
    ∃ cb', run ops s = ((Spec.run ops d).1, ⟨cb', s.dropped ++ (Spec.run ops d).2.2⟩) ∧
      Rep cb' (Spec.run ops d).2.1 :=
  run_sim_wide ops h fun op ho => (hops op ho).wide

/-! ## Construction -/

theorem withCapacity_rep_wide (hu : Elem.uninitOk α = true) {n : Nat} (hn : n ≤ isizeMax ∨ Wide α n) (hs : (n + 1) * Elem.size α ≤ isizeMax) :
    ∃ cb : Buf α, withCapacity n = .ok cb ∧ Rep cb ⟨n, []⟩ := by
  have h6 := two_isizeMax
  have hn' : n < usizeMax := by rcases hn with hn | ⟨_, _, hn⟩ <;> omega
  unfold withCapacity
  rw [uadd_ok (by omega)]
  simp only [bind, Except.bind]
  rw [show allocCheck α (n + 1) = .ok () by unfold allocCheck; rw [if_pos (by omega)], uninits_eq hu]
  refine ⟨_, rfl, ?_⟩
  simpa using Rep.fresh hu (items := []) hn (by simp)

theorem withCapacity_rep (hu : Elem.uninitOk α = true) {n : Nat} (hn : n ≤ isizeMax) (hs : (n + 1) * Elem.size α ≤ isizeMax) :
    ∃ cb : Buf α, withCapacity n = .ok cb ∧ Rep cb ⟨n, []⟩ := withCapacity_rep_wide hu (.inl hn) hs

theorem withCapacity_err {n : Nat} (hn : n < usizeMax) (hs : isizeMax < (n + 1) * Elem.size α) :
    (withCapacity n : Except Fault (Buf α)) = .error .capacityOverflow := by
  unfold withCapacity
  rw [uadd_ok (by omega)]
  simp only [bind, Except.bind]
  rw [show allocCheck α (n + 1) = .error .capacityOverflow by unfold allocCheck; rw [if_neg (by omega)]]

theorem fromList_rep (hu : Elem.uninitOk α = true) {items : List α} (hn : items.length ≤ isizeMax) :
    Rep ⟨items.map some ++ [none], 0, items.length⟩ ⟨items.length, items⟩ := by
  have := Rep.fresh hu (items := items) (.inl hn) (by simp)
  rw [show items.length + 1 - items.length = 1 by omega] at this
  exact this

theorem fromIter_rep (hu : Elem.uninitOk α = true) {items : List α} (hn : items.length ≤ isizeMax)
    (hs : (items.length + 1) * Elem.size α ≤ isizeMax) :
    ∃ cb : Buf α, fromIter items false = .ok cb ∧ Rep cb ⟨items.length, items⟩ := by
  have h6 := two_isizeMax
  have hs' : items.length * Elem.size α ≤ isizeMax :=
    Nat.le_trans (Nat.mul_le_mul_right _ (by omega)) hs
  unfold fromIter
  rw [show allocCheck α items.length = .ok () by unfold allocCheck; rw [if_pos (by omega)], uninit_eq hu,
    show allocCheck α (items.length + 1) = .ok () by unfold allocCheck; rw [if_pos (by omega)]]
  simp only [bind, Except.bind, Bool.false_eq_true, if_false]
  rw [usub_ok (by simp)]
  exact ⟨_, rfl, by simpa using fromList_rep hu hn⟩

theorem fromVec_rep (hu : Elem.uninitOk α = true) {items : List α} (hn : items.length ≤ isizeMax)
    (hs : (items.length + 1) * Elem.size α ≤ isizeMax) :
    ∃ cb : Buf α, fromVec items = .ok cb ∧ Rep cb ⟨items.length, items⟩ := by
  have h6 := two_isizeMax
  unfold fromVec
  rw [uninit_eq hu, show allocCheck α (items.length + 1) = .ok () by unfold allocCheck; rw [if_pos (by omega)]]
  exact ⟨_, rfl, by simpa using fromList_rep hu hn⟩

theorem mapM_clone (c : α → Except Fault α) (f : α → α) (hf : ∀ x, c x = .ok (f x)) (items : List α) :
    items.mapM c = .ok (items.map f) := by
  have : c = fun x => .ok (f x) := funext hf
  subst this
  exact List.mapM_pure (m := Except Fault) (l := items) (f := f)

theorem fromIterRef_rep (hu : Elem.uninitOk α = true) {items : List α} {c : α → Except Fault α} {f : α → α}
    (hf : ∀ x, c x = .ok (f x)) (hn : items.length ≤ isizeMax)
    (hs : (items.length + 1) * Elem.size α ≤ isizeMax) :
    ∃ cb : Buf α, fromIterRef c items = .ok cb ∧ Rep cb ⟨items.length, items.map f⟩ := by
  have h6 := two_isizeMax
  unfold fromIterRef
  rw [mapM_clone c f hf]
  simp only [bind, Except.bind, List.length_map]
  rw [uninit_eq hu]
  simp only
  rw [show allocCheck α (items.length + 1) = .ok () by unfold allocCheck; rw [if_pos (by omega)],
    usub_ok (by simp)]
  refine ⟨_, rfl, ?_⟩
  have := fromList_rep hu (items := items.map f) (by simpa using hn)
  simpa using this

/-! ## Two buffers -/

/-- `append` as specified: the items of `other` are taken from the front and pushed one by one; a panic
stops it, and the rest stays in `other`. -/
def Spec.append (d : Deque α) : List α → Spec.Result α Unit × List α
  | [] => (⟨.ok (), d, []⟩, [])
  | v :: vs =>
    let r := Spec.pushBack d v
    match r.ret with
    | .error e => (⟨.error e, r.deque, r.dropped⟩, vs)
    | .ok () =>
      let (r', rest) := Spec.append r.deque vs
      (⟨r'.ret, r'.deque, r.dropped ++ r'.dropped⟩, rest)

theorem appendLoop_sim (fuel : Nat) : ∀ {s : St2 α} {d o : Deque α}, Rep s.self d → Rep s.other o →
    o.items.length < fuel →
    ∃ cb' cb'', appendLoop fuel s = ((Spec.append d o.items).1.ret,
        ⟨cb', cb'', s.dropped ++ (Spec.append d o.items).1.dropped⟩) ∧
      Rep cb' (Spec.append d o.items).1.deque ∧
      Rep cb'' { o with items := (Spec.append d o.items).2 } := by
  induction fuel with
  | zero => intro s d o _ _ h; omega
  | succ fuel ih =>
    intro s d o hd ho hl
    obtain ⟨cb1, e1, r1⟩ := popFront_sim (s := ⟨s.other, s.dropped⟩) ho
    unfold appendLoop
    rw [M.bind_ok (a := o.items.head?) (s' := ⟨s.self, cb1, s.dropped⟩)
      (by unfold onOther drainNext; rw [e1])]
    cases hi : o.items with
    | nil =>
      refine ⟨s.self, cb1, by simp [Spec.append]; rfl, hd, ?_⟩
      simpa [hi, Spec.append] using r1
    | cons v vs =>
      rw [hi] at hl r1
      simp only [List.length_cons, List.tail_cons] at hl r1
      obtain ⟨cb2, e2, r2⟩ := pushBack_sim (s := ⟨s.self, s.dropped⟩) hd v
      simp only [List.head?_cons, Spec.append]
      cases hr : (Spec.pushBack d v).ret with
      | error e =>
        rw [hr] at e2
        rw [M.bind_error (e := e) (s' := ⟨cb2, cb1, s.dropped ++ (Spec.pushBack d v).dropped⟩)
          (by unfold onSelf; rw [e2])]
        exact ⟨cb2, cb1, rfl, r2, r1⟩
      | ok u =>
        rw [hr] at e2
        rw [M.bind_ok (a := u) (s' := ⟨cb2, cb1, s.dropped ++ (Spec.pushBack d v).dropped⟩)
          (by unfold onSelf; rw [e2])]
        obtain ⟨cb3, cb4, e3, r3, r4⟩ := ih (s := ⟨cb2, cb1, s.dropped ++ (Spec.pushBack d v).dropped⟩)
          r2 r1 (by simpa using hl)
        exact ⟨cb3, cb4, by simpa using e3, r3, r4⟩

theorem append_sim {s : St2 α} {d o : Deque α} (hd : Rep s.self d) (ho : Rep s.other o) :
    ∃ cb' cb'', append s = ((Spec.append d o.items).1.ret,
        ⟨cb', cb'', s.dropped ++ (Spec.append d o.items).1.dropped⟩) ∧
      Rep cb' (Spec.append d o.items).1.deque ∧
      Rep cb'' { o with items := (Spec.append d o.items).2 } :=
  appendLoop_sim _ hd ho (by have := ho.len_buf; have := ho.le_cap; omega)

theorem append_eq_extend (d : Deque α) : ∀ (vs : List α),
    (Spec.append d vs).1.ret = (Spec.extend d vs false).ret ∧
    (Spec.append d vs).1.deque = (Spec.extend d vs false).deque ∧
    (Spec.append d vs).1.dropped = (Spec.extend d vs false).dropped := by
  intro vs
  induction vs generalizing d with
  | nil => simp [Spec.append, Spec.extend, Spec.userIf]
  | cons v vs ih =>
    unfold Spec.append Spec.extend
    cases hr : (Spec.pushBack d v).ret with
    | error e => simp [hr]
    | ok u =>
      have := ih (Spec.pushBack d v).deque
      simp [this, hr]

end CB
