import Verif.CB.Refine
/-!
# Reachable buffers, and the specification when no destructor panics
-/

set_option linter.unusedSectionVars false

open Rust
namespace CB
open Spec (Deque)

variable {α : Type} [Cfg] [Elem α]

/-- Capacities below the end of the address space. For a sized element type this is every capacity but
`usize::MAX`; for a zero-sized one every capacity up to `isize::MAX`. -/
def CapOk (α : Type) [Elem α] (n : Nat) : Prop :=
  n ≤ isizeMax ∨ (0 < Elem.size α ∧ n < usizeMax)

/-- The buffers a client can get hold of through the API, including those left behind by caught panics.
Constructors and `resize` are limited by `CapOk`. -/
inductive Reachable : Buf α → Prop where
  | withCapacity {n : Nat} {cb : Buf α} : CapOk α n → withCapacity n = .ok cb → Reachable cb
  | fromIter {items : List α} {cb : Buf α} :
      CapOk α items.length → fromIter items false = .ok cb → Reachable cb
  | fromIterRef {c : α → Except Fault α} {items : List α} {cb : Buf α} :
      CapOk α items.length → fromIterRef c items = .ok cb → Reachable cb
  | fromVec {items : List α} {cb : Buf α} :
      CapOk α items.length → fromVec items = .ok cb → Reachable cb
  | step {cb : Buf α} (op : Op α) (dr : List α) :
      Reachable cb → OpOk op → Reachable (step op ⟨cb, dr⟩).2.cb
  | appendSelf {a b : Buf α} (dr : List α) :
      Reachable a → Reachable b → Reachable (append ⟨a, b, dr⟩).2.self
  | appendOther {a b : Buf α} (dr : List α) :
      Reachable a → Reachable b → Reachable (append ⟨a, b, dr⟩).2.other
  | cloneBitwise {cb : Buf α} : Reachable cb → Reachable cb.cloneBitwise

/-! A refused type has no buffers. -/

theorem withCapacity_refused (hu : Elem.uninitOk α = false) {n : Nat} (hn : n < usizeMax) :
    ∃ e, (withCapacity n : Except Fault (Buf α)) = .error e := by
  unfold withCapacity
  rw [uadd_ok (by omega)]
  cases h : allocCheck α (n + 1) with
  | error e => exact ⟨e, by simp [bind, Except.bind, h]⟩
  | ok u => exact ⟨.uninitRefused, by simp [bind, Except.bind, h, uninits_refused hu]⟩

theorem fromIter_refused (hu : Elem.uninitOk α = false) (items : List α) (p : Bool) :
    ∃ e, fromIter items p = .error e := by
  unfold fromIter
  rw [uninit_refused hu]
  cases h : allocCheck α items.length with
  | error e => exact ⟨e, rfl⟩
  | ok u => cases p <;> exact ⟨_, rfl⟩

theorem fromVec_refused (hu : Elem.uninitOk α = false) (items : List α) : ∃ e, fromVec items = .error e := by
  unfold fromVec
  rw [uninit_refused hu]
  exact ⟨_, rfl⟩

theorem fromIterRef_refused (hu : Elem.uninitOk α = false) (c : α → Except Fault α) (items : List α) :
    ∃ e, fromIterRef c items = .error e := by
  unfold fromIterRef
  rw [uninit_refused hu]
  cases h : items.mapM c with
  | error e => exact ⟨e, rfl⟩
  | ok xs => exact ⟨_, rfl⟩

theorem withCapacity_ok {n : Nat} {cb : Buf α} (hc : CapOk α n) (h : withCapacity n = .ok cb) :
    Rep cb ⟨n, []⟩ := by
  have h6 := two_isizeMax
  by_cases hs : (n + 1) * Elem.size α ≤ isizeMax
  · have hu : Elem.uninitOk α = true := by
      cases hu : Elem.uninitOk α with
      | true => rfl
      | false =>
        obtain ⟨e, he⟩ := withCapacity_refused hu (n := n) (by rcases hc with hc | hc <;> omega)
        rw [he] at h; cases h
    have hn : n ≤ isizeMax := by
      rcases hc with hc | ⟨hz, _⟩
      · exact hc
      · have : (n + 1) * 1 ≤ (n + 1) * Elem.size α := Nat.mul_le_mul_left _ hz
        omega
    obtain ⟨cb', e, r⟩ := withCapacity_rep hu hn hs
    rw [h] at e; cases e; exact r
  · rw [withCapacity_err (α := α) (by rcases hc with hc | hc <;> omega) (by omega)] at h
    cases h

theorem alloc_fits {n : Nat} (hc : CapOk α n) (h : allocCheck α (n + 1) = .ok ()) :
    n ≤ isizeMax ∧ (n + 1) * Elem.size α ≤ isizeMax := by
  unfold allocCheck at h
  split at h
  · rename_i h'
    refine ⟨?_, h'.1⟩
    rcases hc with hc | ⟨hz, _⟩
    · exact hc
    · have : (n + 1) * 1 ≤ (n + 1) * Elem.size α := Nat.mul_le_mul_left _ hz
      omega
  · cases h

theorem fromIter_ok {items : List α} {cb : Buf α} (hc : CapOk α items.length)
    (h : fromIter items false = .ok cb) : Rep cb ⟨items.length, items⟩ := by
  have hu : Elem.uninitOk α = true := by
    cases hu : Elem.uninitOk α with
    | true => rfl
    | false => obtain ⟨e, he⟩ := fromIter_refused hu items false; rw [he] at h; cases h
  have ha : allocCheck α (items.length + 1) = .ok () := by
    unfold fromIter at h
    rw [uninit_eq hu] at h
    cases h1 : allocCheck α items.length with
    | error e => rw [h1] at h; cases h
    | ok u =>
      cases h2 : allocCheck α (items.length + 1) with
      | ok u => rfl
      | error e => rw [h1, h2] at h; cases h
  obtain ⟨h1, h2⟩ := alloc_fits hc ha
  obtain ⟨cb', e, r⟩ := fromIter_rep hu h1 h2
  rw [h] at e; cases e; exact r

theorem fromVec_ok {items : List α} {cb : Buf α} (hc : CapOk α items.length)
    (h : fromVec items = .ok cb) : Rep cb ⟨items.length, items⟩ := by
  have hu : Elem.uninitOk α = true := by
    cases hu : Elem.uninitOk α with
    | true => rfl
    | false => obtain ⟨e, he⟩ := fromVec_refused hu items; rw [he] at h; cases h
  have ha : allocCheck α (items.length + 1) = .ok () := by
    unfold fromVec at h
    rw [uninit_eq hu] at h
    cases h2 : allocCheck α (items.length + 1) with
    | ok u => rfl
    | error e => rw [h2] at h; cases h
  obtain ⟨h1, h2⟩ := alloc_fits hc ha
  obtain ⟨cb', e, r⟩ := fromVec_rep hu h1 h2
  rw [h] at e; cases e; exact r

theorem mapM_length (c : α → Except Fault α) : ∀ (items xs : List α), items.mapM c = .ok xs →
    xs.length = items.length
  | [], xs, h => by simp [pure, Except.pure] at h; simp [← h]
  | x :: items, xs, h => by
    rw [List.mapM_cons] at h
    cases hx : c x with
    | error e => rw [hx] at h; cases h
    | ok y =>
      cases hr : items.mapM c with
      | error e => rw [hx, hr] at h; cases h
      | ok ys =>
        rw [hx, hr] at h
        cases h
        simp [mapM_length c items ys hr]

theorem fromIterRef_ok {items : List α} {c : α → Except Fault α} {cb : Buf α}
    (hc : CapOk α items.length) (h : fromIterRef c items = .ok cb) :
    ∃ xs, items.mapM c = .ok xs ∧ Rep cb ⟨items.length, xs⟩ := by
  cases hx : items.mapM c with
  | error e => unfold fromIterRef at h; rw [hx] at h; cases h
  | ok xs =>
    refine ⟨xs, rfl, ?_⟩
    have hl := mapM_length c _ _ hx
    have hu : Elem.uninitOk α = true := by
      cases hu : Elem.uninitOk α with
      | true => rfl
      | false => obtain ⟨e, he⟩ := fromIterRef_refused hu c items; rw [he] at h; cases h
    unfold fromIterRef at h; rw [hx, uninit_eq hu] at h
    simp only [bind, Except.bind] at h
    have ha : allocCheck α (items.length + 1) = .ok () := by
      cases h2 : allocCheck α (items.length + 1) with
      | ok u => rfl
      | error e => rw [hl, h2] at h; cases h
    obtain ⟨h1, h2⟩ := alloc_fits hc ha
    rw [hl, ha] at h
    simp only at h
    rw [usub_ok (by simp)] at h
    cases h
    have := fromList_rep hu (items := xs) (by omega)
    rw [← hl]
    simpa using this

/-- Every reachable buffer represents some deque. -/
theorem Reachable.rep {cb : Buf α} (h : Reachable cb) : ∃ d, Rep cb d := by
  induction h with
  | withCapacity hc h => exact ⟨_, withCapacity_ok hc h⟩
  | fromIter hc h => exact ⟨_, fromIter_ok hc h⟩
  | fromIterRef hc h => obtain ⟨xs, _, r⟩ := fromIterRef_ok hc h; exact ⟨_, r⟩
  | fromVec hc h => exact ⟨_, fromVec_ok hc h⟩
  | @step cb op dr _ hop ih =>
    obtain ⟨d, r⟩ := ih
    obtain ⟨cb', e, r'⟩ := step_sim (s := ⟨cb, dr⟩) r op hop
    rw [e]; exact ⟨_, r'⟩
  | @appendSelf a b dr _ _ ih1 ih2 =>
    obtain ⟨d, r⟩ := ih1
    obtain ⟨o, r2⟩ := ih2
    obtain ⟨cb', cb'', e, r', _⟩ := append_sim (s := ⟨a, b, dr⟩) r r2
    rw [e]; exact ⟨_, r'⟩
  | @appendOther a b dr _ _ ih1 ih2 =>
    obtain ⟨d, r⟩ := ih1
    obtain ⟨o, r2⟩ := ih2
    obtain ⟨cb', cb'', e, _, r'⟩ := append_sim (s := ⟨a, b, dr⟩) r r2
    rw [e]; exact ⟨_, r'⟩
  | cloneBitwise _ ih => exact ih

/-- The deque a reachable buffer represents is determined by what the API shows. -/
theorem Reachable.rep_of {cb : Buf α} (h : Reachable cb) {xs : List α} {n : Nat}
    (hx : cb.contents = .ok xs) (hn : cb.capacity = .ok n) : Rep cb ⟨n, xs⟩ := by
  obtain ⟨d, r⟩ := h.rep
  rw [r.contents_eq] at hx; rw [r.capacity_eq] at hn
  cases d; cases hx; cases hn; exact r

theorem Reachable.shows {cb : Buf α} (h : Reachable cb) :
    ∃ xs n, cb.contents = .ok xs ∧ cb.capacity = .ok n ∧ xs.length ≤ n ∧ Rep cb ⟨n, xs⟩ := by
  obtain ⟨d, r⟩ := h.rep
  exact ⟨d.items, d.cap, r.contents_eq, r.capacity_eq, r.le_cap, r⟩

theorem Reachable.run {cb : Buf α} (h : Reachable cb) (ops : List (Op α))
    (hops : ∀ op ∈ ops, OpOk op) (dr : List α) : Reachable (run ops ⟨cb, dr⟩).2.cb := by
  induction ops generalizing cb dr with
  | nil => exact h
  | cons op ops ih =>
    have hs := Reachable.step op dr h (hops op (by simp))
    rcases hst : CB.step op ⟨cb, dr⟩ with ⟨r, s'⟩
    rw [hst] at hs
    by_cases ha : r = .error .abort
    · subst ha; rw [run_cons_abort hst]; exact hs
    · rw [run_cons hst ha]
      exact ih hs (fun o ho => hops o (by simp [ho])) s'.dropped

/-! ## The specification when no destructor panics -/
section calm

theorem dropSeq_calm : ∀ (l : List α), (∀ x ∈ l, Elem.dropPanics x = false) →
    Spec.dropSeq l = (l, [], false)
  | [], _ => rfl
  | x :: xs, h => by
    unfold Spec.dropSeq
    rw [dropSeq_calm xs (fun y hy => h y (by simp [hy]))]
    simp [h x (by simp)]

theorem dropSeq_append : ∀ (l : List α), (Spec.dropSeq l).1 ++ (Spec.dropSeq l).2.1 = l
  | [] => rfl
  | x :: xs => by
    unfold Spec.dropSeq
    by_cases hp : Elem.dropPanics x = true
    · simp [hp]
    · simp [hp, dropSeq_append xs]

theorem pushBack_calm {d : Deque α} {v : α} (hl : d.items.length ≤ d.cap)
    (h : ∀ x ∈ d.items ++ [v], Elem.dropPanics x = false) :
    Spec.pushBack d v = ⟨.ok (), { d with items := lastN d.cap (d.items ++ [v]) },
      (d.items ++ [v]).take ((d.items ++ [v]).length - d.cap)⟩ := by
  unfold Spec.pushBack lastN
  have hv := h v (by simp)
  by_cases h0 : d.cap = 0
  · have : d.items = [] := List.length_eq_zero_iff.mp (by omega)
    rcases d with ⟨cap, items⟩
    simp only at h0 this
    subst h0 this
    simp [Spec.userIf, hv]
  · by_cases hlt : d.items.length < d.cap
    · have : d.items.length + 1 - d.cap = 0 := by omega
      simp [h0, hlt, this]
    · have he : d.items.length + 1 - d.cap = 1 := by omega
      cases hd : d.items with
      | nil => rw [hd] at hlt; simp at hlt; omega
      | cons x xs =>
        have hx := h x (by simp [hd])
        rw [hd] at hlt he
        simp only [List.length_cons] at hlt he
        simp [h0, hlt, hx, he]

theorem pushFront_calm {d : Deque α} {v : α} (hl : d.items.length ≤ d.cap)
    (h : ∀ x ∈ v :: d.items, Elem.dropPanics x = false) :
    Spec.pushFront d v = ⟨.ok (), { d with items := (v :: d.items).take d.cap },
      (v :: d.items).drop d.cap⟩ := by
  unfold Spec.pushFront
  have hv := h v (by simp)
  by_cases h0 : d.cap = 0
  · have : d.items = [] := List.length_eq_zero_iff.mp (by omega)
    rcases d with ⟨cap, items⟩
    simp only at h0 this
    subst h0 this
    simp [Spec.userIf, hv]
  · by_cases hlt : d.items.length < d.cap
    · rw [List.take_of_length_le (by simp; omega), List.drop_eq_nil_of_le (by simp; omega)]
      simp [h0, hlt]
    · have he : d.cap = d.items.length := by omega
      rcases List.eq_nil_or_concat d.items with hd | ⟨xs, x, hd⟩
      · rw [hd] at he; simp at he; omega
      · rw [List.concat_eq_append] at hd
        have hx := h x (by simp [hd])
        have hla : (xs ++ [x]).getLast? = some x := by simp
        have hdl : (xs ++ [x]).dropLast = xs := by simp
        have hlt' : ¬ (xs ++ [x]).length < d.cap := by rw [← hd]; exact hlt
        have hcap : d.cap = xs.length + 1 := by rw [he, hd]; simp
        simp only [hd, hla, hdl, h0, hlt', if_false, hx, Bool.false_eq_true]
        rw [hcap]; simp

theorem lastN_length {n : Nat} {l : List α} : (lastN n l).length = min n l.length := by
  unfold lastN; simp; omega

theorem lastN_append_lastN (n : Nat) (l m : List α) : lastN n (lastN n l ++ m) = lastN n (l ++ m) := by
  unfold lastN
  rw [← List.drop_append_of_le_length (by omega), List.drop_drop]
  congr 1
  simp; omega

theorem extend_calm (vs : List α) : ∀ {d : Deque α}, d.items.length ≤ d.cap →
    (∀ x ∈ d.items ++ vs, Elem.dropPanics x = false) →
    ∀ p, Spec.extend d vs p = ⟨Spec.userIf p, { d with items := lastN d.cap (d.items ++ vs) },
      (d.items ++ vs).take ((d.items ++ vs).length - d.cap)⟩ := by
  induction vs with
  | nil =>
    intro d hl _ p
    have : d.items.length - d.cap = 0 := by omega
    simp [Spec.extend, lastN, this]
  | cons v vs ih =>
    intro d hl h p
    have hp := pushBack_calm (v := v) hl (fun x hx => h x (by simp only [List.mem_append, List.mem_cons, List.not_mem_nil, or_false] at hx ⊢; rcases hx with h | h <;> simp [h]))
    unfold Spec.extend
    rw [hp]
    simp only
    rw [ih (d := { d with items := lastN d.cap (d.items ++ [v]) }) (by simp only [lastN_length]; omega)
      (fun x hx => h x (by
        simp only [List.mem_append] at hx ⊢
        rcases hx with hx | hx
        · have := List.mem_of_mem_drop hx; simp at this; rcases this with h | h <;> simp [h]
        · simp [hx]))]
    simp only [lastN_append_lastN]
    have e : d.items ++ [v] ++ vs = d.items ++ v :: vs := by simp
    rw [e]
    congr 1
    -- the dropped values
    unfold lastN
    rw [← List.drop_append_of_le_length (by omega), e,
      ← List.take_append_of_le_length (l₂ := vs) (by omega), e, ← List.take_add]
    congr 1
    simp; omega

/-- Emptying stops at the first panicking destructor. -/
theorem dropSeq_panic : ∀ (l : List α) (x : α) (r : List α), (∀ y ∈ l, Elem.dropPanics y = false) →
    Elem.dropPanics x = true → Spec.dropSeq (l ++ x :: r) = (l ++ [x], r, true)
  | [], x, r, _, hx => by simp [Spec.dropSeq, hx]
  | y :: l, x, r, h, hx => by
    have := dropSeq_panic l x r (fun z hz => h z (by simp [hz])) hx
    simp [Spec.dropSeq, h y (by simp), this]

theorem clear_panic {n : Nat} {pre post : List α} {x : α} (h : ∀ y ∈ post, Elem.dropPanics y = false)
    (hx : Elem.dropPanics x = true) :
    Spec.clear ⟨n, pre ++ x :: post⟩ = ⟨.error .user, ⟨n, pre⟩, post.reverse ++ [x]⟩ := by
  unfold Spec.clear
  have e : (pre ++ x :: post).reverse = post.reverse ++ x :: pre.reverse := by simp
  simp only [e]
  rw [dropSeq_panic _ x _ (by simpa using h) hx]
  simp [Spec.userIf]

theorem clear_calm {d : Deque α} (h : ∀ x ∈ d.items, Elem.dropPanics x = false) :
    Spec.clear d = ⟨.ok (), { d with items := [] }, d.items.reverse⟩ := by
  unfold Spec.clear
  rw [dropSeq_calm _ (by simpa using h)]
  simp [Spec.userIf]

end calm
end CB
