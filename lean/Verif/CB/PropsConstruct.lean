import Verif.CB.Props
import Verif.CB.Place
/-!
# Property theorem C85: what becomes of the items when a construction is refused
-/

set_option linter.unusedSectionVars false

open Rust
namespace CB

section
variable {α : Type} [Cfg] [Elem α]

/-- C85 is false of the code: for every element type that has a destructor and a size, there is a vector that
`std` allows but whose conversion is undefined behaviour: the conversion needs one more slot, is refused, and
drops the uninitialised value it was about to push. -/
theorem c85_from_full_vec_is_ub (hu : Elem.uninitOk α = true) (h0 : 0 < Elem.size α)
    (h1 : Elem.size α ≤ isizeMax) (x : α) (log : List α) :
    ∃ v : List α, v ≠ [] ∧ v.length * Elem.size α ≤ isizeMax ∧ (fromVecLog true v log).1 = .error .ub := by
  refine ⟨List.replicate (isizeMax / Elem.size α) x, ?_, ?_, ?_⟩
  · have := Nat.div_pos h1 h0
    intro h
    have := congrArg List.length h
    simp at this
    omega
  · rw [List.length_replicate]; exact Nat.div_mul_le_self _ _
  · have hlt : isizeMax < (isizeMax / Elem.size α + 1) * Elem.size α := by
      have := Nat.lt_div_mul_add h0 (a := isizeMax)
      rw [Nat.add_mul, Nat.one_mul]; exact this
    have hf : fromVec (List.replicate (isizeMax / Elem.size α) x) = .error .capacityOverflow := by
      unfold fromVec
      rw [uninit_eq hu]
      simp only [bind, Except.bind]
      unfold allocCheck
      rw [List.length_replicate, if_neg (by omega)]
    unfold fromVecLog
    rw [hf]
    rfl

theorem dropVec_unwinding (hd : ∀ x : α, Elem.dropPanics x = false) (v log : List α) :
    dropVec dropUnwinding v log = (.ok (), log ++ v) := by
  induction v generalizing log with
  | nil => simp [dropVec, pure]
  | cons x v ih =>
    show (dropUnwinding x >>= fun _ => dropVec dropUnwinding v) log = _
    have : dropUnwinding x log = (.ok (), log ++ [x]) := by unfold dropUnwinding; rw [hd]; rfl
    rw [M.bind_ok this, ih, List.append_assoc]
    rfl

/-- C85, partial: a conversion from a vector that has room for its spare slot drops nothing; if the room is
refused and the elements need no destructor, it panics and every item is released exactly once; the same when
the toolchain refuses the element type. Missing: refused room for elements with a destructor, where
`c85_from_full_vec_is_ub` shows undefined behaviour. -/
theorem c85_from_vec_partial (v log : List α) (glue : Bool) (hd : ∀ x : α, Elem.dropPanics x = false) :
    (Elem.uninitOk α = true → (v.length + 1) * Elem.size α ≤ isizeMax → v.length ≤ isizeMax →
      ∃ cb, fromVecLog glue v log = (.ok cb, log) ∧ cb.contents = .ok v) ∧
    (Elem.uninitOk α = true → isizeMax < (v.length + 1) * Elem.size α → glue = false →
      fromVecLog glue v log = (.error .capacityOverflow, log ++ v)) ∧
    (Elem.uninitOk α = false → fromVecLog glue v log = (.error .uninitRefused, log ++ v)) := by
  refine ⟨fun hu h1 h2 => ?_, fun hu h1 hg => ?_, fun hu => ?_⟩
  · obtain ⟨cb, h, r⟩ := fromVec_rep hu h2 h1
    refine ⟨cb, ?_, r.contents_eq⟩
    unfold fromVecLog
    rw [h]; rfl
  · have hf : fromVec v = .error .capacityOverflow := by
      unfold fromVec
      rw [uninit_eq hu]
      simp only [bind, Except.bind]
      unfold allocCheck
      rw [if_neg (by omega)]
    unfold fromVecLog
    rw [hf, hg]
    show (dropVec dropUnwinding v >>= fun _ => M.throw .capacityOverflow) log = _
    rw [M.bind_ok (dropVec_unwinding hd v log)]
    rfl
  · have hf : fromVec v = .error .uninitRefused := by
      unfold fromVec
      rw [uninit_refused hu]; rfl
    unfold fromVecLog
    rw [hf]
    show (dropVec dropUnwinding v >>= fun _ => M.throw .uninitRefused) log = _
    rw [M.bind_ok (dropVec_unwinding hd v log)]
    rfl

/-- C85: the other constructors are never undefined behaviour, whatever is refused and whatever panics. -/
theorem c85_other_constructors_only_panic (items log : List α) (panics : Bool) (c : α → Except Fault α)
    (hc : ∀ x e, c x = .error e → e = .user) (n : Nat) (e : Fault) :
    ((withCapacity n : Except Fault (Buf α)) = .error e →
      e = .overflow ∨ e = .capacityOverflow ∨ e = .uninitRefused) ∧
    ((fromIterLog items panics log).1 = .error e →
      e = .capacityOverflow ∨ e = .uninitRefused ∨ (panics = true ∧ e = .user)) ∧
    ((fromIterRefLog c items log).1 = .error e →
      e = .capacityOverflow ∨ e = .uninitRefused ∨ ((∃ x ∈ items, c x = .error .user) ∧ e = .user)) := by
  have ha : ∀ {n e}, allocCheck α n = .error e → e = .capacityOverflow := by
    intro n e h; unfold allocCheck at h; split at h <;> cases h; rfl
  have hu : ∀ {e}, uninit α = .error e → e = .uninitRefused := by
    intro e h; unfold uninit at h; split at h <;> cases h; rfl
  have hus : ∀ {k e}, uninits α k = .error e → e = .uninitRefused := by
    intro k e h
    cases hu : Elem.uninitOk α with
    | true => rw [uninits_eq hu] at h; cases h
    | false =>
      cases k with
      | zero => cases h
      | succ k => rw [uninits_refused hu] at h; cases h; rfl
  have hsub : ∀ {xs : List α} {o : Option α}, ∃ k, usub (xs.map some ++ [o]).length 1 = .ok k := by
    intro xs o
    refine ⟨xs.length, ?_⟩
    unfold usub
    simp
  have hmap : ∀ {l : List α} {e}, l.mapM c = .error e → (∃ x ∈ l, c x = .error .user) ∧ e = .user := by
    intro l
    induction l with
    | nil => intro e h; cases h
    | cons x l ih =>
      intro e h
      rw [List.mapM_cons] at h
      cases hx : c x with
      | error e' =>
        rw [hx] at h; cases h
        have := hc x _ hx
        subst this
        exact ⟨⟨x, by simp, hx⟩, rfl⟩
      | ok y =>
        rw [hx] at h
        cases hl : l.mapM c with
        | ok ys => rw [hl] at h; cases h
        | error e' =>
          rw [hl] at h; cases h
          obtain ⟨⟨z, hz, hcz⟩, he⟩ := ih hl
          exact ⟨⟨z, by simp [hz], hcz⟩, he⟩
  rw [fromIterLog_eq, fromIterRefLog_eq]
  refine ⟨fun h => ?_, fun h => ?_, fun h => ?_⟩
  · unfold withCapacity at h
    cases h1 : uadd n 1 with
    | error e' =>
      rw [h1] at h; cases h
      unfold uadd at h1
      split at h1
      · cases h1
      · split at h1 <;> cases h1
        exact Or.inl rfl
    | ok k =>
      rw [h1] at h
      simp only [bind, Except.bind] at h
      cases h2 : allocCheck α k with
      | error e' => rw [h2] at h; cases h; exact Or.inr (Or.inl (ha h2))
      | ok _ =>
        rw [h2] at h
        simp only at h
        cases h3 : uninits α k with
        | error e' => rw [h3] at h; cases h; exact Or.inr (Or.inr (hus h3))
        | ok b => rw [h3] at h; cases h
  · unfold fromIter at h
    cases h1 : allocCheck α items.length with
    | error e' => rw [h1] at h; cases h; exact Or.inl (ha h1)
    | ok _ =>
      rw [h1] at h
      cases panics with
      | true => cases h; exact Or.inr (Or.inr ⟨rfl, rfl⟩)
      | false =>
        cases h2 : uninit α with
        | error e' => rw [h2] at h; cases h; exact Or.inr (Or.inl (hu h2))
        | ok o =>
          rw [h2] at h
          cases h3 : allocCheck α (items.length + 1) with
          | error e' => rw [h3] at h; cases h; exact Or.inl (ha h3)
          | ok _ =>
            obtain ⟨k, hk⟩ := @hsub items o
            rw [h3] at h
            simp only [bind, Except.bind, hk] at h
            cases h
  · unfold fromIterRef at h
    cases h1 : items.mapM c with
    | error e' => rw [h1] at h; cases h; exact Or.inr (Or.inr (hmap h1))
    | ok xs =>
      rw [h1] at h
      cases h2 : uninit α with
      | error e' => rw [h2] at h; cases h; exact Or.inr (Or.inl (hu h2))
      | ok o =>
        rw [h2] at h
        cases h3 : allocCheck α (xs.length + 1) with
        | error e' =>
          simp only [bind, Except.bind, h3] at h; cases h; exact Or.inl (ha h3)
        | ok _ =>
          obtain ⟨k, hk⟩ := @hsub xs o
          simp only [bind, Except.bind, h3, hk] at h
          cases h

end

-- a 32-bit target and elements with a destructor, four bytes each: a vector of nearly 2 GiB
example : ∃ v : List Nat, v ≠ [] ∧ v.length * 4 ≤ 2 ^ 31 - 1 ∧
    (@fromVecLog Nat ⟨32, true, true, by decide, by decide⟩ ⟨4, fun _ => false, true⟩ true v []).1 = .error .ub :=
  @c85_from_full_vec_is_ub Nat ⟨32, true, true, by decide, by decide⟩ ⟨4, fun _ => false, true⟩ rfl (by decide)
    (by decide) 0 []

-- both refusals, and room
example : @fromVecLog Nat ⟨32, true, true, by decide, by decide⟩ ⟨2 ^ 30, fun _ => false, true⟩ false [7] [] =
      (.error .capacityOverflow, [7]) ∧
    @fromVecLog Nat ⟨32, true, true, by decide, by decide⟩ ⟨4, fun _ => false, false⟩ true [7, 8] [] =
      (.error .uninitRefused, [7, 8]) ∧
    @fromVecLog Nat ⟨32, true, true, by decide, by decide⟩ ⟨4, fun _ => false, true⟩ true [7, 8] [] =
      (.ok ⟨[some 7, some 8, none], 0, 2⟩, []) := ⟨rfl, rfl, rfl⟩

-- every way in which the other constructors fail
open Demo in
example : (withCapacity (2 ^ 62) : Except Fault (Buf Nat)) = .error .capacityOverflow ∧
    (withCapacity (2 ^ 64 - 1) : Except Fault (Buf Nat)) = .error .overflow ∧
    (fromIterLog [1, 2] true []).1 = .error .user ∧
    (fromIterRefLog (fun n : Nat => if n = 2 then .error .user else .ok n) [1, 2] []).1 = .error .user :=
  ⟨rfl, rfl, rfl, rfl⟩

end CB
