import Verif.CB.Props
/-!
# Property theorem C84: element types that may not be left uninitialised
-/

set_option linter.unusedSectionVars false

open Rust
namespace CB

section
variable {α : Type} [Cfg] [Elem α]

/-- C84: if `mem::uninitialized` refuses the element type, no constructor returns a buffer (except
`with_capacity(usize::MAX)` in builds without overflow checks, whose backing slice has no slots at all),
whatever the items, so no call of the API can ever be made on one. -/
theorem c84_refused_types_have_no_buffers (hu : Elem.uninitOk α = false) :
    (∀ n, n < usizeMax ∨ Cfg.overflowChecks = true → ∃ e, (withCapacity n : Except Fault (Buf α)) = .error e) ∧
    (∀ items p, ∃ e, (fromIter items p : Except Fault (Buf α)) = .error e) ∧
    (∀ c items, ∃ e, (fromIterRef c items : Except Fault (Buf α)) = .error e) ∧
    (∀ items, ∃ e, (fromVec items : Except Fault (Buf α)) = .error e) ∧
    ∀ cb : Buf α, ¬ Reachable cb := by
  refine ⟨fun n hn => ?_, fromIter_refused hu, fromIterRef_refused hu, fromVec_refused hu, fun cb h => ?_⟩
  · by_cases h : n < usizeMax
    · exact withCapacity_refused hu h
    · unfold withCapacity uadd
      rw [if_neg (by omega), if_pos (by simpa [h] using hn)]
      exact ⟨_, rfl⟩
  · obtain ⟨d, r⟩ := h.rep
    rw [r.uninit_ok] at hu
    cases hu

/-- C84: the refusal is the only obstacle: such a type gets the refusal from every constructor that would
otherwise succeed, and any other type gets a buffer. -/
theorem c84_refusal_is_the_reason {n : Nat} {items : List α} (hn : n ≤ isizeMax)
    (hs : (n + 1) * Elem.size α ≤ isizeMax) (hi : items.length ≤ isizeMax)
    (his : (items.length + 1) * Elem.size α ≤ isizeMax) :
    (Elem.uninitOk α = false →
      (withCapacity n : Except Fault (Buf α)) = .error .uninitRefused ∧
      fromIter items false = .error .uninitRefused ∧
      fromIterRef .ok items = .error .uninitRefused ∧
      fromVec items = .error .uninitRefused) ∧
    (Elem.uninitOk α = true →
      (∃ cb : Buf α, withCapacity n = .ok cb) ∧ (∃ cb, fromIter items false = .ok cb) ∧
      (∃ cb, fromIterRef .ok items = .ok cb) ∧ ∃ cb, fromVec items = .ok cb) := by
  have h6 := two_isizeMax
  have ha : allocCheck α (n + 1) = .ok () := by unfold allocCheck; rw [if_pos (by omega)]
  have hb : allocCheck α items.length = .ok () := by
    unfold allocCheck
    rw [if_pos ⟨Nat.le_trans (Nat.mul_le_mul_right _ (by omega)) his, by omega⟩]
  refine ⟨fun hu => ⟨?_, ?_, ?_, ?_⟩, fun hu => ⟨?_, ?_, ?_, ?_⟩⟩
  · unfold withCapacity
    rw [uadd_ok (by omega)]
    simp [bind, Except.bind, ha, uninits_refused hu]
  · unfold fromIter
    rw [hb, uninit_refused hu]
    rfl
  · unfold fromIterRef
    rw [mapM_clone .ok id (fun _ => rfl), uninit_refused hu]
    rfl
  · unfold fromVec
    rw [uninit_refused hu]
    rfl
  · obtain ⟨cb, h, _⟩ := withCapacity_rep hu hn hs; exact ⟨cb, h⟩
  · obtain ⟨cb, h, _⟩ := fromIter_rep hu hi his; exact ⟨cb, h⟩
  · obtain ⟨cb, h, _⟩ := fromIterRef_rep hu (c := .ok) (f := id) (fun _ => rfl) hi his; exact ⟨cb, h⟩
  · obtain ⟨cb, h, _⟩ := fromVec_rep hu hi his; exact ⟨cb, h⟩

end

-- a type of 24-byte strings, refused by the toolchain
open Demo in
example : @Elem.uninitOk String ⟨24, fun _ => false, false⟩ = false ∧ 4 ≤ isizeMax ∧
    (4 + 1) * @Elem.size String ⟨24, fun _ => false, false⟩ ≤ isizeMax :=
  ⟨rfl, by decide, by decide⟩

-- the exception: a build without overflow checks
example := @c21_new_usize_max_unchecked String ⟨64, false, false, by decide, by decide⟩
  ⟨24, fun _ => false, false⟩ rfl "a" []

end CB
