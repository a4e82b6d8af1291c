import Verif.DS.Props
/-!
# Histories continued, seen through `in_union` and `contains`
-/

open Rust
namespace DS

section
variable {T : Type} [DecidableEq T] [Cfg]

/-- `in_union(x, y)` answers true -/
def Together (k : Nat) (s : DSet T) (x y : T) : Prop := (DSet.inUnion k x y false false s).1 = .ok true

/-- `contains(x)` answers true -/
def Has (s : DSet T) (x : T) : Prop := (DSet.contains x false s).1 = .ok true

theorem Reached.together {k : Nat} {st : Start T} {ops : List (Op T)} {s : DSet T} {a : Abs T}
    (h : Reached k st ops s a) (x y : T) : Together k s x y ↔ a.Same x y := by
  obtain ⟨b, h1, h2⟩ := c56_in_union h x y
  rw [Together, h1, Abs.Same, ← h2]
  exact ⟨fun h => by cases h; rfl, fun h => by rw [h]⟩

theorem Reached.has {k : Nat} {st : Start T} {ops : List (Op T)} {s : DSet T} {a : Abs T}
    (h : Reached k st ops s a) (x : T) : Has s x ↔ x ∈ a.elems := by
  obtain ⟨b, h1, h2⟩ := (c57_contents h).1 x
  rw [Has, h1, ← h2]
  exact ⟨fun h => by cases h; rfl, fun h => by rw [h]⟩

/-- the call leads to another reached state -/
theorem Reached.after {k : Nat} {st : Start T} {ops : List (Op T)} {s : DSet T} {a : Abs T}
    (h : Reached k st ops s a) (later : List (Op T))
    (hm : ∀ pre, pre <+: later → (a.run pre).card ≤ usizeMax) :
    Reached k st (ops ++ later) (run k later s).2 (a.run later) := by
  obtain ⟨s0, m1, m2⟩ := h.made
  refine ⟨h.stack_ge, fun pre hp => ?_, ⟨s0, m1, ?_⟩, ?_⟩
  · rcases List.prefix_or_prefix_of_prefix hp (List.prefix_append ops later) with hq | hq
    · exact h.small pre hq
    · obtain ⟨zs, rfl⟩ := hq
      have := hm zs ((List.prefix_append_right_inj ops).mp hp)
      rw [h.abs] at this
      rw [Abs.run, List.foldl_append]; exact this
  · rw [run_append, ← m2]
  · rw [h.abs, Abs.run, Abs.run, Abs.run, List.foldl_append]

omit [DecidableEq T] [Cfg] in
/-- the elements and pairs only grow without `clear` -/
theorem abs_grows (later : List (Op T)) (hc : ∀ op ∈ later, op ≠ .clear) (a : Abs T) :
    (∀ x ∈ a.elems, x ∈ (a.run later).elems) ∧ ∀ p ∈ a.pairs, p ∈ (a.run later).pairs := by
  induction later generalizing a with
  | nil => exact ⟨fun _ h => h, fun _ h => h⟩
  | cons op ops ih =>
    have h1 : (∀ x ∈ a.elems, x ∈ (a.step op).elems) ∧ ∀ p ∈ a.pairs, p ∈ (a.step op).pairs := by
      cases op with
      | makeSet x kp => cases kp <;> simp +contextual [Abs.step]
      | union x y xp yp => cases xp <;> cases yp <;> simp +contextual [Abs.step]
      | clear => exact absurd rfl (hc _ List.mem_cons_self)
      | extend n c items p => cases c <;> simp +contextual [Abs.step]
      | extendRef n c items p => cases c <;> simp +contextual [Abs.step]
      | inUnion | contains | len | isEmpty | reserve | iterate => exact ⟨fun _ h => h, fun _ h => h⟩
    obtain ⟨h2, h3⟩ := ih (fun o ho => hc o (List.mem_cons_of_mem _ ho)) (a.step op)
    exact ⟨fun x hx => h2 x (h1.1 x hx), fun p hp => h3 p (h1.2 p hp)⟩

end
end DS
