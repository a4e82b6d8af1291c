import Verif.CB.LemmasWorld
/-!
# C126: no value is lost or doubled in a program with many buffers
-/

open Rust
namespace CB
section
variable {α : Type} [Cfg] [Elem α]

/-- **C126.** Whatever a program does with any number of buffers, also when destructors panic: what was stored plus what the
program gave away is exactly what it got back, plus what was dropped, plus what is still stored in some buffer, plus what was
left in a buffer whose destruction was cut short by a panic. All buffers stay sound. If no destructor panics, nothing is
left behind. -/
theorem c126_conservation {w w' : World α} {log : List (Event α × Except Fault (Out α))}
    (hw : ∀ b ∈ w.bufs, Reachable b) (h : Exec w log w') :
    (∀ b ∈ w'.bufs, Reachable b) ∧ ∃ given dropped leaked, Given log given ∧ w'.dropped = w.dropped ++ dropped ∧
      w'.leaked = w.leaked ++ leaked ∧
      (w.stored ++ given).Perm (gotten log ++ dropped ++ leaked ++ w'.stored) ∧
      ((∀ x : α, Elem.dropPanics x = false) → leaked = []) := by
  classical
  induction h with
  | nil => exact ⟨hw, [], [], [], .nil, by simp, by simp, by simp [gotten], fun _ => rfl⟩
  | @cons w w1 w2 e r log h1 _ ih =>
    obtain ⟨a1, g1, d1, l1, b1, b2, b3, b4, b5⟩ := happens_facts hw h1
    obtain ⟨a2, g2, d2, l2, c1, c2, c3, c4, c5⟩ := ih a1
    refine ⟨a2, g1 ++ g2, d1 ++ d2, l1 ++ l2, .cons b1 c1, by rw [c2, b2, List.append_assoc],
      by rw [c3, b3, List.append_assoc], ?_, fun hc => by rw [b5 hc, c5 hc]; rfl⟩
    rw [List.perm_iff_count] at b4 c4 ⊢
    intro x
    have e1 := b4 x
    have e2 := c4 x
    simp only [gotten, List.flatMap_cons, List.count_append] at e1 e2 ⊢
    omega

/-- **C126 (each value once).** If the values that a program stores are different objects, then at no time is one of them
in two buffers, twice in one, stored although it was dropped or given back, or dropped twice. -/
theorem c126_nothing_twice {w : World α} {log : List (Event α × Except Fault (Out α))} (h : Exec ⟨[], [], []⟩ log w) :
    ∃ given, Given log given ∧ (given.Nodup → (gotten log ++ w.dropped ++ w.leaked ++ w.stored).Nodup) ∧
      ((∀ x : α, Elem.dropPanics x = false) → w.bufs = [] → given.Perm (gotten log ++ w.dropped)) := by
  obtain ⟨_, given, dropped, leaked, h1, h2, h3, h4, h5⟩ := c126_conservation (by simp) h
  rw [List.nil_append] at h2 h3
  rw [← h2, ← h3] at h4
  refine ⟨given, h1, fun hn => h4.nodup_iff.mp hn, fun hc hb => ?_⟩
  have h6 : w.stored = [] := by unfold World.stored; rw [hb]; rfl
  rw [h6, h3, h5 hc] at h4
  simpa [World.stored] using h4

end

/-! ## A program that meets the hypotheses -/

section
open Demo

deriving instance DecidableEq for Except

/-- The events: all elements of the second buffer move to the first one, a call of the first one panics in the destructor of
the evicted element, the second buffer takes over what the first one has kept, and is dropped. -/
def Demo.story : List (Event Nat × Except Fault (Out Nat)) :=
  [(.append 0 1, .ok .unit), (.call 0 (.pushBack 6), .error .user), (.absorb 1 0, .ok .unit), (.drop 0, .ok .unit)]

example : (∀ b ∈ [Demo.buf, Demo.bomb], Reachable b) ∧
    Exec ⟨[Demo.buf, Demo.bomb], [], []⟩ story ⟨[], [3, 4, 5, 13, 6, 5, 4], []⟩ := by
  refine ⟨?_, ?_⟩
  · intro b hb
    simp only [List.mem_cons, List.not_mem_nil, or_false] at hb
    rcases hb with rfl | rfl
    · exact buf_reachable
    · exact bomb_reachable
  · have e1 : append ⟨Demo.buf, Demo.bomb, []⟩ = (.ok (), ⟨⟨[none, some 13, some 4, some 5], 1, 0⟩,
        ⟨[none, none, none, none], 1, 1⟩, [3, 4, 5]⟩) := by decide +kernel
    have e2 : step (.pushBack 6) ⟨⟨[none, some 13, some 4, some 5], 1, 0⟩, [3, 4, 5]⟩
        = (.error .user, ⟨⟨[none, none, some 4, some 5], 2, 0⟩, [3, 4, 5, 13, 6]⟩) := by decide +kernel
    have e3 : append ⟨⟨[none, none, none, none], 1, 1⟩, ⟨[none, none, some 4, some 5], 2, 0⟩, [3, 4, 5, 13, 6]⟩
        = (.ok (), ⟨⟨[none, some 4, some 5, none], 1, 3⟩, ⟨[none, none, none, none], 0, 0⟩, [3, 4, 5, 13, 6]⟩) := by decide +kernel
    have e4 : intoIterDrop ⟨⟨[none, none, none, none], 0, 0⟩, [3, 4, 5, 13, 6]⟩
        = (.ok (), ⟨⟨[none, none, none, none], 0, 0⟩, [3, 4, 5, 13, 6]⟩) := by decide +kernel
    have e5 : dropSelf ⟨⟨[none, some 4, some 5, none], 1, 3⟩, [3, 4, 5, 13, 6]⟩
        = (.ok (), ⟨⟨[none, none, none, none], 1, 1⟩, [3, 4, 5, 13, 6, 5, 4]⟩) := by decide +kernel
    have h1 := Happens.append (w := ⟨[Demo.buf, Demo.bomb], [], []⟩) (i := 0) (j := 1) (by decide) rfl rfl e1
    have h2 := Happens.call (w := ⟨[⟨[none, some 13, some 4, some 5], 1, 0⟩, ⟨[none, none, none, none], 1, 1⟩],
      [3, 4, 5], []⟩) (i := 0) (op := .pushBack 6) rfl trivial e2
    have h3 := Happens.absorb (w := ⟨[⟨[none, none, some 4, some 5], 2, 0⟩, ⟨[none, none, none, none], 1, 1⟩],
      [3, 4, 5, 13, 6], []⟩) (i := 1) (j := 0) (by decide) rfl rfl e3 e4
    have h4 := Happens.drop (w := ⟨[⟨[none, some 4, some 5, none], 1, 3⟩], [3, 4, 5, 13, 6], []⟩) (i := 0) rfl e5
    exact .cons h1 (.cons h2 (.cons h3 (.cons h4 .nil)))

end
end CB
