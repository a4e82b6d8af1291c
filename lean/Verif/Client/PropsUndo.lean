import Verif.Client.LemmasUndo
/-!
# C138: undo and redo with two circular buffers
-/

open Rust CB
namespace Client

section
variable {α : Type} [Cfg] [Elem α] {depth : Nat}

/-- **C138 (the line of versions).** Whatever the commands, nothing panics, the answers are those of the line of versions, the
present value is the version at its place, and the buffers hold the versions before and, backwards, those after it. No
version is lost or doubled: those brought are on the line or dropped. -/
theorem c138_line (hu : Elem.uninitOk α = true) (hw : depth ≤ isizeMax) (hs : (depth + 1) * Elem.size α ≤ isizeMax)
    (hd : ∀ x : α, Elem.dropPanics x = false) (first : α) (cs : List (Cmd α)) :
    ∃ (p f : Buf α) (e : Editor α), withCapacity depth = .ok p ∧ withCapacity depth = .ok f ∧
      actAll cs ⟨p, first, f, []⟩ = (.ok ((Timeline.mk [first] 0).actAll depth cs).1, e) ∧
      let t := ((Timeline.mk [first] 0).actAll depth cs).2
      t.versions[t.place]? = some e.now ∧ t.versions.length ≤ depth + 1 ∧
      e.past.contents = .ok (t.versions.take t.place) ∧
      e.future.contents = .ok (t.versions.drop (t.place + 1)).reverse ∧
      (e.dropped ++ t.versions).Perm (first :: brought cs) := by
  obtain ⟨p, h1, h2⟩ := withCapacity_rep hu hw hs
  obtain ⟨e, g1, g2, g3⟩ := actAll_ok (c := depth) hd cs (e := ⟨p, first, p, []⟩) (t := ⟨[first], 0⟩)
    ⟨by simp, rfl, h2, h2⟩
  exact ⟨p, p, e, h1, h1, g1, g2.now, g2.short, g2.past.contents_eq, g2.future.contents_eq, by simpa using g3⟩

/-- **C138 (edits can be undone and redone).** After any commands, as many edits as the capacity can be undone one by one,
which gives the value before them, and redone, which gives the value after them. -/
theorem c138_edits (hu : Elem.uninitOk α = true) (hw : depth ≤ isizeMax) (hs : (depth + 1) * Elem.size α ≤ isizeMax)
    (hd : ∀ x : α, Elem.dropPanics x = false) (first : α) (cs : List (Cmd α)) {p f : Buf α}
    (hp : withCapacity depth = .ok p) (hf : withCapacity depth = .ok f) {bs : List Bool} {e : Editor α}
    (he : actAll cs ⟨p, first, f, []⟩ = (.ok bs, e)) {ws : List α} (hl : ws.length ≤ depth) :
    ∃ e1 e2 e3, actAll (ws.map .edit) e = (.ok (List.replicate ws.length true), e1) ∧
      e1.now = ws.getLast?.getD e.now ∧
      actAll (List.replicate ws.length .undo) e1 = (.ok (List.replicate ws.length true), e2) ∧ e2.now = e.now ∧
      actAll (List.replicate ws.length .redo) e2 = (.ok (List.replicate ws.length true), e3) ∧ e3.now = e1.now := by
  obtain ⟨p', h1, h2⟩ := withCapacity_rep hu hw hs
  rw [h1] at hp hf
  obtain rfl : p' = p := Except.ok.inj hp
  obtain rfl : p' = f := Except.ok.inj hf
  obtain ⟨e', g1, g2, -⟩ := actAll_ok (c := depth) hd cs (e := ⟨p', first, p', []⟩) (t := ⟨[first], 0⟩)
    ⟨by simp, rfl, h2, h2⟩
  rw [he] at g1
  obtain ⟨-, rfl⟩ := Prod.mk.inj g1
  generalize ((Timeline.mk [first] 0).actAll depth cs).2 = t at g2
  obtain ⟨a1, a2, a3, a4⟩ := t.edits depth ws g2.lt g2.short
  obtain ⟨e1, b1, b2, -⟩ := actAll_ok (c := depth) hd (ws.map .edit) g2
  rw [a1] at b1
  generalize (t.actAll depth (ws.map .edit)).2 = u at a2 a3 a4 b2
  -- the versions from before the edits to now
  have hlen : (t.versions.take (t.place + 1) ++ ws).length = t.place + 1 + ws.length := by
    rw [List.length_append, List.length_take, Nat.min_eq_left g2.lt]
  have hk : u.place + 1 = min (depth + 1) (t.place + 1 + ws.length) := by
    have := congrArg List.length a4
    rw [lastN_length, hlen, List.length_take, Nat.min_eq_left a2] at this
    exact this
  have hget : ∀ i ≤ u.place, u.versions[i]? = (t.versions.take (t.place + 1) ++ ws)[t.place + 1 + ws.length - (depth + 1) + i]? := by
    intro i hi
    have := congrArg (·[i]?) a4
    simp only [lastN, List.getElem?_drop, hlen] at this
    rw [← this, List.getElem?_take, if_pos (by omega)]
  have hbefore : u.versions[u.place - ws.length]? = some e.now := by
    rw [hget _ (Nat.sub_le _ _), ← g2.now, List.getElem?_append_left (by
      rw [List.length_take, Nat.min_eq_left g2.lt]; omega), List.getElem?_take, if_pos (by omega)]
    congr 1
    omega
  have hafter : u.versions[u.place]? = some (ws.getLast?.getD e.now) := by
    rw [hget _ (Nat.le_refl _), show t.place + 1 + ws.length - (depth + 1) + u.place = t.place + ws.length by omega]
    rcases List.eq_nil_or_concat ws with rfl | ⟨vs, v, rfl⟩
    · rw [List.append_nil, List.getElem?_take, if_pos (by simp), List.length_nil, Nat.add_zero, g2.now]
      rfl
    · rw [List.concat_eq_append] at *
      rw [List.getElem?_append_right (by rw [List.length_take, Nat.min_eq_left g2.lt, List.length_append]; simp),
        List.length_take, Nat.min_eq_left g2.lt, List.length_append, List.length_singleton,
        show t.place + (vs.length + 1) - (t.place + 1) = vs.length by omega, List.getElem?_concat_length,
        List.getLast?_concat]
      rfl
  obtain ⟨e2, c1, c2, -⟩ := actAll_ok (c := depth) hd (List.replicate ws.length .undo) b2
  rw [show u = ⟨u.versions, u.place⟩ from rfl, Timeline.undos depth u.versions ws.length u.place (by omega)] at c1 c2
  obtain ⟨e3, d1, d2, -⟩ := actAll_ok (c := depth) hd (List.replicate ws.length .redo) c2
  rw [Timeline.redos depth u.versions ws.length (u.place - ws.length) (by omega)] at d1 d2
  refine ⟨e1, e2, e3, b1, ?_, c1, ?_, d1, ?_⟩
  · exact Option.some.inj (b2.now.symm.trans hafter)
  · exact Option.some.inj (c2.now.symm.trans hbefore)
  · have := d2.now
    dsimp only at this
    rw [show u.place - ws.length + ws.length = u.place by omega, b2.now] at this
    exact Option.some.inj this.symm

end

section
open CB.Demo

local instance calmVersions : Elem Nat := ⟨8, fun _ => false, true⟩

-- two steps back are remembered: of the three undos the last is refused; the edit forgets what was undone
example : Elem.uninitOk Nat = true ∧ 2 ≤ isizeMax ∧ (2 + 1) * Elem.size Nat ≤ isizeMax ∧
    (∀ n : Nat, Elem.dropPanics n = false) ∧
    (withCapacity 2).toOption.map (fun cb : Buf Nat =>
      let r := actAll [.edit 1, .edit 2, .edit 3, .undo, .undo, .undo, .redo, .edit 4, .redo, .undo] ⟨cb, 0, cb, []⟩
      (r.1.toOption, r.2.now, r.2.dropped))
      = some (some [true, true, true, true, true, false, true, true, false, true], 2, [0, 3]) ∧
    (withCapacity 2).toOption.map (fun cb : Buf Nat =>
      let r := actAll [.edit 1, .edit 2, .edit 3, .undo, .undo, .undo, .redo, .edit 4, .redo, .undo] ⟨cb, 0, cb, []⟩
      (r.2.past.contents.toOption, r.2.future.contents.toOption)) = some (some [1], some [4]) :=
  ⟨rfl, by decide, by decide, fun _ => rfl, by decide +kernel, by decide +kernel⟩

end
end Client
