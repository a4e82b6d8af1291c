import Verif.DS.LemmasSpare
import Verif.DS.PropsMem
/-!
# What a refused vector spares (C100)

`c100_refused_push_breaks` (`PropsMem.lean`) says what is lost when the vector is refused memory while an element is
added. Here is what is not: the elements that were there before.
-/

open Rust Mem
namespace DS.Mem

section
variable {T : Type} [DecidableEq T] [Cfg]

/-- C100: after the vector was refused memory for a new element, whatever is called (and refused) short of `clear`, the
elements that were there before can still be united and asked about. They are connected as they were, and by the later
unions among themselves; in particular no union with an element that was added since connects two of them. -/
theorem c100_refused_push_spares (std : Stds) {stack : Nat} {st : DS.Start T} {ops : List (Op T)} {a : Abs T} (s : State T)
    (h : Reached stack st ops s.set a) (x : T) (hx : x ∉ a.elems)
    (hm : s.set.len < s.ids.cap ∨ std.map.grow s.ids.moment s.ids.slots (s.set.len + 1) ≠ none)
    (hv : s.data.cap ≤ s.set.len) (hr : std.vec.grow s.data.moment s.data.slots (s.set.len + 1) = none) :
    ∃ s', makeSet std x false s = (.error .capacityOverflow, s') ∧
      ∀ calls : List (Call T), (∀ f ∈ calls, f ≠ .clear) → ∀ y ∈ a.elems, ∀ z ∈ a.elems,
        (∃ b, (Call.run std stack (.inUnion y z false false) (runAll std stack calls s').2).1 = .ok (.bool b) ∧
          (b = true ↔ (a.run (unionsAmong a.elems calls)).Same y z)) ∧
        (Call.run std stack (.union y z false false) (runAll std stack calls s').2).1 = .ok .unit ∧
        (Call.run std stack (.contains y false) (runAll std stack calls s').2).1 = .ok (.bool true) := by
  have hrel := h.rel
  have hg : s.set.ids.get x = none := by
    cases hg : s.set.ids.get x with
    | none => rfl
    | some i => exact absurd ((hrel.elems x).mp (by rw [hg]; rfl)) hx
  obtain ⟨s', h1, h2⟩ := refused_push std s hrel.len hg hm hv hr
  have hb : Broken s.set.ids x a s'.set := by
    rw [h2]
    exact broken_start hrel hg
  refine ⟨s', by rw [makeSet, M.bind_error h1], fun calls hc y hy z hz => ?_⟩
  have hu : s.set.ids.len ≤ usizeMax := by rw [hrel.card]; exact h.small_now
  have hs := lt_two_pow hu h.stack_ge
  have hb := Broken.history (std := std) (stack := stack) hu hs (old := a.elems) hrel.elems calls hc hb
  generalize (runAll std stack calls s').2 = t at hb ⊢
  have hy' := (hrel.elems y).mpr hy
  have hz' := (hrel.elems z).mpr hz
  refine ⟨?_, ?_, ?_⟩
  · obtain ⟨b, k1, k2⟩ := hb.answer hs hy' hz'
    refine ⟨b, ?_, k2⟩
    show (DS.wrap .bool (DSet.inUnion stack y z false false) t.set).1 = _
    rw [DS.wrap]
    generalize DSet.inUnion stack y z false false t.set = q at k1 ⊢
    obtain ⟨q, t'⟩ := q
    simp only at k1
    subst k1
    rfl
  · have k := ((Broken.union (std := std) hu hs y z false false hb).1 rfl rfl hy' hz').1
    show (Call.wrap _ (union std stack y z false false) t).1 = _
    rw [Call.wrap]
    generalize union std stack y z false false t = q at k ⊢
    obtain ⟨q, t'⟩ := q
    simp only at k
    subst k
    rfl
  · obtain ⟨i, hi⟩ := Option.isSome_iff_exists.mp hy'
    show (DS.wrap .bool (DSet.contains y false) t.set).1 = _
    simp [DS.wrap, DSet.contains, HMap.containsKey, hb.spared.keys y i hi]

end

open Trial DS.Demo in
/-- such a state: `union(1, 2)`, `make_set(5)`; then `make_set(3)` is refused and the calls go on -/
example :
    let s0 : State Nat := ⟨DSet.new, ⟨1, 1, 1, 1, 0⟩, ⟨3, 3, 1, 1, 0⟩⟩
    let s : State Nat := ⟨⟨⟨[(5, 2), (2, 1), (1, 0)]⟩, [⟨0, 1⟩, ⟨0, 0⟩, ⟨2, 0⟩]⟩, ⟨3, 3, 3, 3, 3⟩, ⟨3, 3, 1, 1, 0⟩⟩
    runAll stiff 64 [.union 1 2 false false, .makeSet 5 false] s0 = ([.ok .unit, .ok .unit], s) ∧
    Reached 64 .new [.union 1 2 false false, .makeSet 5 false] s.set
      ((Start.abs .new).run [.union 1 2 false false, .makeSet 5 false]) ∧
    stiff.map.grow s.ids.moment s.ids.slots (s.set.len + 1) ≠ none ∧ s.data.cap ≤ s.set.len ∧
    stiff.vec.grow s.data.moment s.data.slots (s.set.len + 1) = none ∧
    (runAll stiff 64 [.makeSet 3 false, .inUnion 1 2 false false, .inUnion 1 5 false false, .union 3 5 false false,
      .union 1 3 false false, .inUnion 1 5 false false, .union 5 2 false false, .inUnion 1 5 false false] s).1 =
      [.error .capacityOverflow, .ok (.bool true), .ok (.bool false), .error .indexOutOfBounds,
       .error .indexOutOfBounds, .ok (.bool false), .ok .unit, .ok (.bool true)] ∧
    (unionsAmong [5, 2, 1] [Call.union 3 5 false false, .union 1 3 false false, .union 5 2 false false]).length = 1 := by
  refine ⟨by decide +kernel, ⟨Nat.le_refl _, small_of_size _ _ (by decide), ⟨_, rfl, by decide +kernel⟩, rfl⟩,
    by decide +kernel, by decide +kernel, by decide +kernel, by decide +kernel, rfl⟩

end DS.Mem
