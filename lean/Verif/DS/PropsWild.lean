import Verif.DS.SimWild
/-!
# C94: a wrong `Hash` or `Eq` cannot corrupt a disjoint set

`Wild.Op`, `Wild.Pile` (what a history means) and `Pile.Answers` (the answers expected) are in `DS/SimWild.lean`.
-/

open Rust
namespace DS.Wild

section
variable {T : Type} [Cfg]

/-- C94: whatever the table finds for the values handed over, every call answers as if each value for which nothing was
found were a new element of its own, and each other value the element found. So `len` is the number of stored values,
iteration shows each of them once, and two are together exactly if unions connect them. -/
theorem c94_answers {k : Nat} (hk : 64 ≤ k) (ops : List (Op T))
    (small : ∀ pre, pre <+: ops → (Pile.new.run pre).stored.length ≤ usizeMax) :
    Pile.new.Answers ops (run k ops DSet.new).1 :=
  (run_wild hk ops stand_new small).1

/-- C94: `from_iter` always returns, and makes what `extend` makes of a new disjoint set. -/
theorem c94_from_iter {k : Nat} (hk : 64 ≤ k) (items : List (T × Option Nat)) (ops : List (Op T))
    (small : ∀ pre, pre <+: ops →
      ((Pile.new.step (.extend 0 false items false)).run pre).stored.length ≤ usizeMax) :
    ∃ s, fromIter items false = .ok s ∧ fromIterRef items false = .ok s ∧
      (Pile.new.step (.extend 0 false items false)).Answers ops (run k ops s).1 := by
  have hs := small [] (List.nil_prefix)
  obtain ⟨r, w, a, h1, h2, h3⟩ := step_wild hk (stand_new (T := T)) (.extend 0 false items false) hs
  obtain ⟨w', g1, -, -⟩ := extendLoop_lbl items false (w := (DSet.new : DSet T)) (xs := []) rfl
  have e : step k (.extend 0 false items false) (DSet.new : DSet T) = (.ok .unit, w') :=
    wrap_ok (m := extend 0 false items false) g1
  rw [h1] at e
  obtain ⟨rfl, rfl⟩ := Prod.mk.inj e
  refine ⟨w, ?_, ?_, (run_wild hk ops h2 small).1⟩
  · unfold fromIter; rw [g1]; rfl
  · unfold fromIterRef; rw [extendRefLoop_eq, g1]; rfl

/-- C94: nothing ever fails but the user's own code and requests for too much memory: no index is out of bounds, no
search runs out of stack, no rank overflows. -/
theorem c94_no_other_panic {k : Nat} (hk : 64 ≤ k) (ops : List (Op T))
    (small : ∀ pre, pre <+: ops → (Pile.new.run pre).stored.length ≤ usizeMax) (e : Fault)
    (he : Except.error e ∈ (run k ops (DSet.new : DSet T)).1) : e = .user ∨ e = .capacityOverflow := by
  have key : ∀ (ops : List (Op T)) (p : Pile T) (rs : List (Except Fault (Out T))), p.Answers ops rs →
      .error e ∈ rs → e = .user ∨ e = .capacityOverflow := by
    intro ops
    induction ops with
    | nil => intro p rs h hm; rw [show rs = [] from h] at hm; cases hm
    | cons op ops ih =>
      rintro p rs ⟨r, rs', rfl, h1, h2⟩ hm
      rcases List.mem_cons.mp hm with rfl | hm
      · cases op with
        | makeSet x c kp => cases kp <;> simp_all [Pile.Answer]
        | union a b ac bc ap bp => cases ap <;> cases bp <;> simp_all [Pile.Answer]
        | inUnion a b ac bc ap bp =>
          unfold Pile.Answer at h1
          cases ap with
          | true => simp_all
          | false =>
            simp only [Bool.false_eq_true, if_false] at h1
            split at h1
            · cases h1
            · split at h1
              · cases h1; exact .inl rfl
              · split at h1
                · cases h1
                · obtain ⟨_, h, _⟩ := h1; cases h
        | contains x c kp => cases kp <;> simp_all [Pile.Answer]
        | len => cases h1
        | isEmpty => cases h1
        | clear => cases h1
        | reserve n cp => cases cp <;> simp_all [Pile.Answer]
        | extend hint cp items pp => cases cp <;> cases pp <;> simp_all [Pile.Answer]
        | extendRef hint cp items pp => cases cp <;> cases pp <;> simp_all [Pile.Answer]
        | iterate o o' => obtain ⟨_, h, _⟩ := h1; cases h
      · exact ih _ _ h2 hm
  exact key ops _ _ (c94_answers hk ops small) he

end

/-! ### the usual case is a special case -/

section
variable {T : Type} [Cfg] [DecidableEq T]

/-- C94 covers the usual case: with a proper `Hash` and `Eq` every history of calls is one in which the table finds the
right entries. -/
theorem c94_lawful_is_a_case (k : Nat) (ops : List (DS.Op T)) : ∀ s : DSet T,
    ∃ ops' : List (Op T), ops'.map Op.forget = ops ∧ run k ops' s = DS.run k ops s := by
  induction ops with
  | nil => intro s; exact ⟨[], rfl, rfl⟩
  | cons op ops ih =>
    intro s
    have one : ∃ op' : Op T, op'.forget = op ∧ step k op' s = DS.step k op s := by
      cases op with
      | makeSet x kp =>
        obtain ⟨c, hc⟩ := makeOrGetSet_lawful s x kp
        refine ⟨.makeSet x c kp, rfl, ?_⟩
        have : makeSet x c kp s = DSet.makeSet x kp s := by
          unfold makeSet DSet.makeSet; rw [M.bind_run, M.bind_run, hc]
        show wrap _ _ s = wrap _ _ s
        unfold wrap; rw [this]
      | union a b ap bp =>
        obtain ⟨c, hc⟩ := makeOrGetSet_lawful s a ap
        obtain ⟨c', hc'⟩ := makeOrGetSet_lawful (DSet.makeOrGetSet a ap s).2 b bp
        refine ⟨.union a b c c' ap bp, rfl, ?_⟩
        have : union k a b c c' ap bp s = DSet.union k a b ap bp s := by
          unfold union DSet.union
          rw [M.bind_run, M.bind_run, hc]
          generalize DSet.makeOrGetSet a ap s = q at hc'
          obtain ⟨r, s'⟩ := q
          cases r with
          | error e => rfl
          | ok i =>
            dsimp only
            rw [M.bind_run, M.bind_run, hc']
        show wrap _ _ s = wrap _ _ s
        unfold wrap; rw [this]
      | inUnion a b ap bp =>
        obtain ⟨c, hc⟩ := search_get s a
        obtain ⟨c', hc'⟩ := search_get s b
        have l1 : lookup c ap s = DSet.lookup a ap s := by unfold lookup DSet.lookup; rw [hc]
        have l2 : lookup c' bp s = DSet.lookup b bp s := by unfold lookup DSet.lookup; rw [hc']
        refine ⟨.inUnion a b c c' ap bp, rfl, ?_⟩
        have : inUnion k c c' ap bp s = DSet.inUnion k a b ap bp s := by
          unfold inUnion DSet.inUnion
          rw [M.bind_run, M.bind_run, l1]
          have hst : (DSet.lookup a ap s).2 = s := by unfold DSet.lookup; split <;> rfl
          generalize DSet.lookup a ap s = q at hst
          obtain ⟨r, s'⟩ := q
          cases hst
          cases r with
          | error e => rfl
          | ok i =>
            cases i with
            | none => rfl
            | some i =>
              dsimp only
              rw [M.bind_run, M.bind_run, l2] <;> rfl
        show wrap _ _ s = wrap _ _ s
        unfold wrap; rw [this]
      | contains x kp =>
        obtain ⟨c, hc⟩ := search_get s x
        refine ⟨.contains x c kp, rfl, ?_⟩
        have : contains c kp s = DSet.contains x kp s := by
          unfold contains DSet.contains HMap.containsKey; rw [hc]
        show wrap _ _ s = wrap _ _ s
        unfold wrap; rw [this]
      | len => exact ⟨.len, rfl, rfl⟩
      | isEmpty => exact ⟨.isEmpty, rfl, rfl⟩
      | clear => exact ⟨.clear, rfl, rfl⟩
      | reserve n cp => exact ⟨.reserve n cp, rfl, rfl⟩
      | extend hint cp items p =>
        obtain ⟨its, h1, h2⟩ := extendLoop_lawful items p s
        refine ⟨.extend hint cp its p, by rw [Op.forget, h1], ?_⟩
        cases cp with
        | true => rfl
        | false =>
          have : extend hint false its p s = DSet.extend hint false items p s := h2
          show wrap _ _ s = wrap _ _ s
          unfold wrap; rw [this]
      | extendRef hint cp items p =>
        obtain ⟨its, h1, h2⟩ := extendLoop_lawful items p s
        rw [← DS.extendRefLoop_eq, ← extendRefLoop_eq] at h2
        refine ⟨.extendRef hint cp its p, by rw [Op.forget, h1], ?_⟩
        cases cp with
        | true => rfl
        | false =>
          have : extendRef hint false its p s = DSet.extendRef hint false items p s := h2
          show wrap _ _ s = wrap _ _ s
          unfold wrap; rw [this]
      | iterate o o' => exact ⟨.iterate o o', rfl, rfl⟩
    obtain ⟨op', e1, e2⟩ := one
    obtain ⟨ops', f1, f2⟩ := ih (DS.step k op s).2
    refine ⟨op' :: ops', by rw [List.map_cons, e1, f1], ?_⟩
    show ((step k op' s).1 :: (run k ops' (step k op' s).2).1, (run k ops' (step k op' s).2).2) =
      ((DS.step k op s).1 :: (DS.run k ops (DS.step k op s).2).1, (DS.run k ops (DS.step k op s).2).2)
    rw [e2, f2]

end

/-! ### a concrete case -/

/-- NaN is never found: added twice it is stored twice, united with itself it makes two more, and `contains` and
`in_union` do not find it. A value whose hash was changed finds another entry. -/
example :
    let nan := 0
    letI : Cfg := ⟨64, true, true, by decide, by decide⟩
    let ops : List (Op Nat) := [.makeSet nan none false, .makeSet nan none false, .union nan nan none none false false,
      .contains nan none false, .inUnion nan nan none none false false, .len,
      .inUnion 7 8 (some 2) (some 3) false false, .inUnion 7 8 (some 0) (some 3) false false,
      .iterate ⟨id, fun _ => .refl _⟩ ⟨id, fun _ => .refl _⟩]
    (Pile.new.run ops).stored.length = 4 ∧
    (run 64 ops DSet.new).1 = [.ok .unit, .ok .unit, .ok .unit, .ok (.bool false), .ok (.bool false), .ok (.nat 4),
      .ok (.bool true), .ok (.bool false), .ok (.groups [[0], [0], [0, 0]])] := by
  decide +kernel

end DS.Wild
