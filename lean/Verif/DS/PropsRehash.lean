import Verif.DS.ModelRehash
import Verif.DS.PropsLocal
import Verif.DS.LemmasForest
/-!
# C131: a panic of `Hash` while the table of a disjoint set makes room costs nothing
-/

open Rust
namespace DS.Rehash
section
variable {T : Type} [DecidableEq T]

/-- What is left of a call if it ends early: the call with a key, an iterator or a request that panics on its own, as
`DS/Model.lean` has it. -/
inductive Cut : Op T → Op T → Prop
  | makeSet (x : T) : Cut (.makeSet x false) (.makeSet x true)
  | first (a b : T) (bp : Bool) : Cut (.union a b false bp) (.union a b true bp)
  | second (a b : T) : Cut (.union a b false false) (.union a b false true)
  | reserve (n : Nat) : Cut (.reserve n false) (.reserve n true)
  | extend (hint : Nat) (items pre : List T) (p : Bool) : pre <+: items → Cut (.extend hint false items p) (.extend hint false pre true)
  | extendRef (hint : Nat) (items pre : List T) (p : Bool) :
    pre <+: items → Cut (.extendRef hint false items p) (.extendRef hint false pre true)

/-- A call and its result are explained by a call and its result: the same, or one ended early where both panicked. -/
def Explained (op : Op T) (r : Except Fault (Out T)) (op' : Op T) (r' : Except Fault (Out T)) : Prop :=
  op' = op ∧ r' = r ∨ Cut op op' ∧ r = .error .user ∧ ∃ e, r' = .error e

/-- Each call of a history and its result are explained by those of another history. -/
inductive Explains : List (Op T) → List (Except Fault (Out T)) → List (Op T) → List (Except Fault (Out T)) → Prop
  | nil : Explains [] [] [] []
  | cons {op op' : Op T} {r r' : Except Fault (Out T)} {ops ops' : List (Op T)} {rs rs' : List (Except Fault (Out T))} :
    Explained op r op' r' → Explains ops rs ops' rs' → Explains (op :: ops) (r :: rs) (op' :: ops') (r' :: rs')

omit [DecidableEq T] in
theorem makeRoom_calm (o : Nat → Room T) (n : Nat) {s : Tab T} (h : s.scars = 0) :
    ∃ s', (makeRoom o n s = (.ok (), s') ∨ makeRoom o n s = (.error .user, s')) ∧ s'.set = s.set ∧ s'.scars = 0 := by
  unfold makeRoom
  split
  · exact ⟨s, .inl rfl, rfl, h⟩
  · rename_i h1
    rw [if_neg (by omega)]
    split
    · exact ⟨_, .inl rfl, rfl, rfl⟩
    · exact ⟨_, .inr rfl, rfl, h⟩

theorem makeOrGetSet_calm (o : Nat → Room T) (x : T) (kp : Bool) {s : Tab T} (h : s.scars = 0) :
    ∃ s', s'.scars = 0 ∧ (makeOrGetSet o x kp s = ((DSet.makeOrGetSet x kp s.set).1, s') ∧
        s'.set = (DSet.makeOrGetSet x kp s.set).2 ∨
      kp = false ∧ makeOrGetSet o x kp s = (.error .user, s') ∧ s'.set = s.set) := by
  unfold makeOrGetSet
  split
  · rename_i hc
    obtain ⟨s', h1, h2, h3⟩ := makeRoom_calm o 1 h
    rcases h1 with h1 | h1
    · refine ⟨{ s' with set := (DSet.makeOrGetSet x kp s'.set).2 }, h3, .inl ⟨?_, by rw [← h2]⟩⟩
      rw [M.bind_ok h1, onSet, h2]
    · refine ⟨s', h3, .inr ⟨by simp at hc; exact hc.1, ?_, h2⟩⟩
      rw [M.bind_error h1]
  · exact ⟨{ s with set := (DSet.makeOrGetSet x kp s.set).2 }, h, .inl ⟨rfl, rfl⟩⟩

theorem makeSet_calm (o : Nat → Room T) (x : T) (kp : Bool) {s : Tab T} (h : s.scars = 0) :
    ∃ s', s'.scars = 0 ∧ (makeSet o x kp s = ((DSet.makeSet x kp s.set).1, s') ∧ s'.set = (DSet.makeSet x kp s.set).2 ∨
      kp = false ∧ makeSet o x kp s = (.error .user, s') ∧ s'.set = s.set) := by
  obtain ⟨s', h1, h2⟩ := makeOrGetSet_calm o x kp h
  refine ⟨s', h1, ?_⟩
  rcases h2 with ⟨h2, h3⟩ | ⟨h2, h3, h4⟩
  · left
    cases hr : DSet.makeOrGetSet x kp s.set with
    | mk r d =>
      rw [hr] at h2 h3
      cases r with
      | ok v =>
        refine ⟨?_, ?_⟩
        · unfold makeSet DSet.makeSet
          rw [M.bind_ok h2, M.bind_ok hr]; rfl
        · unfold DSet.makeSet
          rw [M.bind_ok hr]; exact h3
      | error e =>
        refine ⟨?_, ?_⟩
        · unfold makeSet DSet.makeSet
          rw [M.bind_error h2, M.bind_error hr]
        · unfold DSet.makeSet
          rw [M.bind_error hr]; exact h3
  · right
    refine ⟨h2, ?_, h4⟩
    unfold makeSet
    rw [M.bind_error h3]

theorem makeSet_false (x : T) (d : DSet T) : (DSet.makeSet x false d).1 = .ok () := by
  have h : ∃ i d', DSet.makeOrGetSet x false d = (.ok i, d') := by
    rw [DSet.makeOrGetSet, if_neg (by simp)]
    cases d.ids.get x with
    | none => exact ⟨_, _, rfl⟩
    | some i => exact ⟨_, _, rfl⟩
  obtain ⟨i, d', h⟩ := h
  unfold DSet.makeSet
  rw [M.bind_ok h]; rfl

/-- all items are added, or `Hash` panics after some of them -/
theorem addAll_calm (o : Nat → Room T) : ∀ (items : List T) (p : Bool) {s : Tab T}, s.scars = 0 →
    ∃ s', s'.scars = 0 ∧ (addAll o items p s = ((DSet.extendLoop items p s.set).1, s') ∧
        s'.set = (DSet.extendLoop items p s.set).2 ∨
      ∃ pre, pre <+: items ∧ addAll o items p s = (.error .user, s') ∧ s'.set = (DSet.extendLoop pre true s.set).2)
  | [], p, s, h => ⟨s, h, .inl ⟨by cases p <;> rfl, by cases p <;> rfl⟩⟩
  | x :: xs, p, s, h => by
    obtain ⟨s1, h1, h2⟩ := makeSet_calm o x false h
    have run1 : ∀ {l : List T} {q : Bool}, DSet.extendLoop (x :: l) q s.set =
        DSet.extendLoop l q (DSet.makeSet x false s.set).2 := by
      intro l q
      have : DSet.makeSet x false s.set = (.ok (), (DSet.makeSet x false s.set).2) := Prod.ext (makeSet_false x s.set) rfl
      conv => lhs; unfold DSet.extendLoop
      rw [M.bind_ok this]
    rcases h2 with ⟨h2, h3⟩ | ⟨_, h2, h3⟩
    · rw [makeSet_false] at h2
      obtain ⟨s2, g1, g2⟩ := addAll_calm o xs p h1
      refine ⟨s2, g1, ?_⟩
      rcases g2 with ⟨g2, g3⟩ | ⟨pre, g2, g3, g4⟩
      · left
        rw [run1, ← h3]
        refine ⟨?_, g3⟩
        unfold addAll
        rw [M.bind_ok h2, g2]
      · right
        refine ⟨x :: pre, List.cons_prefix_cons.mpr ⟨rfl, g2⟩, ?_, ?_⟩
        · unfold addAll
          rw [M.bind_ok h2, g3]
        · rw [run1, ← h3, g4]
    · refine ⟨s1, h1, .inr ⟨[], List.nil_prefix, ?_, h3⟩⟩
      unfold addAll
      rw [M.bind_error h2]

theorem extendRefLoop_eq : ∀ (items : List T) (p : Bool) (d : DSet T), DSet.extendRefLoop items p d = DSet.extendLoop items p d
  | [], _, _ => rfl
  | x :: xs, p, d => by
    have : DSet.makeSet x false d = (.ok (), (DSet.makeSet x false d).2) := Prod.ext (makeSet_false x d) rfl
    unfold DSet.extendRefLoop DSet.extendLoop
    rw [M.bind_ok this, M.bind_ok this, extendRefLoop_eq]

omit [DecidableEq T] in
theorem noOut_run {m : M (Tab T) Unit} {s : Tab T} {r : Except Fault Unit} {s' : Tab T} (h : m s = (r, s')) :
    noOut m s = (r.map fun _ => .unit, s') := by
  unfold noOut
  cases r with
  | ok a => rw [M.bind_ok h]; rfl
  | error e => rw [M.bind_error h]; rfl

omit [DecidableEq T] in
theorem wrap_run (m : M (DSet T) Unit) (d : DSet T) :
    wrap (fun _ => .unit) m d = ((m d).1.map fun _ => .unit, (m d).2) := by
  unfold wrap
  rcases h : m d with ⟨r, d'⟩
  cases r <;> rfl

omit [DecidableEq T] in
theorem error_map {r : Except Fault Unit} {e : Fault} (h : r = .error e) :
    (r.map fun _ => (Out.unit : Out T)) = .error e := by rw [h]; rfl

variable [Cfg]

theorem union_calm (o : Nat → Room T) (k : Nat) (a b : T) (ap bp : Bool) {s : Tab T} (h : s.scars = 0) :
    ∃ s', s'.scars = 0 ∧ (union o k a b ap bp s = ((DSet.union k a b ap bp s.set).1, s') ∧
        s'.set = (DSet.union k a b ap bp s.set).2 ∨
      union o k a b ap bp s = (.error .user, s') ∧
        (ap = false ∧ s'.set = (DSet.union k a b true bp s.set).2 ∧ (DSet.union k a b true bp s.set).1 = .error .user ∨
         ap = false ∧ bp = false ∧ s'.set = (DSet.union k a b false true s.set).2 ∧
          (DSet.union k a b false true s.set).1 = .error .user)) := by
  obtain ⟨s1, h1, h2⟩ := makeOrGetSet_calm o a ap h
  rcases h2 with ⟨h2, h3⟩ | ⟨rfl, h2, h3⟩
  · cases hr : DSet.makeOrGetSet a ap s.set with
    | mk r d =>
      rw [hr] at h2 h3
      cases r with
      | error e =>
        refine ⟨s1, h1, .inl ⟨?_, ?_⟩⟩
        · unfold union DSet.union
          rw [M.bind_error h2, M.bind_error hr]
        · unfold DSet.union
          rw [M.bind_error hr]; exact h3
      | ok i =>
        obtain ⟨s2, g1, g2⟩ := makeOrGetSet_calm o b bp h1
        rcases g2 with ⟨g2, g3⟩ | ⟨rfl, g2, g3⟩
        · cases hr' : DSet.makeOrGetSet b bp s1.set with
          | mk r' d' =>
            rw [hr'] at g2 g3
            rw [h3] at hr'
            cases r' with
            | error e =>
              refine ⟨s2, g1, .inl ⟨?_, ?_⟩⟩
              · unfold union DSet.union
                rw [M.bind_ok h2, M.bind_error g2, M.bind_ok hr, M.bind_error hr']
              · unfold DSet.union
                rw [M.bind_ok hr, M.bind_error hr']; exact g3
            | ok j =>
              refine ⟨{ s2 with set := (DSet.onData (unionIds k i j) s2.set).2 }, g1, .inl ⟨?_, ?_⟩⟩
              · unfold union DSet.union
                rw [M.bind_ok h2, M.bind_ok g2, M.bind_ok hr, M.bind_ok hr', onSet, g3]
              · unfold DSet.union
                rw [M.bind_ok hr, M.bind_ok hr']
                show (DSet.onData (unionIds k i j) s2.set).2 = _
                rw [g3]
        · have hap : ap = false := by
            cases ap with
            | false => rfl
            | true => rw [DSet.makeOrGetSet, if_pos rfl] at hr; cases hr
          subst hap
          have hp : DSet.makeOrGetSet b true d = (.error .user, d) := rfl
          have hu : DSet.union k a b false true s.set = (.error .user, d) := by
            unfold DSet.union
            rw [M.bind_ok hr, M.bind_error hp]
          refine ⟨s2, g1, .inr ⟨?_, .inr ⟨rfl, rfl, ?_, ?_⟩⟩⟩
          · unfold union
            rw [M.bind_ok h2, M.bind_error g2]
          · rw [hu, g3, h3]
          · rw [hu]
  · have hp : DSet.makeOrGetSet a true s.set = (.error .user, s.set) := rfl
    have hu : DSet.union k a b true bp s.set = (.error .user, s.set) := by
      unfold DSet.union
      rw [M.bind_error hp]
    refine ⟨s1, h1, .inr ⟨?_, .inl ⟨rfl, ?_, ?_⟩⟩⟩
    · unfold union
      rw [M.bind_error h2]
    · rw [hu, h3]
    · rw [hu]

/-- one call, with the table of a disjoint set free of scars -/
theorem step_calm (o : Nat → Room T) (k : Nat) (op : Op T) {s : Tab T} (h : s.scars = 0) :
    ∃ s' r op', step o k op s = (r, s') ∧ s'.scars = 0 ∧ s'.set = (DS.step k op' s.set).2 ∧
      Explained op r op' (DS.step k op' s.set).1 := by
  have extendCase : ∀ (hint : Nat) (cp : Bool) (items : List T) (p : Bool), ∃ s', s'.scars = 0 ∧
      (extend o hint cp items p s = ((DSet.extend hint cp items p s.set).1, s') ∧
        s'.set = (DSet.extend hint cp items p s.set).2 ∨
      cp = false ∧ extend o hint cp items p s = (.error .user, s') ∧ ∃ pre, pre <+: items ∧
        s'.set = (DSet.extend hint false pre true s.set).2) := by
    intro hint cp items p
    cases cp with
    | true => exact ⟨s, h, .inl ⟨rfl, rfl⟩⟩
    | false =>
      have hr : DSet.reserve hint false s.set = (.ok (), s.set) := rfl
      obtain ⟨s1, h1, h2, h3⟩ := makeRoom_calm o hint h
      rcases h1 with h1 | h1
      · have hr' : reserve o hint false s = (.ok (), s1) := h1
        obtain ⟨s2, g1, g2⟩ := addAll_calm o items p h3
        refine ⟨s2, g1, ?_⟩
        rcases g2 with ⟨g2, g3⟩ | ⟨pre, g2, g3, g4⟩
        · left
          unfold extend DSet.extend
          rw [M.bind_ok hr', M.bind_ok hr, g2, ← h2]
          exact ⟨rfl, g3⟩
        · right
          refine ⟨rfl, ?_, pre, g2, ?_⟩
          · unfold extend
            rw [M.bind_ok hr', g3]
          · unfold DSet.extend
            rw [M.bind_ok hr, g4, h2]
      · have hr' : reserve o hint false s = (.error .user, s1) := h1
        refine ⟨s1, h3, .inr ⟨rfl, ?_, [], List.nil_prefix, ?_⟩⟩
        · unfold extend
          rw [M.bind_error hr']
        · unfold DSet.extend
          rw [M.bind_ok hr]; exact h2
  have refEq : ∀ (hint : Nat) (cp : Bool) (items : List T) (p : Bool),
      DSet.extendRef hint cp items p s.set = DSet.extend hint cp items p s.set := by
    intro hint cp items p
    unfold DSet.extendRef DSet.extend
    cases cp with
    | true => rfl
    | false =>
      have hr : DSet.reserve hint false s.set = (.ok (), s.set) := rfl
      rw [M.bind_ok hr, M.bind_ok hr, extendRefLoop_eq]
  have loopPanics : ∀ (pre : List T) (d : DSet T), (DSet.extendLoop pre true d).1 = .error .user := by
    intro pre
    induction pre with
    | nil => intro d; rfl
    | cons x xs ih =>
      intro d
      have : DSet.makeSet x false d = (.ok (), (DSet.makeSet x false d).2) := Prod.ext (makeSet_false x d) rfl
      unfold DSet.extendLoop
      rw [M.bind_ok this]; exact ih _
  have cutPanics : ∀ (hint : Nat) (pre : List T), (DSet.extend hint false pre true s.set).1 = .error .user := by
    intro hint pre
    have hr : DSet.reserve hint false s.set = (.ok (), s.set) := rfl
    unfold DSet.extend
    rw [M.bind_ok hr]; exact loopPanics pre _
  cases op with
  | makeSet x kp =>
    obtain ⟨s', h1, ⟨h2, h3⟩ | ⟨rfl, h2, h3⟩⟩ := makeSet_calm o x kp h
    · refine ⟨s', _, .makeSet x kp, noOut_run h2, h1, ?_, .inl ⟨rfl, ?_⟩⟩ <;> rw [DS.step, wrap_run]
      exact h3
    · exact ⟨s', _, .makeSet x true, noOut_run h2, h1, h3, .inr ⟨.makeSet x, rfl, _, rfl⟩⟩
  | union a b ap bp =>
    obtain ⟨s', h1, ⟨h2, h3⟩ | ⟨h2, ⟨rfl, h3, h4⟩ | ⟨rfl, rfl, h3, h4⟩⟩⟩ := union_calm o k a b ap bp h
    · refine ⟨s', _, .union a b ap bp, noOut_run h2, h1, ?_, .inl ⟨rfl, ?_⟩⟩ <;> rw [DS.step, wrap_run]
      exact h3
    · refine ⟨s', _, .union a b true bp, noOut_run h2, h1, ?_, .inr ⟨.first a b bp, rfl, .user, ?_⟩⟩ <;>
        rw [DS.step, wrap_run]
      · exact h3
      · exact error_map h4
    · refine ⟨s', _, .union a b false true, noOut_run h2, h1, ?_, .inr ⟨.second a b, rfl, .user, ?_⟩⟩ <;>
        rw [DS.step, wrap_run]
      · exact h3
      · exact error_map h4
  | clear =>
    refine ⟨_, _, .clear, noOut_run (m := clear) (s := s) rfl, ?_, ?_, .inl ⟨rfl, ?_⟩⟩
    · show Tab.scars (if s.set.ids.isEmpty then s else { s with scars := 0 }) = 0
      split
      · exact h
      · rfl
    · show (DSet.clear false (Tab.set (if s.set.ids.isEmpty then s else { s with scars := 0 }))).2 = _
      split <;> rfl
    · rfl
  | reserve n cp =>
    cases cp with
    | true => exact ⟨s, _, .reserve n true, rfl, h, rfl, .inl ⟨rfl, rfl⟩⟩
    | false =>
      obtain ⟨s1, h1, h2, h3⟩ := makeRoom_calm o n h
      rcases h1 with h1 | h1
      · have hr' : reserve o n false s = (.ok (), s1) := h1
        exact ⟨s1, _, .reserve n false, noOut_run hr', h3, h2, .inl ⟨rfl, rfl⟩⟩
      · have hr' : reserve o n false s = (.error .user, s1) := h1
        exact ⟨s1, _, .reserve n true, noOut_run hr', h3, h2, .inr ⟨.reserve n, rfl, _, rfl⟩⟩
  | extend hint cp items p =>
    obtain ⟨s', h1, ⟨h2, h3⟩ | ⟨rfl, h2, pre, h3, h4⟩⟩ := extendCase hint cp items p
    · refine ⟨s', _, .extend hint cp items p, noOut_run h2, h1, ?_, .inl ⟨rfl, ?_⟩⟩ <;> rw [DS.step, wrap_run]
      exact h3
    · refine ⟨s', _, .extend hint false pre true, noOut_run h2, h1, ?_, .inr ⟨.extend hint items pre p h3, rfl, .user, ?_⟩⟩ <;>
        rw [DS.step, wrap_run]
      · exact h4
      · exact error_map (cutPanics hint pre)
  | extendRef hint cp items p =>
    obtain ⟨s', h1, ⟨h2, h3⟩ | ⟨rfl, h2, pre, h3, h4⟩⟩ := extendCase hint cp items p
    · refine ⟨s', _, .extendRef hint cp items p, noOut_run h2, h1, ?_, .inl ⟨rfl, ?_⟩⟩ <;> rw [DS.step, wrap_run, refEq]
      exact h3
    · refine ⟨s', _, .extendRef hint false pre true, noOut_run h2, h1, ?_,
        .inr ⟨.extendRef hint items pre p h3, rfl, .user, ?_⟩⟩ <;> rw [DS.step, wrap_run, refEq]
      · exact h4
      · exact error_map (cutPanics hint pre)
  | inUnion a b ap bp => exact ⟨_, _, .inUnion a b ap bp, rfl, h, rfl, .inl ⟨rfl, rfl⟩⟩
  | contains x kp => exact ⟨_, _, .contains x kp, rfl, h, rfl, .inl ⟨rfl, rfl⟩⟩
  | len => exact ⟨_, _, .len, rfl, h, rfl, .inl ⟨rfl, rfl⟩⟩
  | isEmpty => exact ⟨_, _, .isEmpty, rfl, h, rfl, .inl ⟨rfl, rfl⟩⟩
  | iterate p q => exact ⟨_, _, .iterate p q, rfl, h, rfl, .inl ⟨rfl, rfl⟩⟩

theorem run_calm (o : Nat → Room T) (k : Nat) : ∀ (ops : List (Op T)) {s : Tab T}, s.scars = 0 →
    ∃ ops', (run o k ops s).2.scars = 0 ∧ (run o k ops s).2.set = (DS.run k ops' s.set).2 ∧
      Explains ops (run o k ops s).1 ops' (DS.run k ops' s.set).1
  | [], s, h => ⟨[], h, rfl, .nil⟩
  | op :: ops, s, h => by
    obtain ⟨s1, r, op', h1, h2, h3, h4⟩ := step_calm o k op h
    obtain ⟨ops', g1, g2, g3⟩ := run_calm o k ops h2
    refine ⟨op' :: ops', ?_, ?_, ?_⟩
    · simp only [run, h1]; exact g1
    · simp only [run, DS.run, h1]; rw [g2, h3]
    · simp only [run, DS.run, h1]
      refine .cons h4 ?_
      rw [← h3]; exact g3

omit [Cfg] in
theorem fromIterLoop_eq : ∀ (items : List T) (p : Bool) (d : DSet T),
    DSet.fromIterLoop items p d = DSet.extendLoop items p d ∧ DSet.fromIterRefLoop items p d = DSet.extendLoop items p d
  | [], _, _ => ⟨rfl, rfl⟩
  | x :: xs, p, d => by
    have : DSet.makeSet x false d = (.ok (), (DSet.makeSet x false d).2) := Prod.ext (makeSet_false x d) rfl
    unfold DSet.fromIterLoop DSet.extendLoop DSet.fromIterRefLoop
    rw [M.bind_ok this, M.bind_ok this, M.bind_ok this]
    exact fromIterLoop_eq xs p _

omit [Cfg] in
theorem make_calm {o : Nat → Room T} {cap : Nat} {st : Start T} {s : Tab T} (h : make o cap st = .ok s) :
    s.scars = 0 ∧ st.make = .ok s.set := by
  have loop : ∀ items : List T, (match addAll o items false (new cap) with
      | (.ok _, s) => Except.ok s
      | (.error e, _) => .error e) = .ok s → s.scars = 0 ∧ DSet.extendLoop items false DSet.new = (.ok (), s.set) := by
    intro items hm
    obtain ⟨s', h1, ⟨h2, h3⟩ | ⟨pre, _, h2, _⟩⟩ := addAll_calm o items false (s := new cap) rfl
    · rw [h2] at hm
      have hs : (new cap : Tab T).set = DSet.new := rfl
      rw [hs] at hm h3
      rcases hr : DSet.extendLoop items false DSet.new with ⟨r, d⟩
      rw [hr] at hm h3
      cases r with
      | ok u => cases hm; exact ⟨h1, by rw [h3]⟩
      | error e => cases hm
    · rw [h2] at hm; cases hm
  cases st with
  | new => cases h; exact ⟨rfl, rfl⟩
  | fromIter items =>
    obtain ⟨h1, h2⟩ := loop items h
    refine ⟨h1, ?_⟩
    rw [Start.make, DSet.fromIter, (fromIterLoop_eq items false _).1, h2]
  | fromIterRef items =>
    obtain ⟨h1, h2⟩ := loop items h
    refine ⟨h1, ?_⟩
    rw [Start.make, DSet.fromIterRef, (fromIterLoop_eq items false _).2, h2]

omit [DecidableEq T] [Cfg] in
theorem fewer_step {op op' : Op T} {r r' : Except Fault (Out T)} (h : Explained op r op' r') {a a' : Abs T}
    (ha : ∀ x ∈ a'.elems, x ∈ a.elems) : ∀ x ∈ (a'.step op').elems, x ∈ (a.step op).elems := by
  rcases h with ⟨rfl, _⟩ | ⟨h, _⟩
  · cases op' with
    | makeSet x kp => cases kp <;> simp [Abs.step] <;> tauto
    | union x y xp yp => cases xp <;> cases yp <;> simp [Abs.step] <;> grind
    | clear => simp [Abs.step, Abs.new]
    | extend n c items p => cases c <;> simp [Abs.step] <;> grind
    | extendRef n c items p => cases c <;> simp [Abs.step] <;> grind
    | inUnion | contains | len | isEmpty | reserve | iterate => exact ha
  · cases h with
    | makeSet x => simp [Abs.step]; grind
    | first x y yp => cases yp <;> simp [Abs.step] <;> grind
    | second x y => simp [Abs.step]; grind
    | reserve n => exact ha
    | extend hint items pre p hp =>
      simp only [Abs.step, Bool.false_eq_true, if_false, List.mem_append, List.mem_reverse]
      exact fun x hx => hx.imp (fun h => hp.subset h) (ha x)
    | extendRef hint items pre p hp =>
      simp only [Abs.step, Bool.false_eq_true, if_false, List.mem_append, List.mem_reverse]
      exact fun x hx => hx.imp (fun h => hp.subset h) (ha x)

omit [DecidableEq T] [Cfg] in
theorem fewer_run {ops ops' : List (Op T)} {rs rs' : List (Except Fault (Out T))} (h : Explains ops rs ops' rs') :
    ∀ {a a' : Abs T}, (∀ x ∈ a'.elems, x ∈ a.elems) → ∀ pre', pre' <+: ops' → ∃ pre, pre <+: ops ∧
      ∀ x ∈ (a'.run pre').elems, x ∈ (a.run pre).elems := by
  induction h with
  | nil =>
    intro a a' ha pre' hp
    rw [List.prefix_nil.mp hp]
    exact ⟨[], List.nil_prefix, ha⟩
  | cons h1 _ ih =>
    intro a a' ha pre' hp
    cases pre' with
    | nil => exact ⟨[], List.nil_prefix, ha⟩
    | cons q pre' =>
      obtain ⟨hq, hp'⟩ := List.cons_prefix_cons.mp hp
      subst hq
      obtain ⟨pre, g1, g2⟩ := ih (fewer_step h1 ha) pre' hp'
      exact ⟨_ :: pre, List.cons_prefix_cons.mpr ⟨rfl, g1⟩, g2⟩

/-- **C131 (histories).** Whatever `Hash` does to stored keys while the table makes room, a history of calls is explained by
one in which no stored key panics: some calls end early, on a key, an iterator or a request of their own, exactly where the
given history panics; all others are the same, with the same results. The disjoint set is the one this history leads to, so
that everything known of disjoint sets holds of it. -/
theorem c131_histories {k : Nat} (hk : 64 ≤ k) {o : Nat → Room T} {cap : Nat} {st : Start T} {s0 : Tab T}
    (made : make o cap st = .ok s0) {ops : List (Op T)}
    (small : ∀ pre, pre <+: ops → (st.abs.run pre).card ≤ usizeMax) :
    ∃ ops', Reached k st ops' (run o k ops s0).2.set (st.abs.run ops') ∧
      Explains ops (run o k ops s0).1 ops' (DS.run k ops' s0.set).1 := by
  obtain ⟨h1, h2⟩ := make_calm made
  obtain ⟨ops', _, g2, g3⟩ := run_calm o k ops h1
  refine ⟨ops', ⟨hk, fun pre hp => ?_, ⟨s0.set, h2, g2⟩, rfl⟩, g3⟩
  obtain ⟨q, hq, hs⟩ := fewer_run g3 (a := st.abs) (fun x h => h) pre hp
  exact Nat.le_trans (card_le hs) (small q hq)

/-- **C131 (one call).** After any history, with panics of `Hash` on stored keys at any moments, a call other than `clear` loses
no element and separates no two, however it ends. If it panics it unites nothing. If it returns, it returned and did what it
does if no stored key panics. -/
theorem c131_panics_cost_nothing {k : Nat} (hk : 64 ≤ k) {o : Nat → Room T} {cap : Nat} {st : Start T} {s0 : Tab T}
    (made : make o cap st = .ok s0) {ops : List (Op T)} {op : Op T}
    (small : ∀ pre, pre <+: ops ++ [op] → (st.abs.run pre).card ≤ usizeMax) {s s' : Tab T} {r : Except Fault (Out T)}
    (hs : s = (run o k ops s0).2) (call : step o k op s = (r, s')) :
    (op ≠ .clear → (∀ x, Has s.set x → Has s'.set x) ∧ ∀ x y, Together k s.set x y → Together k s'.set x y) ∧
    (∀ e, r = .error e → ∀ x y, x ≠ y → (Together k s'.set x y ↔ Together k s.set x y)) ∧
    (∀ out, r = .ok out → DS.step k op s.set = (.ok out, s'.set)) := by
  obtain ⟨h1, h2⟩ := make_calm made
  obtain ⟨ops', g1, g2, g3⟩ := run_calm o k ops h1
  rw [← hs] at g1 g2
  obtain ⟨s1, r1, op', e1, e2, e3, e4⟩ := step_calm o k op g1
  rw [call] at e1
  cases e1
  have ex : ∃ rs rs', Explains (ops ++ [op]) rs (ops' ++ [op']) rs' := by
    clear small hs g2 call
    generalize (run o k ops s0).1 = rs at g3
    generalize (DS.run k ops' s0.set).1 = rs' at g3
    induction g3 with
    | nil => exact ⟨_, _, .cons e4 .nil⟩
    | cons a _ ih =>
      obtain ⟨rs, rs', ih⟩ := ih
      exact ⟨_, _, .cons a ih⟩
  obtain ⟨rs, rs', ex⟩ := ex
  have small' : ∀ pre, pre <+: ops' ++ [op'] → (st.abs.run pre).card ≤ usizeMax := fun pre hp => by
    obtain ⟨q, hq, hs⟩ := fewer_run ex (a := st.abs) (fun x h => h) pre hp
    exact Nat.le_trans (card_le hs) (small q hq)
  have reached : Reached k st ops' s.set (st.abs.run ops') :=
    ⟨hk, fun pre hp => small' pre (hp.trans (List.prefix_append _ _)), ⟨s0.set, h2, g2⟩, rfl⟩
  have single : ∀ pre, pre <+: [op'] → ((st.abs.run ops').run pre).card ≤ usizeMax := fun pre hp => by
    have := small' (ops' ++ pre) ((List.prefix_append_right_inj ops').mpr hp)
    rwa [Abs.run, List.foldl_append] at this
  have reached' : Reached k st (ops' ++ [op']) s'.set ((st.abs.run ops').run [op']) := by
    have := reached.after [op'] single
    have hd : (DS.run k [op'] s.set).2 = s'.set := e3.symm
    rwa [hd] at this
  refine ⟨fun hc => ?_, fun e he => ?_, fun out hout => ?_⟩
  · have hc' : ∀ q ∈ [op'], q ≠ .clear := by
      intro q hq
      rw [List.mem_singleton.mp hq]
      rcases e4 with ⟨rfl, _⟩ | ⟨h, _⟩
      · exact hc
      · cases h <;> simp
    obtain ⟨u1, u2⟩ := abs_grows [op'] hc' (st.abs.run ops')
    refine ⟨fun x hx => ?_, fun x y hxy => ?_⟩
    · rw [reached'.has]; exact u1 x ((reached.has x).mp hx)
    · rw [reached'.together]
      obtain ⟨v1, v2, v3⟩ := (reached.together x y).mp hxy
      exact ⟨u1 x v1, u1 y v2, conn_mono u2 v3⟩
  · intro x y hxy
    have err : ∃ e, (DS.step k op' s.set).1 = .error e := by
      rcases e4 with ⟨_, h⟩ | ⟨_, _, h⟩
      · exact ⟨e, by rw [h, he]⟩
      · exact h
    obtain ⟨e', he'⟩ := err
    have hm := single [op'] (List.prefix_refl _)
    obtain ⟨out, t, w1, w2, w3⟩ := step_ok (stack := k) reached.rel op' hm (lt_two_pow hm hk)
    rw [w1] at he'
    change out = .error e' at he'
    subst he'
    have pairs : ((st.abs.run ops').step op').pairs = (st.abs.run ops').pairs := by
      cases op' with
      | makeSet x kp => cases kp <;> rfl
      | union x y xp yp =>
        cases xp <;> cases yp <;> first | rfl | (simp [Abs.Answer] at w3)
      | clear => simp [Abs.Answer] at w3
      | extend n c items p => cases c <;> rfl
      | extendRef n c items p => cases c <;> rfl
      | inUnion | contains | len | isEmpty | reserve | iterate => rfl
    have hmore : ∀ z ∈ (st.abs.run ops').elems, z ∈ ((st.abs.run ops').step op').elems := by
      refine (abs_grows [op'] (fun q hq => ?_) (st.abs.run ops')).1
      rw [List.mem_singleton.mp hq]
      rintro rfl
      simp [Abs.Answer] at w3
    rw [reached'.together, reached.together]
    show ((st.abs.run ops').step op').Same x y ↔ _
    unfold Abs.Same
    rw [pairs]
    constructor
    · rintro ⟨_, _, c⟩
      rcases conn_support reached.rel.pairs c with h | h
      · exact absurd h hxy
      · exact ⟨h.1, h.2, c⟩
    · rintro ⟨a, b, c⟩
      exact ⟨hmore x a, hmore y b, c⟩
  · rcases e4 with ⟨rfl, h⟩ | ⟨_, h, _⟩
    · exact Prod.ext (by rw [h, hout]) e3.symm
    · rw [h] at hout; cases hout

end

open Demo in
/-- the table is full at 3, 7 and 1; `Hash` panics as 2 asks for room, then not any more -/
example :
    let o : Nat → Room Nat := fun m => if m = 1 then .panics fun _ => false else .made 3
    let ops : List (Op Nat) := [.union 7 1 false false, .union 3 2 false false, .inUnion 1 7 false false, .len,
      .union 3 2 false false, .len]
    (∃ s0, make o 0 (.fromIter [7, 3]) = .ok s0 ∧ (run o 64 ops s0).1 =
      [.ok .unit, .error .user, .ok (.bool true), .ok (.nat 3), .ok .unit, .ok (.nat 4)]) ∧
    ∀ pre, pre <+: ops → ((Start.fromIter [7, 3]).abs.run pre).card ≤ usizeMax :=
  ⟨⟨_, rfl, by decide +kernel⟩, small_of_size _ _ (by decide)⟩

/-- a table with scars would lose entries; that of a disjoint set has none -/
example : (makeRoom (fun _ => .panics fun x => decide (x = 1)) 1
    (⟨⟨⟨[(2, 1), (1, 0)]⟩, [⟨0, 0⟩, ⟨1, 0⟩]⟩, 5, 7, 0⟩ : Tab Nat)).2.set.ids = ⟨[(1, 0)]⟩ := by decide +kernel

end DS.Rehash
