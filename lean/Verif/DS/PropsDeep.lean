import Verif.DS.Deep
import Verif.DS.Props
/-!
# The bound on the depth of searches is the best possible

`Props.lean` proves (C59) that `log2 n + 1` stack frames are enough for every history that never holds more than `n`
elements. Here is a history for which fewer are not.
-/

open Rust
namespace DS

theorem answers_no_overflow {T : Type} [DecidableEq T] (ops : List (Op T)) : ∀ {a : Abs T}
    {rs : List (Except Fault (Out T))}, Answers a ops rs → .error .stackOverflow ∉ rs := by
  induction ops with
  | nil =>
    intro a rs h
    cases rs with
    | nil => simp
    | cons r rs => exact absurd h (by simp [Answers])
  | cons op ops ih =>
    intro a rs h
    cases rs with
    | nil => simp
    | cons r rs =>
      obtain ⟨h1, h2⟩ := h
      rw [List.mem_cons, not_or]
      refine ⟨?_, ih h2⟩
      rintro rfl
      cases op with
      | makeSet x kp => cases kp <;> simp [Abs.Answer] at h1
      | union x y xp yp => cases xp <;> cases yp <;> simp [Abs.Answer] at h1
      | inUnion x y xp yp =>
        cases xp <;> cases yp <;> simp [Abs.Answer] at h1
      | contains x kp => cases kp <;> simp [Abs.Answer] at h1
      | len => simp [Abs.Answer] at h1
      | isEmpty => simp [Abs.Answer] at h1
      | clear => simp [Abs.Answer] at h1
      | reserve n cp => cases cp <;> simp [Abs.Answer] at h1
      | extend n cp items p => cases cp <;> cases p <;> simp [Abs.Answer] at h1
      | extendRef n cp items p => cases cp <;> cases p <;> simp [Abs.Answer] at h1
      | iterate o o' => simp [Abs.Answer] at h1

/-- the elements a call may add are below `n` -/
def Op.below (n : Nat) : Op Nat → Prop
  | .makeSet x _ => x < n
  | .union a b _ _ => a < n ∧ b < n
  | .extend _ _ items _ | .extendRef _ _ items _ => ∀ x ∈ items, x < n
  | _ => True

theorem run_below (n : Nat) (ops : List (Op Nat)) (h : ∀ op ∈ ops, op.below n) : ∀ a : Abs Nat,
    (∀ x ∈ a.elems, x < n) → ∀ x ∈ (a.run ops).elems, x < n := by
  induction ops with
  | nil => exact fun a ha => ha
  | cons op ops ih =>
    intro a ha
    refine ih (fun o ho => h o (List.mem_cons_of_mem _ ho)) (a.step op) ?_
    have hop := h op (List.mem_cons_self ..)
    cases op with
    | makeSet x kp =>
      cases kp with
      | true => exact ha
      | false => intro y hy; rcases List.mem_cons.mp hy with rfl | hy; exacts [hop, ha y hy]
    | union x y xp yp =>
      cases xp with
      | true => exact ha
      | false =>
        cases yp with
        | true => intro z hz; rcases List.mem_cons.mp hz with rfl | hz; exacts [hop.1, ha z hz]
        | false =>
          intro z hz
          rcases List.mem_cons.mp hz with rfl | hz
          · exact hop.2
          · rcases List.mem_cons.mp hz with rfl | hz; exacts [hop.1, ha z hz]
    | clear => intro x hx; cases hx
    | extend c cp items p =>
      cases cp with
      | true => exact ha
      | false =>
        intro z hz
        rcases List.mem_append.mp hz with hz | hz
        exacts [hop z (List.mem_reverse.mp hz), ha z hz]
    | extendRef c cp items p =>
      cases cp with
      | true => exact ha
      | false =>
        intro z hz
        rcases List.mem_append.mp hz with hz | hz
        exacts [hop z (List.mem_reverse.mp hz), ha z hz]
    | inUnion | contains | len | isEmpty | reserve | iterate => exact ha

theorem card_below {n : Nat} {a : Abs Nat} (h : ∀ x ∈ a.elems, x < n) : a.card ≤ n := by
  have : a.elems.dedup ⊆ List.range n := fun x hx => List.mem_range.mpr (h x (List.mem_dedup.mp hx))
  have := ((List.nodup_dedup a.elems).subperm this).length_le
  rwa [List.length_range] at this

theorem deep_below (m : Nat) : ∀ op ∈ deep m, op.below (2 ^ m) := by
  intro op hop
  simp only [deep, List.mem_cons, List.mem_append, List.mem_map, List.not_mem_nil, or_false] at hop
  rcases hop with rfl | ⟨p, hp, rfl⟩ | rfl
  · exact fun x hx => List.mem_range.mp hx
  · have := binomial_range m 0 p hp
    exact ⟨by omega, by omega⟩
  · trivial

theorem deep_overflows [Cfg] (m : Nat) (hm : m ≤ u32Max) (k : Nat) (hk : k ≤ m) :
    .error .stackOverflow ∈ (run k (deep m) DSet.new).1 := by
  have hpos : 0 < 2 ^ m := Nat.pow_pos (by decide)
  obtain ⟨s1, e1, e2, e3⟩ := row_extend (2 ^ m) 0 (s := DSet.new) ⟨rfl, fun x => rfl⟩ rfl
    (fun x hx => absurd hx (by omega))
  rw [Nat.zero_add] at e2 e3
  have hx : step k (.extend 0 false (List.range (2 ^ m)) false) DSet.new = (.ok .unit, s1) := by
    rw [List.range_eq_range']
    exact wrap_ok (by rw [extend_eq]; exact e1)
  have last : ∀ s : DSet Nat, (∀ x, x < 2 ^ m → s.ids.get x = some x) →
      find k (2 ^ m - 1) s.dataById = (.error .stackOverflow, s.dataById) →
      (step k (.inUnion (2 ^ m - 1) 0 false false) s).1 = .error .stackOverflow := by
    intro s hs hf
    simp [step, wrap, DSet.inUnion, M.bind_run, DSet.lookup, hs _ (show 2 ^ m - 1 < 2 ^ m by omega), hs _ hpos,
      DSet.onData, hf]
  have goal : ∀ s, (run k ((binomial m 0).map fun p => .union p.1 p.2 false false) s1).2 = s →
      (∀ x, x < 2 ^ m → s.ids.get x = some x) →
      find k (2 ^ m - 1) s.dataById = (.error .stackOverflow, s.dataById) →
      .error .stackOverflow ∈ (run k (deep m) DSet.new).1 := by
    intro s hs h1 h2
    have := last s h1 h2
    rw [deep, run, hx]
    refine List.mem_cons_of_mem _ ?_
    show _ ∈ (run k (_ ++ _) s1).1
    rw [run_append, hs]
    refine List.mem_append_right _ ?_
    show _ ∈ (step k (.inUnion (2 ^ m - 1) 0 false false) s).1 :: _
    rw [this]; exact List.mem_cons_self ..
  by_cases hk0 : k = 0
  · subst hk0
    have hr := row_unions_stuck (2 ^ m) (binomial m 0)
      (fun p hp => by have := binomial_range m 0 p hp; constructor <;> omega) e2
    exact goal _ hr (fun x hx => by rw [e2.get x, if_pos hx]) rfl
  · obtain ⟨d', l1, l2, l3, _⟩ := joinAll_binomial (k := k) (by omega) m hm 0 s1.dataById
      (fun x _ hx => e3 x (by omega))
    rw [Nat.zero_add] at l3
    have hr := row_unions k (2 ^ m) (binomial m 0)
      (fun p hp => by have := binomial_range m 0 p hp; constructor <;> omega) e2 l1
    refine goal _ hr (fun x hx => by rw [show s1.ids.get x = _ from e2.get x, if_pos hx]) ?_
    have := find_overflows (d := d') (n := m) (p := fun i => 2 ^ m - 2 ^ i) (fun i hi => ?_) k 0 (by omega)
    · exact this
    · obtain ⟨rk, e⟩ := l3 i hi
      refine ⟨?_, rk, e⟩
      have hle : 2 ^ (i + 1) ≤ 2 ^ m := Nat.pow_le_pow_right (by decide) hi
      have hi2 : 2 ^ (i + 1) = 2 ^ i + 2 ^ i := by rw [Nat.pow_succ]; omega
      have hipos : 0 < 2 ^ i := Nat.pow_pos (by decide)
      show 2 ^ m - 2 ^ (i + 1) ≠ 2 ^ m - 2 ^ i
      omega

/-- C59: the bound is the best possible: for every `n` there is a history that never holds more than `n` elements
and overflows every stack of `log2 n` frames or fewer, while it overflows no larger one. -/
theorem c59_log_depth_needed [Cfg] {n : Nat} (hn : 0 < n) (hu : n ≤ usizeMax) :
    ∃ ops : List (Op Nat), (∀ pre, pre <+: ops → ((Start.new : Start Nat).abs.run pre).card ≤ n) ∧
      ∀ k, .error .stackOverflow ∈ (run k ops DSet.new).1 ↔ k ≤ Nat.log2 n := by
  have hle : 2 ^ Nat.log2 n ≤ n := Nat.log2_self_le (by omega)
  have small : ∀ pre, pre <+: deep (Nat.log2 n) → ((Start.new : Start Nat).abs.run pre).card ≤ n := fun pre hp =>
    Nat.le_trans (card_below (run_below _ pre (fun op h => deep_below _ op (hp.subset h)) _ fun x hx => by cases hx)) hle
  have h64 := log_le_64 hu
  refine ⟨deep (Nat.log2 n), small, fun k => ⟨fun h => ?_, deep_overflows _ (by unfold u32Max; omega) k⟩⟩
  by_contra hk
  obtain ⟨s0, h1, h2, _⟩ := c59_log_depth (k := k) (by omega) small hu
  cases h1
  exact answers_no_overflow _ h2 h

open Demo in
/-- eight elements: the deepest search takes four frames -/
example : deep 1 = [.extend 0 false [0, 1] false, .union 0 1 false false, .inUnion 1 0 false false] ∧
    binomial 3 0 = [(0, 1), (2, 3), (0, 2), (4, 5), (6, 7), (4, 6), (0, 4)] ∧ Nat.log2 11 = 3 ∧
    (run 3 (deep 3) DSet.new).1.getLast? = some (.error .stackOverflow) ∧
    (run 4 (deep 3) DSet.new).1.getLast? = some (.ok (.bool true)) :=
  ⟨rfl, by decide, by decide, by decide +kernel, by decide +kernel⟩

end DS
