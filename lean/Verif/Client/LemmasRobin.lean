import Verif.Client.SpecRobin
import Verif.CB.Props
import Mathlib.Order.Nat
import Mathlib.Data.List.Nodup
/-!
# Lemmas for C142
-/

open Rust CB
namespace Client

variable {τ : Type}

/-- the tasks that are left after a turn of each -/
def less (l : List (τ × Nat)) : List (τ × Nat) := (l.filter fun t => decide (1 < t.2)).map fun t => (t.1, t.2 - 1)

theorem rounds_succ {tasks : List (τ × Nat)} (h : ∀ t ∈ tasks, 0 < t.2) (k : Nat) :
    rounds tasks (k + 1) = tasks.map (·.1) ++ rounds (less tasks) k := by
  unfold rounds
  rw [List.range_succ_eq_map, List.flatMap_cons, List.flatMap_map]
  congr 1
  · rw [List.filter_eq_self.mpr]
    intro t ht
    simpa using h t ht
  · congr 1
    funext r
    unfold less
    rw [List.filter_map, List.map_map, List.filter_filter]
    congr 1
    refine List.filter_congr fun t _ => ?_
    simp only [Function.comp, ← Bool.decide_and]
    refine decide_eq_decide.mpr ?_
    omega

theorem rounds_nil (k : Nat) : rounds ([] : List (τ × Nat)) k = [] := by simp [rounds]

theorem less_pos {l : List (τ × Nat)} : ∀ t ∈ less l, 0 < t.2 := by
  intro t ht
  obtain ⟨u, hu, rfl⟩ := List.mem_map.mp ht
  have := (List.mem_filter.mp hu).2
  simp only [decide_eq_true_eq] at this
  dsimp only
  omega

theorem less_le {l : List (τ × Nat)} {k : Nat} (h : ∀ t ∈ l, t.2 ≤ k + 1) : ∀ t ∈ less l, t.2 ≤ k := by
  intro t ht
  obtain ⟨u, hu, rfl⟩ := List.mem_map.mp ht
  have := h u (List.mem_filter.mp hu).1
  dsimp only
  omega

theorem less_cons (t : τ × Nat) (l : List (τ × Nat)) : less (t :: l) = less [t] ++ less l := by
  unfold less
  by_cases h : 1 < t.2 <;> simp [h]

section
variable [Cfg] [Elem (τ × Nat)] {c : Nat}

theorem push_room {α : Type} [Elem α] {s : St α} {l : List α} (r : Rep s.cb ⟨c, l⟩) (h : l.length < c) (v : α) :
    ∃ cb, pushBack v s = (.ok (), ⟨cb, s.dropped⟩) ∧ Rep cb ⟨c, l ++ [v]⟩ := by
  obtain ⟨cb, g1, g2⟩ := pushBack_sim r v
  have e : Spec.pushBack ⟨c, l⟩ v = ⟨.ok (), ⟨c, l ++ [v]⟩, []⟩ := by
    unfold Spec.pushBack
    rw [if_neg (by dsimp only; omega), if_pos h]
  rw [e] at g1 g2
  exact ⟨cb, by simpa using g1, g2⟩

/-- the total number of turns -/
def needs (l : List (τ × Nat)) : Nat := (l.map (·.2)).sum

omit [Cfg] [Elem (τ × Nat)] in
theorem le_needs {l : List (τ × Nat)} {t : τ × Nat} (h : t ∈ l) : t.2 ≤ needs l := by
  unfold needs
  induction l with
  | nil => cases h
  | cons a l ih =>
    rw [List.map_cons, List.sum_cons]
    rcases List.mem_cons.mp h with rfl | h
    · omega
    · have := ih h
      omega

theorem robin_ok (fuel : Nat) : ∀ {s : St (τ × Nat)} {rest next : List (τ × Nat)} {k : Nat}, Rep s.cb ⟨c, rest ++ next⟩ →
    (∀ t ∈ rest ++ next, 0 < t.2) → (∀ t ∈ rest, t.2 ≤ k + 1) → (∀ t ∈ next, t.2 ≤ k) → needs (rest ++ next) < fuel →
    ∃ cb, robin fuel s = (.ok (rest.map (·.1) ++ rounds (next ++ less rest) k), ⟨cb, s.dropped⟩) ∧ Rep cb ⟨c, []⟩ := by
  induction fuel with
  | zero => intro s rest next k _ _ _ _ h; omega
  | succ fuel ih =>
    -- a task is next
    have step : ∀ {s : St (τ × Nat)} {t : τ × Nat} {rest next : List (τ × Nat)} {k : Nat}, Rep s.cb ⟨c, t :: rest ++ next⟩ →
        (∀ u ∈ t :: rest ++ next, 0 < u.2) → (∀ u ∈ t :: rest, u.2 ≤ k + 1) → (∀ u ∈ next, u.2 ≤ k) →
        needs (t :: rest ++ next) < fuel + 1 →
        ∃ cb, robin (fuel + 1) s = (.ok ((t :: rest).map (·.1) ++ rounds (next ++ less (t :: rest)) k), ⟨cb, s.dropped⟩) ∧
          Rep cb ⟨c, []⟩ := by
      intro s t rest next k r hp h1 h2 hf
      obtain ⟨task, need⟩ := t
      obtain ⟨cb, g1, g2⟩ := popFront_sim r
      simp only [List.cons_append, List.head?_cons, List.tail_cons] at g1 g2
      have hpos : 0 < need := hp (task, need) (by simp)
      have hlen : (rest ++ next).length < c := by
        have := r.le_cap
        simp only [List.cons_append, List.length_cons] at this
        omega
      have hk : need ≤ k + 1 := h1 (task, need) (by simp)
      have hsum : need + needs (rest ++ next) < fuel + 1 := by
        simpa [needs] using hf
      have e2 : needs (rest ++ (next ++ less [(task, need)])) = needs (rest ++ next) + (need - 1) := by
        unfold needs less
        by_cases h : 1 < need
        · simp [h]; omega
        · have : need - 1 = 0 := by omega
          simp [h, this]
      -- what is in the queue afterwards
      have after : ∀ {s' : St (τ × Nat)}, Rep s'.cb ⟨c, rest ++ (next ++ less [(task, need)])⟩ → s'.dropped = s.dropped →
          ∃ cb, robin fuel s' = (.ok (rest.map (·.1) ++ rounds (next ++ less ((task, need) :: rest)) k), ⟨cb, s.dropped⟩) ∧
            Rep cb ⟨c, []⟩ := by
        intro s' r' hd
        obtain ⟨cb, a1, a2⟩ := ih (k := k) r' (fun u hu => by
          rcases List.mem_append.mp hu with hu | hu
          · exact hp u (by simp [hu])
          · rcases List.mem_append.mp hu with hu | hu
            · exact hp u (by simp [hu])
            · exact less_pos u hu) (fun u hu => h1 u (List.mem_cons_of_mem _ hu)) (fun u hu => by
          rcases List.mem_append.mp hu with hu | hu
          · exact h2 u hu
          · exact less_le (k := k) (by simpa using hk) u hu) (by rw [e2]; omega)
        rw [hd, List.append_assoc, ← less_cons] at a1
        exact ⟨cb, a1, a2⟩
      unfold robin
      rw [M.bind_ok g1]
      dsimp only
      by_cases h : 1 < need
      · have hsub : (M.lift (usub need 1) : M (St (τ × Nat)) _) ⟨cb, s.dropped⟩ = (.ok (need - 1), ⟨cb, s.dropped⟩) := by
          rw [usub_ok (by omega)]; rfl
        obtain ⟨cb1, p1, p2⟩ := push_room (s := ⟨cb, s.dropped⟩) g2 hlen (task, need - 1)
        obtain ⟨cb2, q1, q2⟩ := after (s' := ⟨cb1, s.dropped⟩) (by
          simp only [less, List.filter_cons, h, decide_true, if_true, List.filter_nil, List.map_cons, List.map_nil]
          rw [← List.append_assoc]
          exact p2) rfl
        refine ⟨cb2, ?_, q2⟩
        rw [if_pos h, M.bind_ok hsub, M.bind_ok p1, M.bind_ok q1]
        rfl
      · obtain ⟨cb2, q1, q2⟩ := after (s' := ⟨cb, s.dropped⟩) (by
          simpa only [less, List.filter_cons, h, decide_false, Bool.false_eq_true, if_false, List.filter_nil, List.map_nil,
            List.append_nil] using g2) rfl
        refine ⟨cb2, ?_, q2⟩
        rw [if_neg h, M.bind_ok q1]
        rfl
    intro s rest next k r hp h1 h2 hf
    cases rest with
    | cons t rest => exact step r hp h1 h2 hf
    | nil =>
      cases next with
      | nil =>
        obtain ⟨cb, g1, g2⟩ := popFront_sim r
        refine ⟨cb, ?_, g2⟩
        unfold robin
        rw [M.bind_ok g1]
        simp [less, rounds_nil, M.pure_run]
      | cons t next =>
        cases k with
        | zero =>
          have := h2 t (by simp)
          have := hp t (by simp)
          omega
        | succ k =>
          have e : rounds (t :: next ++ less []) (k + 1) = (t :: next).map (·.1) ++ rounds ([] ++ less (t :: next)) k := by
            rw [List.nil_append, ← rounds_succ fun u hu => hp u (by simpa using hu)]
            simp [less]
          rw [e]
          exact step (next := []) (by simpa using r) (by simpa using hp) h2 (fun u hu => by cases hu) (by simpa using hf)

end

/-! ## fairness -/

section
variable [DecidableEq τ]

theorem count_round {tasks : List (τ × Nat)} (hn : (tasks.map (·.1)).Nodup) {x : τ} {n : Nat} (hx : (x, n) ∈ tasks) (r : Nat) :
    ((tasks.filter fun t => decide (r < t.2)).map (·.1)).count x = if r < n then 1 else 0 := by
  have hnd : ((tasks.filter fun t => decide (r < t.2)).map (·.1)).Nodup := hn.sublist (List.filter_sublist.map _)
  by_cases h : r < n
  · rw [if_pos h]
    refine List.count_eq_one_of_mem hnd (List.mem_map.mpr ⟨(x, n), List.mem_filter.mpr ⟨hx, by simpa using h⟩, rfl⟩)
  · rw [if_neg h, List.count_eq_zero]
    intro hm
    obtain ⟨⟨y, m⟩, hy, rfl⟩ := List.mem_map.mp hm
    obtain ⟨hy, hr⟩ := List.mem_filter.mp hy
    have := List.inj_on_of_nodup_map hn hx hy rfl
    cases this
    simp only [decide_eq_true_eq] at hr
    exact h hr

theorem count_rounds {tasks : List (τ × Nat)} (hn : (tasks.map (·.1)).Nodup) {x : τ} {n : Nat} (hx : (x, n) ∈ tasks) (k : Nat) :
    (rounds tasks k).count x = min k n := by
  induction k with
  | zero => simp [rounds]
  | succ k ih =>
    unfold rounds at ih ⊢
    rw [List.range_succ, List.flatMap_append, List.count_append, ih, List.flatMap_singleton, count_round hn hx]
    split <;> omega

omit [DecidableEq τ] in
theorem prefix_rounds {tasks : List (τ × Nat)} {p : List τ} (k : Nat) (h : p <+: rounds tasks k) :
    ∃ r q, p = rounds tasks r ++ q ∧ q <+: (tasks.filter fun t => decide (r < t.2)).map (·.1) := by
  induction k with
  | zero =>
    have : p = [] := by simpa [rounds] using h
    exact ⟨0, [], by simp [this, rounds], List.nil_prefix⟩
  | succ k ih =>
    have e : rounds tasks (k + 1) = rounds tasks k ++ (tasks.filter fun t => decide (k < t.2)).map (·.1) := by
      unfold rounds
      rw [List.range_succ, List.flatMap_append, List.flatMap_singleton]
    rw [e] at h
    obtain ⟨t, ht⟩ := h
    rcases List.append_eq_append_iff.mp ht with ⟨u, h1, h2⟩ | ⟨u, h1, h2⟩
    · exact ih ⟨u, h1.symm⟩
    · exact ⟨k, u, h1, t, h2.symm⟩

end
end Client
