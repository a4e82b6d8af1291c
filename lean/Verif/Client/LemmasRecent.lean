import Verif.Client.SpecRecent
import Verif.CB.PropsTurn
import Verif.CB.Props
import Verif.Client.LemmasUndo
import Mathlib.Order.Nat
/-!
# Lemmas for C144
-/

open Rust CB
namespace Client

section
variable {α : Type} [DecidableEq α]

theorem dedup_snoc (l : List α) (x : α) : (l ++ [x]).dedup = l.dedup.filter (fun k => decide (k ≠ x)) ++ [x] := by
  induction l with
  | nil => rfl
  | cons a l ih =>
    rw [List.cons_append]
    by_cases h : a ∈ l
    · rw [List.dedup_cons_of_mem (List.mem_append_left _ h), List.dedup_cons_of_mem h, ih]
    · rw [List.dedup_cons_of_notMem h]
      by_cases e : a = x
      · subst e
        rw [List.dedup_cons_of_mem (List.mem_append_right _ (by simp)), ih, List.filter_cons_of_neg (by simp)]
      · rw [List.dedup_cons_of_notMem (by simp [h, e]), ih, List.filter_cons_of_pos (by simp [e])]
        rfl

theorem filter_ne_length {l : List α} (h : l.Nodup) (x : α) : l.length ≤ (l.filter fun k => decide (k ≠ x)).length + 1 := by
  have h1 := List.length_eq_length_filter_add (l := l) (fun k => decide (k = x))
  have h2 : (l.filter fun k => decide (k = x)).length ≤ 1 := by
    have := List.nodup_iff_count_le_one.mp h x
    rwa [List.count_eq_length_filter, show (fun y : α => y == x) = fun k => decide (k = x) from funext fun k => rfl] at this
  have h3 : (l.filter fun k => !decide (k = x)) = l.filter fun k => decide (k ≠ x) :=
    List.filter_congr fun k _ => by simp
  rw [h3] at h1
  omega

omit [DecidableEq α] in
theorem lastN_app {n : Nat} {p l : List α} (h : n ≤ l.length) : lastN n (p ++ l) = lastN n l := by
  unfold lastN
  rw [List.length_append, List.drop_append, List.drop_of_length_le (by omega), List.nil_append]
  congr 1
  omega

omit [DecidableEq α] in
theorem lastN_suffix (n : Nat) (l : List α) : ∃ p, l = p ++ lastN n l ∧ (p = [] ∨ (lastN n l).length = n) := by
  refine ⟨l.take (l.length - n), (List.take_append_drop _ _).symm, ?_⟩
  by_cases h : l.length ≤ n
  · exact .inl (by rw [Nat.sub_eq_zero_of_le h, List.take_zero])
  · exact .inr (by unfold lastN; rw [List.length_drop]; omega)

theorem recent_step {n : Nat} {l : List α} (hl : l.Nodup) (x : α) :
    lastN n ((lastN n l).filter (fun k => decide (k ≠ x)) ++ [x]) = lastN n (l.filter (fun k => decide (k ≠ x)) ++ [x]) := by
  obtain ⟨p, h1, h2⟩ := lastN_suffix n l
  rcases h2 with rfl | h2
  · rw [List.nil_append] at h1
    rw [← h1]
  · generalize lastN n l = q at h1 h2
    subst h1
    rw [List.filter_append, List.append_assoc]
    refine (lastN_app ?_).symm
    have := filter_ne_length (hl.sublist (List.sublist_append_right p q)) x
    rw [List.length_append, List.length_singleton]
    omega

omit [DecidableEq α] in
theorem mem_lastN {n : Nat} {t d : List α} {x : α} (h2 : x ∉ d) : x ∈ lastN n (t ++ x :: d) ↔ d.length < n := by
  unfold lastN
  rw [List.length_append, List.length_cons]
  by_cases h : d.length < n
  · refine ⟨fun _ => h, fun _ => ?_⟩
    rw [List.drop_append_of_le_length (by omega)]
    simp
  · refine ⟨fun hm => absurd ?_ h2, fun g => absurd g h⟩
    rw [List.drop_append, List.drop_of_length_le (by omega), List.nil_append] at hm
    rw [show t.length + (d.length + 1) - n - t.length = d.length - n + 1 by omega, List.drop_succ_cons] at hm
    exact List.mem_of_mem_drop hm

theorem mem_lastN_dedup {n : Nat} {past : List α} {x : α} : x ∈ lastN n past.dedup ↔ Fresh n past x := by
  have key : ∀ {a b : List α}, x ∉ b → (x ∈ lastN n (a ++ x :: b).dedup ↔ b.dedup.length < n) := by
    intro a b hb
    obtain ⟨t, _, ht⟩ := List.sublist_suffix_of_union a (x :: b).dedup
    rw [List.dedup_append, ← ht, List.dedup_cons_of_notMem hb]
    exact mem_lastN fun h => hb (List.mem_dedup.mp h)
  constructor
  · intro h
    have hm : x ∈ past := List.mem_dedup.mp (List.mem_of_mem_drop h)
    obtain ⟨a, b, e, hb⟩ : ∃ a b, past = a ++ x :: b ∧ x ∉ b := by
      obtain ⟨a, b, h1, h2⟩ := List.eq_append_cons_of_mem (List.mem_reverse.mpr hm)
      refine ⟨b.reverse, a.reverse, ?_, by simpa using h2⟩
      rw [← List.reverse_reverse past, h1]
      simp
    subst e
    exact ⟨a, b, rfl, hb, (key hb).mp h⟩
  · rintro ⟨a, b, rfl, hb, hl⟩
    exact (key hb).mpr hl

end

section
variable {α : Type} [Cfg] [Elem α] [DecidableEq α] {n : Nat}

theorem refresh_ok (hd : ∀ x : α, Elem.dropPanics x = false) {cb : Buf α} {past : List α} (h : Fit cb n (lastN n past.dedup))
    (key : α) (dr : List α) :
    ∃ hit cb' dr', refresh key ⟨cb, dr⟩ = (.ok hit, ⟨cb', dr'⟩) ∧ Fit cb' n (lastN n (past ++ [key]).dedup) ∧
      (hit = true ↔ key ∈ lastN n past.dedup) := by
  obtain ⟨cb1, e1, h1⟩ := retainLoop_sim (cb := cb) (n := n) (done := []) (keep := fun k => .ok (decide (k ≠ key)))
    (p := fun k => decide (k ≠ key)) (lastN n past.dedup) dr (by simpa using h) (fun _ _ => rfl) (fun x _ _ => hd x)
  rw [List.nil_append] at h1
  obtain ⟨cb2, e2, r2⟩ := push_calm (s := ⟨cb1, dr ++ (lastN n past.dedup).filter (fun k => !decide (k ≠ key))⟩) hd h1.2 key
  obtain ⟨dr2, e2⟩ : ∃ dr2, pushBack key ⟨cb1, dr ++ (lastN n past.dedup).filter (fun k => !decide (k ≠ key))⟩
      = (.ok (), ⟨cb2, dr2⟩) := ⟨_, e2⟩
  have e0 : retain (fun k => .ok (decide (k ≠ key))) ⟨cb, dr⟩
      = (.ok (), ⟨cb1, dr ++ (lastN n past.dedup).filter (fun k => !decide (k ≠ key))⟩) := by
    unfold retain
    rw [self_bind _ _ h.2.len_eq]
    exact e1 0
  refine ⟨(lastN n past.dedup).any fun k => decide (k = key), cb2, dr2, ?_, ⟨?_, ?_⟩, ?_⟩
  · unfold refresh
    rw [self_bind _ _ h.2.contents_eq, M.bind_ok e0, M.bind_ok e2]
    rfl
  · have g := Reachable.step (.pushBack key) (dr ++ (lastN n past.dedup).filter (fun k => !decide (k ≠ key))) h1.1 trivial
    rw [step_pushBack, e2] at g
    exact g
  · rw [dedup_snoc, ← recent_step (List.nodup_dedup _)]
    exact r2
  · simp

theorem serve_ok (hd : ∀ x : α, Elem.dropPanics x = false) (keys : List α) : ∀ {cb : Buf α} {past : List α} (dr : List α),
    Fit cb n (lastN n past.dedup) →
    ∃ hits cb' dr', serve refresh keys ⟨cb, dr⟩ = (.ok hits, ⟨cb', dr'⟩) ∧ Fit cb' n (lastN n (past ++ keys).dedup) ∧
      hits.length = keys.length ∧ ∀ pre key post, keys = pre ++ key :: post →
        ∃ hit, hits[pre.length]? = some hit ∧ (hit = true ↔ Fresh n (past ++ pre) key) := by
  induction keys with
  | nil =>
    intro cb past dr h
    exact ⟨[], cb, dr, rfl, by simpa using h, rfl, fun pre key post e => by simp at e⟩
  | cons key keys ih =>
    intro cb past dr h
    obtain ⟨hit, cb1, dr1, e1, h1, b1⟩ := refresh_ok hd h key dr
    obtain ⟨hits, cb2, dr2, e2, h2, l2, b2⟩ := ih dr1 h1
    refine ⟨hit :: hits, cb2, dr2, ?_, by simpa using h2, by simp [l2], fun pre k post e => ?_⟩
    · unfold serve
      rw [M.bind_ok e1, M.bind_ok e2]
      rfl
    · cases pre with
      | nil =>
        obtain ⟨rfl, rfl⟩ := List.cons.inj e
        exact ⟨hit, rfl, by rw [b1, mem_lastN_dedup, List.append_nil]⟩
      | cons a pre =>
        obtain ⟨rfl, e'⟩ := List.cons.inj e
        obtain ⟨hit', g1, g2⟩ := b2 pre k post e'
        refine ⟨hit', by simpa using g1, ?_⟩
        rw [g2, List.append_assoc, List.singleton_append]

end
end Client
