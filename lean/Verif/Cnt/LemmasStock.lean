import Verif.Cnt.SpecStock
import Verif.Cnt.LemmasDistance
/-!
# Lemmas for C146
-/

open Rust
namespace Cnt
open Counter

section
variable {T : Type} [DecidableEq T] [Cfg] {iter : Counter T → List (T × Nat)}

theorem stores_extend {c : Counter T} {l : List T} (h : Stores c fun k => l.count k) {items : List T}
    (hf : ∀ k, (l ++ items).count k ≤ usizeMax) :
    ∃ c', extend items false c = (.ok (), c') ∧ Stores c' fun k => (l ++ items).count k := by
  obtain ⟨c', h1, h2, h3⟩ := feed_run (.extend items false) h.1 (fun k => by
    have := hf k
    rw [List.count_append] at this
    rw [h.mult]
    exact this)
  refine ⟨c', h1, h2, fun k => ?_⟩
  rw [h3, h.mult, h.2]
  simp only [Feed.items, List.count_append]
  by_cases hk : k ∈ items
  · have := List.count_pos_iff.mpr hk
    rw [if_pos hk, if_neg (by omega)]
  · rw [if_neg hk, List.count_eq_zero_of_not_mem hk, Nat.add_zero]

theorem stores_subAssign {a b : Counter T} {f g : T → Nat} (ha : Stores a f) (hb : Stores b g) {order : List (T × Nat)}
    (ho : IterOf order b) : ∃ c, subAssign order false a = (.ok (), c) ∧ Stores c fun k => f k - g k := by
  obtain ⟨c, h1, h2⟩ := stores_sub ha hb ho
  obtain ⟨c', g1, _, g2, _⟩ := c48_subtraction ha.1 hb.1 ho
  rw [h1] at g1
  cases g1
  exact ⟨c, g2, h2⟩

theorem trade_ok (hi : ∀ c, IterOf (iter c) c) {c : Counter T} {l : List T} (h : Stores c fun k => l.count k) (t : Trade T)
    (hd : ∀ k, (l ++ delivered [t]).count k ≤ usizeMax) (ho : ∀ k, t.ordered k ≤ usizeMax) :
    ∃ filled c' l', trade iter t c = (.ok filled, c') ∧ (Stores c' fun k => l'.count k) ∧
      (∀ k, (l ++ delivered [t]).count k = (sold [t] [filled] ++ l').count k) ∧
      ∀ items, t = .order items → (filled = true ↔ items.Subperm l) := by
  cases t with
  | deliver items =>
    obtain ⟨c', h1, h2⟩ := stores_extend h (items := items) (by simpa [delivered] using hd)
    refine ⟨true, c', l ++ items, ?_, h2, by simp [delivered, sold], fun i e => by cases e⟩
    rw [trade, M.bind_ok h1]
    rfl
  | order items =>
    obtain ⟨w, h1, h2⟩ := stores_fromIter (items := items) ho
    obtain ⟨m, h3, h4⟩ := stores_subRef h2 h (hi c)
    have h1' : (M.lift (fromIter items) : M (Counter T) _) c = (.ok w, c) := by rw [h1]; rfl
    have h3' : (M.lift (subRef (iter c) w) : M (Counter T) _) c = (.ok m, c) := by rw [h3]; rfl
    have hget : (M.get : M (Counter T) (Counter T)) c = (.ok c, c) := rfl
    have hsub : m.len = 0 ↔ items.Subperm l := by
      rw [h4.len_eq_zero, List.subperm_iff_count]
      exact forall_congr' fun k => by omega
    by_cases hm : m.len = 0
    · obtain ⟨c', g1, g2⟩ := stores_subAssign h h2 (hi w)
      refine ⟨true, c', l.diff items, ?_, ?_, fun k => ?_, fun i e => ?_⟩
      · rw [trade, M.bind_ok h1', M.bind_ok hget, M.bind_ok h3', if_pos hm, M.bind_ok g1]
        rfl
      · refine ⟨g2.1, fun k => ?_⟩
        simp only [g2.2, List.count_diff]
      · have := List.subperm_iff_count.mp (hsub.mp hm) k
        simp only [delivered, sold, List.append_nil, List.count_append, List.count_diff]
        omega
      · cases e
        exact ⟨fun _ => hsub.mp hm, fun _ => rfl⟩
    · refine ⟨false, c, l, ?_, h, fun k => by simp [delivered, sold], fun i e => ?_⟩
      · rw [trade, M.bind_ok h1', M.bind_ok hget, M.bind_ok h3', if_neg hm]
        rfl
      · cases e
        exact ⟨fun e => Bool.noConfusion e, fun e => absurd (hsub.mpr e) hm⟩

omit [DecidableEq T] [Cfg] in
theorem delivered_cons (t : Trade T) (ts : List (Trade T)) : delivered (t :: ts) = delivered [t] ++ delivered ts := by
  cases t <;> simp [delivered]

omit [DecidableEq T] [Cfg] in
theorem sold_cons (t : Trade T) (ts : List (Trade T)) (b : Bool) (bs : List Bool) :
    sold (t :: ts) (b :: bs) = sold [t] [b] ++ sold ts bs := by
  cases t <;> cases b <;> simp [sold]

theorem tradeAll_ok (hi : ∀ c, IterOf (iter c) c) (ts : List (Trade T)) : ∀ {c : Counter T} {l : List T},
    (Stores c fun k => l.count k) → (∀ k, (l ++ delivered ts).count k ≤ usizeMax) → (∀ t ∈ ts, ∀ k, t.ordered k ≤ usizeMax) →
    ∃ bs c' l', tradeAll iter ts c = (.ok bs, c') ∧ (Stores c' fun k => l'.count k) ∧ bs.length = ts.length ∧
      (∀ k, (l ++ delivered ts).count k = (sold ts bs ++ l').count k) ∧
      ∀ pre items post, ts = pre ++ .order items :: post → ∃ b left, bs[pre.length]? = some b ∧
        (l ++ delivered pre).Perm (sold pre (bs.take pre.length) ++ left) ∧ (b = true ↔ items.Subperm left) := by
  induction ts with
  | nil =>
    intro c l h _ _
    exact ⟨[], c, l, rfl, h, rfl, fun k => by simp [delivered, sold], fun pre items post e => by simp at e⟩
  | cons t ts ih =>
    intro c l h hd ho
    have hd1 : ∀ k, (l ++ delivered [t]).count k ≤ usizeMax := fun k => by
      have := hd k
      rw [delivered_cons] at this
      simp only [List.count_append] at this ⊢
      omega
    obtain ⟨b, c1, l1, h1, h2, h3, h4⟩ := trade_ok hi h t hd1 (ho t List.mem_cons_self)
    obtain ⟨bs, c2, l2, g1, g2, g3, g4, g5⟩ := ih h2 (fun k => by
      have := hd k
      have h3 := h3 k
      rw [delivered_cons] at this
      simp only [List.count_append] at this h3 ⊢
      omega) fun u hu => ho u (List.mem_cons_of_mem _ hu)
    refine ⟨b :: bs, c2, l2, ?_, g2, by simp [g3], fun k => ?_, fun pre items post e => ?_⟩
    · unfold tradeAll
      rw [M.bind_ok h1, M.bind_ok g1]
      rfl
    · have h3 := h3 k
      have g4 := g4 k
      rw [delivered_cons, sold_cons]
      simp only [List.count_append] at h3 g4 ⊢
      omega
    · cases pre with
      | nil =>
        obtain ⟨rfl, rfl⟩ := List.cons.inj e
        exact ⟨b, l, rfl, by simp [delivered, sold], h4 items rfl⟩
      | cons u pre =>
        obtain ⟨rfl, e'⟩ := List.cons.inj e
        obtain ⟨b', left, k1, k2, k3⟩ := g5 pre items post e'
        refine ⟨b', left, by simpa using k1, ?_, k3⟩
        rw [List.length_cons, List.take_succ_cons, delivered_cons, sold_cons, List.perm_iff_count]
        intro k
        have h3 := h3 k
        have k2 := k2.count_eq k
        simp only [List.count_append] at h3 k2 ⊢
        omega

end
end Cnt
