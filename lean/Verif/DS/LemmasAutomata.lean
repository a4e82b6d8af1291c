import Verif.DS.SpecAutomata
import Verif.DS.LemmasParity
/-!
# Lemmas for C140
-/

open Rust
namespace DS

section
variable {Q A : Type} {m : Automaton Q A}

/-- the successors of the pairs are connected -/
def Closed (m : Automaton Q A) (ps qs : List (Q × Q)) : Prop :=
  ∀ p ∈ ps, m.accepts p.1 = m.accepts p.2 ∧ ∀ a ∈ m.letters, Conn qs (m.next p.1 a) (m.next p.2 a)

theorem Closed.conn {ps : List (Q × Q)} (h : Closed m ps ps) {x y : Q} (hc : Conn ps x y) :
    m.accepts x = m.accepts y ∧ ∀ a ∈ m.letters, Conn ps (m.next x a) (m.next y a) := by
  induction hc with
  | refl a => exact ⟨rfl, fun _ _ => .refl _⟩
  | step hp => exact h _ hp
  | symm _ ih => exact ⟨ih.1.symm, fun a ha => (ih.2 a ha).symm⟩
  | trans _ _ ih1 ih2 => exact ⟨ih1.1.trans ih2.1, fun a ha => (ih1.2 a ha).trans (ih2.2 a ha)⟩

/-- connected states accept the same words -/
theorem Closed.alike {ps : List (Q × Q)} (h : Closed m ps ps) {x y : Q} (hc : Conn ps x y) : m.Alike x y := by
  intro w
  induction w generalizing x y with
  | nil => intro _; exact (h.conn hc).1
  | cons a w ih =>
    intro hw
    exact ih ((h.conn hc).2 a (hw a List.mem_cons_self)) fun b hb => hw b (List.mem_cons_of_mem _ hb)

theorem Closed.mono {ps qs rs : List (Q × Q)} (h : Closed m ps qs) (hm : ∀ {x y}, Conn qs x y → Conn rs x y) : Closed m ps rs :=
  fun p hp => ⟨(h p hp).1, fun a ha => hm ((h p hp).2 a ha)⟩

/-- a pair that is connected already may be left out -/
theorem conn_leave [DecidableEq Q] {ps todo : List (Q × Q)} {x y : Q} (h : Conn ps x y) {u v : Q} (hc : Conn (ps ++ (x, y) :: todo) u v) :
    Conn (ps ++ todo) u v := by
  refine conn_bind (fun p hp => ?_) hc
  rcases List.mem_append.mp hp with hp | hp
  · exact .step (List.mem_append_left _ hp)
  · rcases List.mem_cons.mp hp with rfl | hp
    · exact conn_mono (fun q hq => List.mem_append_left _ hq) h
    · exact .step (List.mem_append_right _ hp)

end

section
variable {Q A : Type} [DecidableEq Q] [Cfg]

omit [Cfg] in
theorem Rel.joins_le {s : DSet Q} {a : Abs Q} (r : Rel s a) : a.joins ≤ a.card := by
  have := r.roots
  rw [r.len, r.card] at this
  omega

theorem alike_ok {stack : Nat} (hk : 64 ≤ stack) {m : Automaton Q A} {all : List Q} (hall : all.dedup.length ≤ usizeMax)
    (hnext : ∀ x ∈ all, ∀ c ∈ m.letters, m.next x c ∈ all) {p q : Q} (fuel : Nat) :
    ∀ (todo : List (Q × Q)) {s : DSet Q} {a : Abs Q}, Rel s a → (∀ x ∈ a.elems, x ∈ all) →
      (∀ t ∈ todo, t.1 ∈ all ∧ t.2 ∈ all) →
      (∀ t ∈ todo, ∃ w, m.Word w ∧ t = (w.foldl m.next p, w.foldl m.next q)) →
      Closed m a.pairs (a.pairs ++ todo) → Conn (a.pairs ++ todo) p q →
      todo.length + m.letters.length * (all.dedup.length - a.joins) < fuel →
      ∃ b s' a', alike stack m fuel todo s = (.ok b, s') ∧ Rel s' a' ∧ a'.card ≤ usizeMax ∧ (b = true ↔ m.Alike p q) ∧
        (b = true → Closed m a'.pairs a'.pairs ∧ Conn a'.pairs p q) := by
  induction fuel with
  | zero => intro todo s a _ _ _ _ _ _ h; omega
  | succ fuel ih =>
    intro todo s a r ha ht hw hcl hpq hf
    have hcard : a.card ≤ usizeMax := Nat.le_trans (card_le ha) hall
    cases todo with
    | nil =>
      rw [List.append_nil] at hcl hpq
      exact ⟨true, s, a, rfl, r, hcard, by simpa using hcl.alike hpq, fun _ => ⟨hcl, hpq⟩⟩
    | cons t todo =>
      obtain ⟨x, y⟩ := t
      have ht' : ∀ t ∈ todo, t.1 ∈ all ∧ t.2 ∈ all := fun t h => ht t (List.mem_cons_of_mem _ h)
      have hw' : ∀ t ∈ todo, ∃ w, m.Word w ∧ t = (w.foldl m.next p, w.foldl m.next q) := fun t h => hw t (List.mem_cons_of_mem _ h)
      rw [List.length_cons] at hf
      have skip : Conn a.pairs x y → ∀ {s' : DSet Q}, Rel s' a → ∃ b s'' a', alike stack m fuel todo s' = (.ok b, s'') ∧
          Rel s'' a' ∧ a'.card ≤ usizeMax ∧ (b = true ↔ m.Alike p q) ∧
          (b = true → Closed m a'.pairs a'.pairs ∧ Conn a'.pairs p q) := fun h s' r' =>
        ih todo r' ha ht' hw' (hcl.mono (conn_leave h)) (conn_leave h hpq) (by omega)
      unfold alike
      by_cases hxy : x = y
      · rw [if_pos hxy]
        exact skip (hxy ▸ .refl _) r
      rw [if_neg hxy]
      obtain ⟨b, s1, h1, tw, h2⟩ := inUnion_ok (stack := stack) r (by rw [r.card]; exact lt_two_pow hcard hk) x y
      rw [M.bind_ok h1]
      cases b with
      | true => exact skip (h2.mp rfl).2.2 (tw.rel r)
      | false =>
        have hn : ¬ Conn a.pairs x y := fun h => by
          rcases conn_support r.pairs h with h' | ⟨h3, h4⟩
          · exact hxy h'
          · simpa using h2.mpr ⟨h3, h4, h⟩
        obtain ⟨w, ww, hxw⟩ := hw (x, y) List.mem_cons_self
        obtain ⟨rfl, rfl⟩ := Prod.mk.inj hxw
        by_cases hacc : m.accepts (w.foldl m.next p) = m.accepts (w.foldl m.next q)
        · simp only [Bool.false_eq_true, if_false, hacc, bne_self_eq_false]
          have e1 : ∀ z, z ∈ (a.step (.union (w.foldl m.next p) (w.foldl m.next q) false false)).elems ↔
              z = w.foldl m.next q ∨ z = w.foldl m.next p ∨ z ∈ a.elems := fun z => by simp [Abs.step]
          have p1 : (a.step (.union (w.foldl m.next p) (w.foldl m.next q) false false)).pairs =
              (w.foldl m.next p, w.foldl m.next q) :: a.pairs := by simp [Abs.step]
          have j1 : (a.step (.union (w.foldl m.next p) (w.foldl m.next q) false false)).joins = a.joins + 1 := by
            simp [Abs.step, hn]
          have hx := ht _ List.mem_cons_self
          have ha1 : ∀ z ∈ (a.step (.union (w.foldl m.next p) (w.foldl m.next q) false false)).elems, z ∈ all := fun z hz => by
            rcases (e1 z).mp hz with rfl | rfl | hz
            · exact hx.2
            · exact hx.1
            · exact ha z hz
          have hc1 := card_le ha1
          obtain ⟨s2, g1, r2⟩ := union_run hk (tw.rel r) (w.foldl m.next p) (w.foldl m.next q) (Nat.le_trans hc1 hall)
          have hj := r2.joins_le
          rw [M.bind_ok g1]
          generalize a.step (.union (w.foldl m.next p) (w.foldl m.next q) false false) = a1 at *
          have hup : ∀ {u v : Q}, Conn (a.pairs ++ (w.foldl m.next p, w.foldl m.next q) :: todo) u v →
              Conn (a1.pairs ++ ((m.letters.map fun c => (m.next (w.foldl m.next p) c, m.next (w.foldl m.next q) c)).reverse ++ todo))
                u v := conn_mono fun t h => by
            rw [p1]
            simp only [List.mem_append, List.mem_cons] at h ⊢
            tauto
          refine ih _ r2 ha1 (fun t h => ?_) (fun t h => ?_) ?_ (hup hpq) ?_
          · rcases List.mem_append.mp h with h | h
            · obtain ⟨c, hc, rfl⟩ := List.mem_map.mp (List.mem_reverse.mp h)
              exact ⟨hnext _ hx.1 c hc, hnext _ hx.2 c hc⟩
            · exact ht' t h
          · rcases List.mem_append.mp h with h | h
            · obtain ⟨c, hc, rfl⟩ := List.mem_map.mp (List.mem_reverse.mp h)
              refine ⟨w ++ [c], fun d hd => ?_, by simp⟩
              rcases List.mem_append.mp hd with hd | hd
              · exact ww d hd
              · rw [List.mem_singleton.mp hd]; exact hc
            · exact hw' t h
          · intro t h
            rw [p1] at h
            rcases List.mem_cons.mp h with rfl | h
            · refine ⟨hacc, fun c hc => .step ?_⟩
              refine List.mem_append_right _ (List.mem_append_left _ (List.mem_reverse.mpr ?_))
              exact List.mem_map.mpr ⟨c, hc, rfl⟩
            · exact (hcl.mono hup) t h
          · rw [List.length_append, List.length_reverse, List.length_map, j1]
            have hle : a.joins + 1 ≤ all.dedup.length := by
              rw [j1] at hj
              exact Nat.le_trans hj hc1
            have : all.dedup.length - a.joins = (all.dedup.length - (a.joins + 1)) + 1 := by omega
            rw [this, Nat.mul_add, Nat.mul_one] at hf
            omega
        · refine ⟨false, s1, a, ?_, tw.rel r, hcard, ?_, fun h => by cases h⟩
          · have : (m.accepts (w.foldl m.next p) != m.accepts (w.foldl m.next q)) = true := by
              rw [bne_iff_ne]; exact hacc
            simp only [Bool.false_eq_true, if_false, this, if_true]
            rfl
          · simp only [Bool.false_eq_true, false_iff]
            exact fun h => hacc (h w ww)

end
end DS
