import Verif.Client.SpecLocks
import Verif.Client.LemmasBfs
import Verif.Itv.Props
/-!
# Lemmas for C153
-/

open Rust CB
namespace Client

section
variable {α T : Type} [Cfg] [Elem α] [DecidableEq α] [LinearOrder T] {range : α → Itv.Interval T} {n : Nat}

/-- the first in the line has to wait -/
def Blocked (range : α → Itv.Interval T) (waiting held : List α) : Prop :=
  ∀ r, waiting.head? = some r → ∃ h ∈ held, (range h).intersects (range r) = true

omit [Cfg] [Elem α] [DecidableEq α] in
theorem onWaiting_ok {β : Type} {m : M (St α) β} {s : Locks α} {b : β} {q : St α} (h : m s.line = (.ok b, q)) :
    onWaiting m s = (.ok b, { s with line := q }) := by rw [onWaiting, h]

omit [DecidableEq α] in
theorem grantSome_ok (hob : ∀ r, Itv.Obtainable (range r)) (k : Nat) : ∀ {waiting : List α} {s : Locks α},
    Rep s.line.cb ⟨n, waiting⟩ → s.held.Pairwise (Unshared range) → waiting.length ≤ k →
    ∃ g w cb, grantSome range k s = (.ok g, ⟨⟨cb, s.line.dropped⟩, s.held ++ g⟩) ∧ waiting = g ++ w ∧ Rep cb ⟨n, w⟩ ∧
      (s.held ++ g).Pairwise (Unshared range) ∧ Blocked range w (s.held ++ g) ∧ (Blocked range waiting s.held → g = []) := by
  induction k with
  | zero =>
    intro waiting s hr hp hk
    have : waiting = [] := List.length_eq_zero_iff.mp (by omega)
    subst this
    exact ⟨[], [], s.line.cb, by simp [grantSome]; rfl, rfl, hr, by simpa using hp, by simp [Blocked], fun _ => rfl⟩
  | succ k ih =>
    intro waiting s hr hp hk
    have hfirst : (self_ Buf.first : M (St α) _) s.line = (.ok waiting.head?, s.line) := by
      show (s.line.cb.first, s.line) = _
      rw [hr.first_eq]
    unfold grantSome
    rw [M.bind_ok (onWaiting_ok hfirst)]
    cases waiting with
    | nil => exact ⟨[], [], s.line.cb, by simp only [List.append_nil]; rfl, rfl, hr, by simpa using hp, by simp [Blocked], fun _ => rfl⟩
    | cons r waiting =>
      simp only [List.head?_cons]
      have hget : (M.get : M (Locks α) (Locks α)) s = (.ok s, s) := rfl
      rw [M.bind_ok hget]
      by_cases hany : (s.held.any fun h => (range h).intersects (range r)) = true
      · rw [if_pos hany]
        obtain ⟨h, h1, h2⟩ := List.any_eq_true.mp hany
        refine ⟨[], r :: waiting, s.line.cb, by simp only [List.append_nil]; rfl, rfl, hr, by simpa using hp, ?_, fun _ => rfl⟩
        intro x hx
        simp only [List.head?_cons, Option.some.injEq] at hx
        subst hx
        exact ⟨h, by simpa using h1, h2⟩
      · rw [if_neg hany]
        obtain ⟨cb, h1, h2⟩ := popFront_sim hr
        simp only [List.head?_cons, List.tail_cons] at h1 h2
        rw [M.bind_ok (onWaiting_ok h1)]
        dsimp only
        have hmod : (M.modify fun s => { s with held := s.held ++ [r] } : M (Locks α) Unit) ⟨⟨cb, s.line.dropped⟩, s.held⟩
          = (.ok (), ⟨⟨cb, s.line.dropped⟩, s.held ++ [r]⟩) := rfl
        rw [M.bind_ok hmod]
        have hno : ∀ h ∈ s.held, Unshared range h r := fun h hm =>
          (Itv.c27_intersects_partial (hob h) (hob r)).1 (by
            rw [← Bool.not_eq_true]
            exact fun hi => hany (List.any_eq_true.mpr ⟨h, hm, hi⟩))
        obtain ⟨g, w, cb', g1, g2, g3, g4, g5, _⟩ := ih (s := ⟨⟨cb, s.line.dropped⟩, s.held ++ [r]⟩) h2
          (List.pairwise_append.mpr ⟨hp, List.pairwise_singleton _ _, fun a ha b hb => by
            rw [List.mem_singleton.mp hb]; exact hno a ha⟩) (by simpa using hk)
        have e : s.held ++ [r] ++ g = s.held ++ r :: g := by simp
        dsimp only at g1 g4 g5
        rw [e] at g1 g4 g5
        refine ⟨r :: g, w, cb', ?_, by rw [g2]; rfl, g3, g4, g5, fun hb => ?_⟩
        · rw [M.bind_ok g1]
          rfl
        · obtain ⟨h, hm, hi⟩ := hb r rfl
          exact absurd (List.any_eq_true.mpr ⟨h, hm, hi⟩) hany

omit [DecidableEq α] in
theorem grantAll_ok (hob : ∀ r, Itv.Obtainable (range r)) {waiting : List α} {s : Locks α}
    (hr : Rep s.line.cb ⟨n, waiting⟩) (hp : s.held.Pairwise (Unshared range)) :
    ∃ g w cb, grantAll range s = (.ok g, ⟨⟨cb, s.line.dropped⟩, s.held ++ g⟩) ∧ waiting = g ++ w ∧ Rep cb ⟨n, w⟩ ∧
      (s.held ++ g).Pairwise (Unshared range) ∧ Blocked range w (s.held ++ g) ∧ (Blocked range waiting s.held → g = []) := by
  have hlen : (self_ Buf.len : M (St α) _) s.line = (.ok waiting.length, s.line) := by
    show (s.line.cb.len, s.line) = _
    rw [hr.len_eq]
  obtain ⟨g, w, cb, g1, g2⟩ := grantSome_ok hob waiting.length hr hp (Nat.le_refl _)
  exact ⟨g, w, cb, by rw [grantAll, M.bind_ok (onWaiting_ok hlen)]; exact g1, g2⟩

/-- What holds between calls. -/
structure Guarded (range : α → Itv.Interval T) (n : Nat) (s : Locks α) (waiting : List α) : Prop where
  rep : Rep s.line.cb ⟨n, waiting⟩
  apart : s.held.Pairwise (Unshared range)
  blocked : Blocked range waiting s.held

theorem answer_ok (hob : ∀ r, Itv.Obtainable (range r)) {waiting : List α} {s : Locks α} (h : Guarded range n s waiting) (q : Ask α) :
    ∃ a g w s', answer range q s = (.ok (a, g), s') ∧ Guarded range n s' w ∧ s'.line.dropped = s.line.dropped ∧
      waiting ++ a = g ++ w ∧ a.Sublist (asking [q]) ∧
      (∀ x, x ∈ s'.held ↔ (x ∈ s.held ∧ q ≠ .release x) ∨ x ∈ g) ∧
      (∀ r, q = .acquire r → (a = [r] ↔ waiting.length ≠ n) ∧ (waiting.length = n → a = [] ∧ g = []) ∧
        (Blocked range (waiting ++ [r]) s.held → g = [])) ∧
      (∀ r, q = .release r → a = []) := by
  cases q with
  | acquire r =>
    have hfull : (self_ Buf.isFull : M (St α) _) s.line = (.ok (waiting.length == n), s.line) := by
      show (s.line.cb.isFull, s.line) = _
      rw [h.rep.isFull_eq]
    by_cases hn : waiting.length = n
    · refine ⟨[], [], waiting, s, ?_, h, rfl, by simp, by simp, fun x => by simp, fun r' hr' => ?_, by simp⟩
      · rw [answer, M.bind_ok (onWaiting_ok hfull), if_pos (by simpa using hn)]
        rfl
      · exact ⟨by simp [hn], fun _ => ⟨rfl, rfl⟩, fun _ => rfl⟩
    · have hle : waiting.length < n := Nat.lt_of_le_of_ne h.rep.le_cap hn
      obtain ⟨cb, h1, h2⟩ := pushBack_room h.rep hle r
      obtain ⟨g, w, cb', g1, g2, g3, g4, g5, g6⟩ := grantAll_ok hob (s := ⟨⟨cb, s.line.dropped⟩, s.held⟩) h2 h.apart
      refine ⟨[r], g, w, ⟨⟨cb', s.line.dropped⟩, s.held ++ g⟩, ?_, ⟨g3, g4, g5⟩, rfl, g2, by simp [asking], fun x => by simp, fun r' hr' => ?_, by simp⟩
      · rw [answer, M.bind_ok (onWaiting_ok hfull), if_neg (by simpa using hn), M.bind_ok (onWaiting_ok h1), M.bind_ok g1]
        rfl
      · cases hr'
        exact ⟨by simp [hn], fun e => absurd e hn, g6⟩
  | release r =>
    have hmod : (M.modify fun s => { s with held := s.held.filter fun h => decide (h ≠ r) } : M (Locks α) Unit) s
      = (.ok (), ⟨s.line, s.held.filter fun h => decide (h ≠ r)⟩) := rfl
    obtain ⟨g, w, cb', g1, g2, g3, g4, g5, g6⟩ := grantAll_ok hob
      (s := ⟨s.line, s.held.filter fun h => decide (h ≠ r)⟩) h.rep (h.apart.filter _)
    refine ⟨[], g, w, ⟨⟨cb', s.line.dropped⟩, (s.held.filter fun h => decide (h ≠ r)) ++ g⟩, ?_, ⟨g3, g4, g5⟩, rfl, by simpa using g2, by simp, fun x => ?_, by simp, by simp⟩
    · rw [answer, M.bind_ok hmod, M.bind_ok g1]
      rfl
    · simp only [List.mem_append, List.mem_filter, decide_eq_true_eq]
      have : (Ask.release r ≠ Ask.release x) ↔ x ≠ r := by
        constructor
        · rintro h rfl; exact h rfl
        · rintro h ⟨⟩; exact h rfl
      rw [this]

omit [Cfg] [Elem α] [DecidableEq α] in
theorem asking_release (l : List α) : asking (l.map Ask.release) = [] := by
  induction l with
  | nil => rfl
  | cons x l ih => exact ih

omit [Cfg] [Elem α] [DecidableEq α] in
theorem asking_cons (q : Ask α) (qs : List (Ask α)) : asking (q :: qs) = asking [q] ++ asking qs := by
  cases q <;> rfl

theorem answerAll_ok (hob : ∀ r, Itv.Obtainable (range r)) (qs : List (Ask α)) : ∀ {waiting : List α} {s : Locks α},
    Guarded range n s waiting →
    ∃ a g w s', answerAll range qs s = (.ok (a, g), s') ∧ Guarded range n s' w ∧ s'.line.dropped = s.line.dropped ∧
      waiting ++ a = g ++ w ∧ a.Sublist (asking qs) ∧ (∀ x ∈ s'.held, x ∈ s.held ∨ x ∈ g) ∧
      (∀ x, x ∈ s.held ∨ x ∈ g → .release x ∉ qs → x ∈ s'.held) := by
  induction qs with
  | nil => intro w s h; exact ⟨[], [], w, s, rfl, h, rfl, by simp, by simp, fun x hx => .inl hx, fun x hx _ => by simpa using hx⟩
  | cons q qs ih =>
    intro waiting s h
    obtain ⟨a, g, w, s1, h1, h2, h3, h4, h5, h6, _⟩ := answer_ok hob h q
    obtain ⟨a', g', w', s2, k1, k2, k3, k4, k5, k6, k7⟩ := ih h2
    refine ⟨a ++ a', g ++ g', w', s2, ?_, k2, k3.trans h3, ?_, ?_, fun x hx => ?_, fun x hx hn => ?_⟩
    · rw [answerAll, M.bind_ok h1]
      show (answerAll range qs >>= fun p => pure (a ++ p.1, g ++ p.2)) s1 = _
      rw [M.bind_ok k1]
      rfl
    · rw [← List.append_assoc, h4, List.append_assoc, k4, List.append_assoc]
    · rw [asking_cons]
      exact h5.append k5
    · rcases k6 x hx with hx | hx
      · rcases (h6 x).mp hx with hx | hx
        · exact .inl hx.1
        · exact .inr (List.mem_append_left _ hx)
      · exact .inr (List.mem_append_right _ hx)
    · simp only [List.mem_cons, not_or] at hn
      refine k7 x ?_ hn.2
      rcases hx with hx | hx
      · exact .inl ((h6 x).mpr (.inl ⟨hx, fun e => hn.1 e.symm⟩))
      · rcases List.mem_append.mp hx with hx | hx
        · exact .inl ((h6 x).mpr (.inr hx))
        · exact .inr hx

/-- when all that is held is released, the first in the line gets its range -/
theorem progress (hob : ∀ r, Itv.Obtainable (range r)) (l : List α) : ∀ {r : α} {waiting : List α} {s : Locks α},
    Guarded range n s (r :: waiting) → (∀ x ∈ s.held, x ∈ l) →
    ∃ g s', answerAll range (l.map .release) s = (.ok ([], g), s') ∧ g.head? = some r := by
  induction l with
  | nil =>
    intro r waiting s h hl
    obtain ⟨x, hx, _⟩ := h.blocked r rfl
    exact absurd (hl x hx) (by simp)
  | cons x l ih =>
    intro r waiting s h hl
    obtain ⟨a, g, w, s1, h1, h2, h3, h4, h5, h6, _, h7⟩ := answer_ok hob h (.release x)
    obtain rfl := h7 x rfl
    rw [List.append_nil] at h4
    cases g with
    | nil =>
      rw [List.nil_append] at h4
      subst h4
      obtain ⟨g, s', k1, k2⟩ := ih h2 fun y hy => by
        rcases (h6 y).mp hy with ⟨hy, hne⟩ | hy
        · exact (List.mem_cons.mp (hl y hy)).resolve_left fun e => hne (by rw [e])
        · cases hy
      refine ⟨g, s', ?_, k2⟩
      rw [List.map_cons, answerAll, M.bind_ok h1]
      show (answerAll range (l.map .release) >>= fun p => pure ([] ++ p.1, [] ++ p.2)) s1 = _
      rw [M.bind_ok k1]
      rfl
    | cons y g =>
      cases h4
      obtain ⟨a', g', w', s2, k1, _, _, _, k5, _⟩ := answerAll_ok hob (l.map .release) h2
      have ha : a' = [] := by
        rw [asking_release] at k5
        exact List.sublist_nil.mp k5
      subst ha
      refine ⟨r :: g ++ g', s2, ?_, by simp⟩
      rw [List.map_cons, answerAll, M.bind_ok h1]
      show (answerAll range (l.map .release) >>= fun p => pure ([] ++ p.1, (r :: g) ++ p.2)) s1 = _
      rw [M.bind_ok k1]
      rfl

/-- all calls from the start -/
theorem locks_ok (hu : Elem.uninitOk α = true) (hn : n ≤ isizeMax) (hs : (n + 1) * Elem.size α ≤ isizeMax)
    (hob : ∀ r, Itv.Obtainable (range r)) (qs : List (Ask α)) :
    ∃ g w s, locks range n qs = .ok ((g ++ w, g), s) ∧ Guarded range n s w ∧ s.line.dropped = [] ∧
      (g ++ w).Sublist (asking qs) ∧ (∀ x ∈ s.held, x ∈ g) ∧ (∀ x ∈ g, .release x ∉ qs → x ∈ s.held) := by
  obtain ⟨cb, e1, hr⟩ := withCapacity_rep hu hn hs
  obtain ⟨a, g, w, s, h1, h2, h3, h4, h5, h6, h7⟩ := answerAll_ok (range := range) hob qs (s := ⟨⟨cb, []⟩, []⟩) (waiting := [])
    ⟨hr, .nil, fun r h => by cases h⟩
  rw [List.nil_append] at h4
  subst h4
  refine ⟨g, w, s, ?_, h2, h3, h5, fun x hx => (h6 x hx).resolve_left (by simp), fun x hx => h7 x (.inr hx)⟩
  unfold locks
  rw [e1]
  show ((do
    let (r, s) := answerAll range qs ⟨⟨cb, []⟩, []⟩
    return (← r, s)) : Except Fault ((List α × List α) × Locks α)) = _
  rw [h1]
  rfl

end
end Client
