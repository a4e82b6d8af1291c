import Verif.Client.LemmasLocks
/-!
# C153: ranges locked with intervals and a circular buffer
-/

open Rust CB
namespace Client

section
variable {α T : Type} [Cfg] [Elem α] [DecidableEq α] [LinearOrder T] {range : α → Itv.Interval T} {n : Nat}

/-- **C153 (safe and fair).** Whatever is asked, nothing panics and nothing in the line is overwritten. No value is ever in two
of the ranges held. Who was let into the line, in this order, are those to whom a range was granted, in this order, and then
those that wait. Whatever is held was granted, and what was granted and not released is held. Nobody waits without reason:
the range of the first in the line intersects one that is held. -/
theorem c153_safe (hu : Elem.uninitOk α = true) (hn : n ≤ isizeMax) (hs : (n + 1) * Elem.size α ≤ isizeMax)
    (hob : ∀ r, Itv.Obtainable (range r)) (qs : List (Ask α)) :
    ∃ let_in granted s waiting, locks range n qs = .ok ((let_in, granted), s) ∧ s.line.dropped = [] ∧
      s.line.cb.contents = .ok waiting ∧ s.held.Pairwise (Unshared range) ∧ let_in = granted ++ waiting ∧
      let_in.Sublist (asking qs) ∧ (∀ x ∈ s.held, x ∈ granted) ∧ (∀ x ∈ granted, .release x ∉ qs → x ∈ s.held) ∧
      ∀ r, waiting.head? = some r → ∃ h ∈ s.held, (range h).intersects (range r) = true := by
  obtain ⟨g, w, s, h1, h2, h3, h4, h5, h6⟩ := locks_ok hu hn hs hob qs
  exact ⟨_, _, s, w, h1, h3, h2.rep.contents_eq, h2.apart, rfl, h4, h5, h6, h2.blocked⟩

/-- **C153 (who is let in).** A request is let into the line exactly if fewer than `n` wait; otherwise nothing happens. If nobody
waits and its range intersects none that is held, the range is granted at once. -/
theorem c153_let_in (hu : Elem.uninitOk α = true) (hn : n ≤ isizeMax) (hs : (n + 1) * Elem.size α ≤ isizeMax)
    (hob : ∀ r, Itv.Obtainable (range r)) {qs : List (Ask α)} {s : Locks α} {lists : List α × List α}
    (hr : locks range n qs = .ok (lists, s)) (r : α) :
    ∃ waiting a g s', s.line.cb.contents = .ok waiting ∧ waiting.length ≤ n ∧
      answer range (.acquire r) s = (.ok (a, g), s') ∧ (a = [r] ↔ waiting.length < n) ∧
      (waiting.length = n → a = [] ∧ g = [] ∧ s'.line.cb.contents = .ok waiting ∧ ∀ x, x ∈ s'.held ↔ x ∈ s.held) ∧
      (waiting = [] → 0 < n → (∀ h ∈ s.held, (range h).intersects (range r) = false) → g = [r] ∧ r ∈ s'.held) := by
  obtain ⟨g, w, s, h1, h2, _⟩ := locks_ok (range := range) hu hn hs hob qs
  rw [h1] at hr; cases hr
  obtain ⟨a, g', w', s', k1, k2, _, k3, _, k4, k5, _⟩ := answer_ok hob h2 (.acquire r)
  have hl := h2.rep.le_cap
  obtain ⟨m1, m2, _⟩ := k5 r rfl
  refine ⟨w, a, g', s', h2.rep.contents_eq, hl, k1, m1.trans ⟨fun h => lt_of_le_of_ne hl h, fun h => h.ne⟩, fun h => ?_, ?_⟩
  · obtain ⟨rfl, rfl⟩ := m2 h
    rw [List.append_nil, List.nil_append] at k3
    subst k3
    exact ⟨rfl, rfl, k2.rep.contents_eq, fun x => by simp [k4]⟩
  · rintro rfl h0 hfree
    have ha : a = [r] := m1.mpr (by simpa using h0.ne)
    subst ha
    rw [List.nil_append] at k3
    cases g' with
    | nil =>
      rw [List.nil_append] at k3
      subst k3
      obtain ⟨x, hx, hi⟩ := k2.blocked r rfl
      rcases (k4 x).mp hx with ⟨hx, _⟩ | hx
      · rw [hfree x hx] at hi; cases hi
      · cases hx
    | cons y g' =>
      rw [List.cons_append, List.cons.injEq] at k3
      obtain ⟨rfl, k3⟩ := k3
      rw [(List.append_eq_nil_iff.mp k3.symm).1] at k4 ⊢
      exact ⟨rfl, (k4 r).mpr (.inr (by simp))⟩

/-- **C153 (the reason is a common value).** If values are dense and no range is empty, the first in the line waits because a
range that is held has a value in common with its own. -/
theorem c153_reason (dense : DenselyOrdered T) (hu : Elem.uninitOk α = true) (hn : n ≤ isizeMax)
    (hs : (n + 1) * Elem.size α ≤ isizeMax) (hob : ∀ r, Itv.Obtainable (range r)) (hne : ∀ r, (range r).isEmpty = false)
    {qs : List (Ask α)} {s : Locks α} {lists : List α × List α} (hr : locks range n qs = .ok (lists, s)) {r : α}
    (hw : s.line.cb.first = .ok (some r)) : ∃ h ∈ s.held, ∃ v, Itv.Mem (range h) v ∧ Itv.Mem (range r) v := by
  obtain ⟨g, w, s, h1, h2, _⟩ := locks_ok (range := range) hu hn hs hob qs
  rw [h1] at hr; cases hr
  rw [h2.rep.first_eq] at hw
  obtain ⟨h, m, hi⟩ := h2.blocked r (Except.ok.inj hw)
  exact ⟨h, m, ((Itv.c27_intersects_partial (hob h) (hob r)).2.1 dense (hne h) (hne r)).mp hi⟩

/-- **C153 (progress).** If all ranges held are released, in whatever order, the first in the line gets its range before
anybody else gets one. -/
theorem c153_progress (hu : Elem.uninitOk α = true) (hn : n ≤ isizeMax) (hs : (n + 1) * Elem.size α ≤ isizeMax)
    (hob : ∀ r, Itv.Obtainable (range r)) {qs : List (Ask α)} {s : Locks α} {lists : List α × List α}
    (hr : locks range n qs = .ok (lists, s)) {r : α} (hw : s.line.cb.first = .ok (some r)) {order : List α}
    (ho : ∀ x ∈ s.held, x ∈ order) :
    ∃ g s', answerAll range (order.map .release) s = (.ok ([], g), s') ∧ g.head? = some r := by
  obtain ⟨g, w, s, h1, h2, _⟩ := locks_ok (range := range) hu hn hs hob qs
  rw [h1] at hr; cases hr
  rw [h2.rep.first_eq] at hw
  cases w with
  | nil => cases hw
  | cons x w =>
    have : x = r := by simpa using hw
    subst this
    exact progress hob order h2 ho

/-- **C153 (empty ranges).** Because `intersects` is true of an empty interval and any other (C27), a request for an empty
range is granted to nobody while anything is held, though it has no value in common with it; and while an empty range is held,
no request is granted. -/
theorem c153_empty_waits (hu : Elem.uninitOk α = true) (hn : n ≤ isizeMax) (hs : (n + 1) * Elem.size α ≤ isizeMax)
    (hob : ∀ r, Itv.Obtainable (range r)) {qs : List (Ask α)} {s : Locks α} {lists : List α × List α}
    (hr : locks range n qs = .ok (lists, s)) {h r : α} (hh : h ∈ s.held)
    (he : range h = Itv.Interval.empty ∨ range r = Itv.Interval.empty) :
    Unshared range h r ∧ ∃ a s', answer range (.acquire r) s = (.ok (a, []), s') := by
  obtain ⟨g, w, s, h1, h2, _⟩ := locks_ok (range := range) hu hn hs hob qs
  rw [h1] at hr; cases hr
  have hi : (range h).intersects (range r) = true := by
    rcases he with he | he
    · rw [he]; exact (Itv.c27_empty_intersects_everything _).1
    · rw [he]; exact (Itv.c27_empty_intersects_everything _).2.1
  refine ⟨fun v hv => ?_, ?_⟩
  · rcases he with he | he
    · rw [he] at hv; exact (Itv.c27_empty_intersects_everything (range r)).2.2 v hv
    · rw [he] at hv; exact (Itv.c27_empty_intersects_everything (range h)).2.2 v hv.symm
  · obtain ⟨a, g', w', s', k1, _, _, _, _, _, k2, _⟩ := answer_ok hob h2 (.acquire r)
    have : g' = [] := by
      refine (k2 r rfl).2.2 fun x hx => ?_
      cases w with
      | nil => simp only [List.nil_append, List.head?_cons, Option.some.injEq] at hx; subst hx; exact ⟨h, hh, hi⟩
      | cons y w => exact h2.blocked x hx
    subst this
    exact ⟨a, s', k1⟩

end

/-- (0, 10], [10, 20], [5, 6], and [30, 40) for all others -/
def wanted : Nat → Itv.Interval Rat
  | 0 => ⟨some ⟨⟨⟨0, false⟩⟩, ⟨⟨10, true⟩⟩⟩⟩
  | 1 => ⟨some ⟨⟨⟨10, true⟩⟩, ⟨⟨20, true⟩⟩⟩⟩
  | 2 => ⟨some ⟨⟨⟨5, true⟩⟩, ⟨⟨6, true⟩⟩⟩⟩
  | _ => ⟨some ⟨⟨⟨30, true⟩⟩, ⟨⟨40, false⟩⟩⟩⟩

theorem wanted_obtainable (r : Nat) : Itv.Obtainable (wanted r) := by
  apply Itv.obtainable_of_wf
  match r with
  | 0 | 1 | 2 | _ + 3 => exact Or.inl (by decide)

/-- 1 waits for 0 and 3 waits behind it; 2 finds the line full. When 0 is released, 1 and 3 get their ranges. -/
def day : List (Ask Nat) := [.acquire 0, .acquire 1, .acquire 3, .acquire 2]

open CB.Demo in
example : Elem.uninitOk Nat = true ∧ 2 ≤ isizeMax ∧ (2 + 1) * Elem.size Nat ≤ isizeMax ∧
    (∀ r, Itv.Obtainable (wanted r)) ∧ (∀ r, (wanted r).isEmpty = false) ∧
    (locks wanted 2 day).toOption.map (fun r => (r.1, r.2.held)) = some (([0, 1, 3], [0]), [0]) ∧
    ((locks wanted 2 day).bind fun r => r.2.line.cb.first).toOption = some (some 1) ∧
    (locks wanted 2 (day ++ [.release 0, .acquire 2])).toOption.map (fun r => (r.1, r.2.held))
      = some (([0, 1, 3, 2], [0, 1, 3, 2]), [1, 3, 2]) :=
  ⟨rfl, by decide, by decide, wanted_obtainable, fun r => by unfold wanted; split <;> rfl, by decide +kernel, by decide +kernel,
    by decide +kernel⟩

/-- the range of 0 is empty -/
def wantedEmpty : Nat → Itv.Interval Rat
  | 0 => Itv.Interval.empty
  | _ => ⟨some ⟨⟨⟨30, true⟩⟩, ⟨⟨40, false⟩⟩⟩⟩

open CB.Demo in
example : (∀ r, Itv.Obtainable (wantedEmpty r)) ∧
    (locks wantedEmpty 2 [.acquire 0]).toOption.map (fun r => (r.1, r.2.held)) = some (([0], [0]), [0]) ∧
    wantedEmpty 0 = Itv.Interval.empty ∧
    (locks wantedEmpty 2 [.acquire 0, .acquire 1]).toOption.map (fun r => (r.1, r.2.held)) = some (([0, 1], [0]), [0]) :=
  ⟨fun r => by
    match r with
    | 0 => exact .empty
    | _ + 1 => exact wanted_obtainable 3, by decide +kernel, rfl, by decide +kernel⟩

end Client
