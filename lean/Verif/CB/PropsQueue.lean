import Verif.CB.SpecQueue
import Verif.CB.Props
import Mathlib.Data.List.Infix
/-!
# C123: a buffer as a queue between producers and consumers
-/

open Rust
namespace CB

section
variable {α : Type}

/-! ## helper lemmas -/

theorem handed_cons (c : QCall α) (cs : List (QCall α)) (o : Except Fault (Out α)) (os : List (Except Fault (Out α))) :
    handed (c :: cs) (o :: os) = handed [c] [o] ++ handed cs os := by
  cases c with
  | take =>
    cases o with
    | error e => simp [handed]
    | ok o => cases o <;> simp [handed]
  | takeUpTo k =>
    cases o with
    | error e => simp [handed]
    | ok o => cases o <;> simp [handed]
  | _ => simp [handed]

theorem arrivals_cons (c : QCall α) (cs : List (QCall α)) : arrivals (c :: cs) = c.arrive ++ arrivals cs := by
  simp [arrivals]

variable [Cfg] [Elem α]

/-- what one call does to a deque whose elements can be dropped: the first `k` leave, all the same way -/
theorem queue_step {d : Spec.Deque α} (hl : d.items.length ≤ d.cap) (c : QCall α) (hc : Calm (d.items ++ c.arrive)) :
    (∃ k, (Spec.step d c.op).deque.items = (d.items ++ c.arrive).drop k ∧
      ((Spec.step d c.op).dropped = [] ∧ handed [c] [(Spec.step d c.op).ret] = (d.items ++ c.arrive).take k ∨
        (Spec.step d c.op).dropped = (d.items ++ c.arrive).take k ∧ handed [c] [(Spec.step d c.op).ret] = [])) ∧
    (Spec.step d c.op).deque.items.length ≤ (Spec.step d c.op).deque.cap ∧
    (Spec.step d c.op).ret ≠ .error .abort := by
  cases c with
  | put v =>
    have h := pushBack_calm hl hc
    simp only [QCall.op, QCall.arrive, Spec.step, h]
    refine ⟨⟨_, rfl, .inr ⟨rfl, rfl⟩⟩, ?_, by simp [Except.map]⟩
    simp only [lastN, List.length_drop]
    omega
  | putAll vs =>
    have h := extend_calm vs hl hc false
    simp only [QCall.op, QCall.arrive, Spec.step, h]
    refine ⟨⟨_, rfl, .inr ⟨rfl, rfl⟩⟩, ?_, by simp [Spec.userIf, Except.map]⟩
    simp only [lastN, List.length_drop]
    omega
  | take =>
    simp only [QCall.op, QCall.arrive, Spec.step, List.append_nil]
    refine ⟨⟨1, List.drop_one.symm, .inl ⟨trivial, ?_⟩⟩, ?_, by simp⟩
    · cases d.items <;> simp [handed]
    · rw [List.length_tail]; omega
  | takeUpTo k =>
    simp only [QCall.op, QCall.arrive, Spec.step, List.append_nil]
    refine ⟨⟨k, rfl, .inl ⟨trivial, ?_⟩⟩, ?_, by simp⟩
    · simp [handed]
    · rw [List.length_drop]; omega
  | setCapacity n =>
    simp only [QCall.op, QCall.arrive, Spec.step, List.append_nil] at hc ⊢
    unfold Spec.resize
    split
    · exact ⟨⟨0, rfl, .inl ⟨rfl, rfl⟩⟩, hl, by simp [Except.map]⟩
    · have h := dropSeq_calm (d.items.take (d.items.length - n)) fun x hx => hc x (List.mem_of_mem_take hx)
      simp only [h]
      refine ⟨⟨_, rfl, .inr ⟨rfl, rfl⟩⟩, ?_, by simp [Except.map]⟩
      simp only [Bool.false_eq_true, if_false, List.length_drop]
      omega

theorem spec_run_cons {d : Spec.Deque α} {op : Op α} (h : (Spec.step d op).ret ≠ .error .abort) (ops : List (Op α)) :
    Spec.run (op :: ops) d = ((Spec.step d op).ret :: (Spec.run ops (Spec.step d op).deque).1,
      (Spec.run ops (Spec.step d op).deque).2.1,
      (Spec.step d op).dropped ++ (Spec.run ops (Spec.step d op).deque).2.2) := by
  rw [Spec.run]
  split
  · rename_i h'; exact absurd h' h
  · rfl

omit [Cfg] in
theorem calm_drop {l : List α} {k : Nat} {r : List α} (h : Calm (l ++ r)) : Calm (l.drop k ++ r) := fun x hx => by
  rcases List.mem_append.mp hx with hx | hx
  · exact h x (List.mem_append_left _ (List.mem_of_mem_drop hx))
  · exact h x (List.mem_append_right _ hx)

theorem queue_run (calls : List (QCall α)) : ∀ {d : Spec.Deque α}, d.items.length ≤ d.cap →
    Calm (d.items ++ arrivals calls) →
    ∃ fate : List (α × Bool), fate.map (·.1) ++ (Spec.run (calls.map QCall.op) d).2.1.items = d.items ++ arrivals calls ∧
      (fate.filter (·.2)).map (·.1) = handed calls (Spec.run (calls.map QCall.op) d).1 ∧
      (fate.filter (!·.2)).map (·.1) = (Spec.run (calls.map QCall.op) d).2.2 := by
  induction calls with
  | nil => intro d _ _; exact ⟨[], by simp [Spec.run, arrivals], rfl, rfl⟩
  | cons c cs ih =>
    intro d hl hc
    rw [arrivals_cons, ← List.append_assoc] at hc
    have hc1 : Calm (d.items ++ c.arrive) := fun x hx => hc x (List.mem_append_left _ hx)
    obtain ⟨⟨k, h1, h2⟩, h3, h4⟩ := queue_step hl c hc1
    obtain ⟨fate, f1, f2, f3⟩ := ih h3 (by rw [h1]; exact calm_drop hc)
    rw [List.map_cons, spec_run_cons h4]
    dsimp only
    rw [handed_cons]
    have pt : ∀ b : Bool, (((d.items ++ c.arrive).take k).map fun x => (x, b)).map (·.1) = (d.items ++ c.arrive).take k := by
      intro b; rw [List.map_map]; exact List.map_id _
    have front : ∀ b : Bool, ((((d.items ++ c.arrive).take k).map fun x => (x, b)) ++ fate).map (·.1) ++
        (Spec.run (cs.map QCall.op) (Spec.step d c.op).deque).2.1.items = d.items ++ arrivals (c :: cs) := by
      intro b
      rw [List.map_append, pt, List.append_assoc, f1, h1, ← List.append_assoc, List.take_append_drop, arrivals_cons,
        List.append_assoc]
    rcases h2 with ⟨h2, h5⟩ | ⟨h2, h5⟩
    · refine ⟨((d.items ++ c.arrive).take k).map (fun x => (x, true)) ++ fate, front true, ?_, ?_⟩
      · rw [List.filter_append, List.map_append, f2, h5,
          List.filter_eq_self.mpr (fun p hp => by obtain ⟨x, _, rfl⟩ := List.mem_map.mp hp; simp), pt]
      · rw [List.filter_append, List.map_append, f3, h2,
          List.filter_eq_nil_iff.mpr (fun p hp => by obtain ⟨x, _, rfl⟩ := List.mem_map.mp hp; simp)]
        rfl
    · refine ⟨((d.items ++ c.arrive).take k).map (fun x => (x, false)) ++ fate, front false, ?_, ?_⟩
      · rw [List.filter_append, List.map_append, f2, h5,
          List.filter_eq_nil_iff.mpr (fun p hp => by obtain ⟨x, _, rfl⟩ := List.mem_map.mp hp; simp)]
        rfl
      · rw [List.filter_append, List.map_append, f3, h2,
          List.filter_eq_self.mpr (fun p hp => by obtain ⟨x, _, rfl⟩ := List.mem_map.mp hp; simp), pt]

/-- one call, compared with a queue without bounds -/
theorem ideal_step {d : Spec.Deque α} (hl : d.items.length ≤ d.cap) (c : QCall α) (hr : ∀ n, c ≠ .setCapacity n)
    (hc : Calm (d.items ++ c.arrive)) :
    (Spec.step d c.op).deque.cap = d.cap ∧
    ((Spec.step d c.op).dropped = [] ↔ (c.ideal d.items).2.length ≤ d.cap) ∧
    ((Spec.step d c.op).dropped = [] → (Spec.step d c.op).deque.items = (c.ideal d.items).2 ∧
      handed [c] [(Spec.step d c.op).ret] = (c.ideal d.items).1) := by
  cases c with
  | put v =>
    have h := pushBack_calm hl hc
    simp only [QCall.op, QCall.ideal, Spec.step, h, List.take_eq_nil_iff]
    refine ⟨trivial, by simp; omega, fun h => ⟨?_, rfl⟩⟩
    have : (d.items ++ [v]).length - d.cap = 0 := by simpa using h
    rw [lastN, this, List.drop_zero]
  | putAll vs =>
    have h := extend_calm vs hl hc false
    simp only [QCall.op, QCall.ideal, Spec.step, h, List.take_eq_nil_iff]
    refine ⟨trivial, ⟨fun h => ?_, fun h => .inl (by omega)⟩, fun h => ⟨?_, rfl⟩⟩
    · rcases h with h | h
      · omega
      · rw [h]; simp
    · rw [lastN]
      rcases h with h | h
      · rw [h, List.drop_zero]
      · rw [h, List.drop_nil]
  | take =>
    simp only [QCall.op, QCall.ideal, Spec.step]
    refine ⟨trivial, ⟨fun _ => ?_, fun _ => trivial⟩, fun _ => ⟨List.drop_one.symm, ?_⟩⟩
    · rw [List.length_drop]; omega
    · cases d.items <;> simp [handed]
  | takeUpTo k =>
    simp only [QCall.op, QCall.ideal, Spec.step]
    refine ⟨trivial, ⟨fun _ => ?_, fun _ => trivial⟩, fun _ => ⟨trivial, ?_⟩⟩
    · rw [List.length_drop]; omega
    · simp [handed]
  | setCapacity n => exact absurd rfl (hr n)

theorem ideal_run (calls : List (QCall α)) (hr : ∀ c ∈ calls, ∀ n, c ≠ .setCapacity n) : ∀ {d : Spec.Deque α},
    d.items.length ≤ d.cap → Calm (d.items ++ arrivals calls) →
    ((Spec.run (calls.map QCall.op) d).2.2 = [] ↔ ∀ pre, pre <+: calls → (idealRun pre d.items).2.length ≤ d.cap) ∧
    ((Spec.run (calls.map QCall.op) d).2.2 = [] →
      handed calls (Spec.run (calls.map QCall.op) d).1 = (idealRun calls d.items).1 ∧
      (Spec.run (calls.map QCall.op) d).2.1.items = (idealRun calls d.items).2) := by
  induction calls with
  | nil =>
    intro d hl _
    refine ⟨⟨fun _ pre hp => ?_, fun _ => rfl⟩, fun _ => ⟨rfl, rfl⟩⟩
    rw [List.prefix_nil.mp hp]
    exact hl
  | cons c cs ih =>
    intro d hl hc
    rw [arrivals_cons, ← List.append_assoc] at hc
    have hc1 : Calm (d.items ++ c.arrive) := fun x hx => hc x (List.mem_append_left _ hx)
    obtain ⟨⟨k, h1, _⟩, h3, h4⟩ := queue_step hl c hc1
    obtain ⟨s1, s2, s3⟩ := ideal_step hl c (hr c List.mem_cons_self) hc1
    obtain ⟨i1, i2⟩ := ih (fun c hc => hr c (List.mem_cons_of_mem _ hc)) h3 (by rw [h1]; exact calm_drop hc)
    rw [List.map_cons, spec_run_cons h4]
    dsimp only
    rw [handed_cons, List.append_eq_nil_iff]
    constructor
    · constructor
      · rintro ⟨a, b⟩ pre hp
        obtain ⟨e, _⟩ := s3 a
        rw [e, s1] at i1
        cases pre with
        | nil => exact hl
        | cons c' pre =>
          obtain ⟨rfl, hp'⟩ := List.cons_prefix_cons.mp hp
          exact i1.mp b pre hp'
      · intro h
        have a := s2.mpr (h [c] (List.cons_prefix_cons.mpr ⟨rfl, List.nil_prefix⟩))
        obtain ⟨e, _⟩ := s3 a
        rw [e, s1] at i1
        exact ⟨a, i1.mpr fun pre hp => h (c :: pre) (List.cons_prefix_cons.mpr ⟨rfl, hp⟩)⟩
    · rintro ⟨a, b⟩
      obtain ⟨e1, e2⟩ := s3 a
      obtain ⟨j1, j2⟩ := i2 b
      rw [e1] at j1 j2
      rw [e2, j1]
      exact ⟨rfl, j2⟩

/-! ## the property -/

variable {cb : Buf α} {xs : List α} {n : Nat}

/-- **C123 (first in, first out).** However producers and consumers take turns, and whenever the buffer is resized, elements
leave in the order in which they came: what has left (`fate`, in the order of leaving) followed by what is still there is what
was there followed by what was handed in. An element that has left was either handed to a consumer (`true`) or dropped
(`false`). So consumers never get elements out of order or twice, and an element is lost only after all before it have
left. -/
theorem c123_in_order (h : Reachable cb) (hx : cb.contents = .ok xs) (hn : cb.capacity = .ok n) (calls : List (QCall α))
    (hops : ∀ c ∈ calls, OpOk c.op) (hc : Calm (xs ++ arrivals calls)) :
    ∃ fate : List (α × Bool), ∃ left, (run (calls.map QCall.op) ⟨cb, []⟩).2.cb.contents = .ok left ∧
      fate.map (·.1) ++ left = xs ++ arrivals calls ∧
      (fate.filter (·.2)).map (·.1) = handed calls (run (calls.map QCall.op) ⟨cb, []⟩).1 ∧
      (fate.filter (!·.2)).map (·.1) = (run (calls.map QCall.op) ⟨cb, []⟩).2.dropped := by
  obtain ⟨e1, e2, e3, _⟩ := c01_refines_from_any h hx hn (calls.map QCall.op)
    (fun op ho => by obtain ⟨c, hc, rfl⟩ := List.mem_map.mp ho; exact hops c hc) []
  have hl : xs.length ≤ n := (h.rep_of hx hn).le_cap
  obtain ⟨fate, f1, f2, f3⟩ := queue_run calls (d := ⟨n, xs⟩) hl hc
  exact ⟨fate, _, e3, f1, by rw [f2, e1], by rw [f3, e2]; rfl⟩

/-- **C123 (when nothing is lost).** Without resizing, nothing is dropped exactly if a queue without bounds would never hold
more elements than the capacity; then consumers get the same as from that queue, and the same is left. -/
theorem c123_nothing_lost (h : Reachable cb) (hx : cb.contents = .ok xs) (hn : cb.capacity = .ok n)
    (calls : List (QCall α)) (hr : ∀ c ∈ calls, ∀ m, c ≠ .setCapacity m) (hc : Calm (xs ++ arrivals calls)) :
    ((run (calls.map QCall.op) ⟨cb, []⟩).2.dropped = [] ↔ ∀ pre, pre <+: calls → (idealRun pre xs).2.length ≤ n) ∧
    ((run (calls.map QCall.op) ⟨cb, []⟩).2.dropped = [] →
      handed calls (run (calls.map QCall.op) ⟨cb, []⟩).1 = (idealRun calls xs).1 ∧
      (run (calls.map QCall.op) ⟨cb, []⟩).2.cb.contents = .ok (idealRun calls xs).2) := by
  obtain ⟨e1, e2, e3, _⟩ := c01_refines_from_any h hx hn (calls.map QCall.op)
    (fun op ho => by
      obtain ⟨c, hc, rfl⟩ := List.mem_map.mp ho
      cases c with
      | setCapacity m => exact absurd rfl (hr _ hc m)
      | _ => trivial) []
  have hl : xs.length ≤ n := (h.rep_of hx hn).le_cap
  obtain ⟨i1, i2⟩ := ideal_run calls hr (d := ⟨n, xs⟩) hl hc
  rw [List.nil_append] at e2
  rw [e1, e2, e3]
  exact ⟨i1, fun h => ⟨(i2 h).1, congrArg _ (i2 h).2⟩⟩

end

namespace Demo

/-- producers and a consumer take turns; the third call finds the buffer full -/
def traffic : List (QCall Nat) := [.take, .put 6, .putAll [7, 8], .takeUpTo 2, .setCapacity 5, .putAll [9, 10]]

end Demo

open Demo in
example : Reachable buf ∧ buf.contents = .ok [3, 4, 5] ∧ buf.capacity = .ok 3 ∧ (∀ c ∈ traffic, OpOk c.op) ∧
    Calm ([3, 4, 5] ++ arrivals traffic) ∧
    handed traffic (run (traffic.map QCall.op) ⟨buf, []⟩).1 = [3, 6, 7] ∧
    (run (traffic.map QCall.op) ⟨buf, []⟩).2.dropped = [4, 5] := by
  have ho : ∀ c ∈ traffic, OpOk c.op := by
    intro c hc
    simp only [traffic, List.mem_cons, List.not_mem_nil, or_false] at hc
    rcases hc with rfl | rfl | rfl | rfl | rfl | rfl <;> simp only [QCall.op, OpOk]
    exact Or.inl (by decide)
  obtain ⟨e1, e2, _⟩ := c01_refines_from_any buf_reachable buf_contents buf_capacity (traffic.map QCall.op)
    (fun op ho' => by obtain ⟨c, hc, rfl⟩ := List.mem_map.mp ho'; exact ho c hc) []
  refine ⟨buf_reachable, buf_contents, buf_capacity, ho, by unfold Calm; decide, ?_, ?_⟩
  · rw [e1]; decide
  · rw [e2]; decide
open Demo in
example : (∀ pre, pre <+: [QCall.take, .take, .put 6, .put 7, .take] → (idealRun pre [3, 4, 5]).2.length ≤ 3) ∧
    (idealRun [QCall.take, .put 6, .put 7] [3, 4, 5]).2.length = 4 := by
  refine ⟨fun pre hp => ?_, rfl⟩
  have : ∀ q ∈ List.inits [QCall.take, .take, .put 6, .put 7, .take], (idealRun q [3, 4, 5]).2.length ≤ 3 := by decide
  exact this pre ((List.mem_inits _ _).mpr hp)

end CB
