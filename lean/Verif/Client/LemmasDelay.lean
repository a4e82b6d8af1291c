import Verif.Client.SpecDelay
import Verif.Client.LemmasBfs
import Mathlib.Tactic.Abel
/-!
# Lemmas for C155
-/

open Rust CB
namespace Client

section
variable {α : Type} [Cfg] [Elem α] [AddCommGroup α] {n : Nat}

omit [Cfg] [Elem α] [AddCommGroup α] in
theorem onDelay_ok {β : Type} {m : M (St α) β} {s : DelayLine α} {b : β} {q : St α} (h : m s.st = (.ok b, q)) :
    onDelay m s = (.ok b, { s with st := q }) := by rw [onDelay, h]

theorem fillUp_ok : ∀ (k : Nat) {q : List α} {s : DelayLine α}, Rep s.st.cb ⟨n, q⟩ → q.length + k ≤ n →
    ∃ cb, fillUp k s = (.ok (), ⟨⟨cb, s.st.dropped⟩, s.sum⟩) ∧ Rep cb ⟨n, q ++ List.replicate k 0⟩ := by
  intro k
  induction k with
  | zero => exact fun {q s} hr _ => ⟨s.st.cb, rfl, by simpa using hr⟩
  | succ k ih =>
    intro q s hr hk
    obtain ⟨cb, h1, h2⟩ := pushBack_room hr (by omega) 0
    obtain ⟨cb', g1, g2⟩ := ih (s := ⟨⟨cb, s.st.dropped⟩, s.sum⟩) h2 (by rw [List.length_append, List.length_singleton]; omega)
    refine ⟨cb', ?_, by simpa [List.replicate_succ] using g2⟩
    rw [fillUp, M.bind_ok (onDelay_ok h1)]
    exact g1

theorem clockTick_ok {old x : α} {q : List α} {s : DelayLine α} (hr : Rep s.st.cb ⟨n, old :: q⟩) (hs : s.sum = (old :: q).sum) :
    ∃ cb, clockTick x s = (.ok (old, (q ++ [x]).sum), ⟨⟨cb, s.st.dropped⟩, (q ++ [x]).sum⟩) ∧ Rep cb ⟨n, q ++ [x]⟩ := by
  obtain ⟨cb, h1, h2⟩ := popFront_sim (s := s.st) hr
  have hle : (old :: q).length ≤ n := hr.le_cap
  rw [List.length_cons] at hle
  obtain ⟨cb', g1, g2⟩ := pushBack_room (s := ⟨cb, s.st.dropped⟩) h2 (by show q.length < n; omega) x
  have e : s.sum + (x - old) = (q ++ [x]).sum := by
    rw [hs, List.sum_cons, List.sum_append, List.sum_singleton]; abel
  refine ⟨cb', ?_, g2⟩
  rw [clockTick, M.bind_ok (onDelay_ok h1)]
  show (onDelay (pushBack x) >>= fun _ => _) (⟨⟨cb, s.st.dropped⟩, s.sum⟩ : DelayLine α) = _
  rw [M.bind_ok (onDelay_ok (s := ⟨⟨cb, s.st.dropped⟩, s.sum⟩) g1), ← e]
  rfl

theorem clockTicks_ok (hn : 0 < n) : ∀ (xs : List α) {q : List α} {s : DelayLine α}, Rep s.st.cb ⟨n, q⟩ → q.length = n →
    s.sum = q.sum →
    ∃ ys s', clockTicks xs s = (.ok ys, s') ∧ s'.st.dropped = s.st.dropped ∧ Rep s'.st.cb ⟨n, (q ++ xs).drop xs.length⟩ ∧
      ys.map Prod.fst = (q ++ xs).take xs.length ∧
      ∀ i (hi : i < ys.length), ys[i].2 = (((q ++ xs).drop (i + 1)).take n).sum := by
  intro xs
  induction xs with
  | nil => exact fun {q s} hr _ _ => ⟨[], s, rfl, rfl, by simpa using hr, by simp, fun i hi => by cases hi⟩
  | cons x xs ih =>
    intro q s hr hq hs
    cases q with
    | nil => rw [List.length_nil] at hq; omega
    | cons old q =>
      obtain ⟨cb, h1, h2⟩ := clockTick_ok (x := x) hr hs
      have hq' : (q ++ [x]).length = n := by rw [← hq]; simp
      obtain ⟨ys, s', g1, g2, g3, g4, g5⟩ := ih (s := ⟨⟨cb, s.st.dropped⟩, (q ++ [x]).sum⟩) h2 hq' rfl
      have e : q ++ [x] ++ xs = q ++ x :: xs := by simp
      rw [e] at g3 g4 g5
      refine ⟨(old, (q ++ [x]).sum) :: ys, s', ?_, g2, by simpa using g3, by simpa using g4, fun i hi => ?_⟩
      · rw [clockTicks, M.bind_ok h1, M.bind_ok g1]
        rfl
      · cases i with
        | zero =>
          have : (q ++ x :: xs).take n = q ++ [x] := by rw [← e, ← hq', List.take_left]
          simp [this]
        | succ i => simpa using g5 i (by simpa using hi)

theorem delayed_ok (hu : Elem.uninitOk α = true) (hpos : 0 < n) (hn : n ≤ isizeMax) (hs : (n + 1) * Elem.size α ≤ isizeMax)
    (xs : List α) :
    ∃ ys s, delayed n xs = .ok (ys, s) ∧ s.st.dropped = [] ∧
      s.st.cb.contents = .ok ((List.replicate n 0 ++ xs).drop xs.length) ∧
      ys.map Prod.fst = (List.replicate n 0 ++ xs).take xs.length ∧
      ∀ i (hi : i < ys.length), ys[i].2 = (((List.replicate n 0 ++ xs).drop (i + 1)).take n).sum := by
  obtain ⟨cb, e1, hr⟩ := withCapacity_rep hu hn hs
  obtain ⟨cb', h1, h2⟩ := fillUp_ok n (q := []) (s := ⟨⟨cb, []⟩, 0⟩) hr (by simp)
  rw [List.nil_append] at h2
  obtain ⟨ys, s, g1, g2, g3, g4⟩ := clockTicks_ok hpos xs (s := ⟨⟨cb', []⟩, 0⟩) h2 (by simp) (by simp)
  refine ⟨ys, s, ?_, g2, g3.contents_eq, g4⟩
  have run : (do fillUp n; clockTicks xs : M (DelayLine α) (List (α × α))) ⟨⟨cb, []⟩, 0⟩ = (.ok ys, s) := by
    rw [M.bind_ok h1]; exact g1
  unfold delayed
  rw [e1]
  show ((do
    let (r, s) := (do fillUp n; clockTicks xs : M (DelayLine α) (List (α × α))) ⟨⟨cb, []⟩, 0⟩
    return (← r, s)) : Except Fault (List (α × α) × DelayLine α)) = _
  rw [run]
  rfl

end
end Client
