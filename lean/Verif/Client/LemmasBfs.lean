import Verif.Client.SpecBfs
import Verif.CB.Props
import Mathlib.Data.List.Perm.Subperm
/-!
# Lemmas for C120
-/

open Rust CB
namespace Client

section
variable {α : Type} {adj : α → List α} {start : α} {vs done queue : List α} {dist : α → Option Nat}

/-- What holds between two rounds: `done` are the vertices taken from the queue. -/
structure Between (adj : α → List α) (start : α) (vs done queue : List α) (dist : α → Option Nat) : Prop where
  nodup : (done ++ queue).Nodup
  known : ∀ x, x ∈ done ++ queue ↔ (dist x).isSome = true
  inside : ∀ x ∈ done ++ queue, x ∈ vs
  source : dist start = some 0
  real : ∀ x e, dist x = some e → Walk adj start e x
  small : ∀ x e, dist x = some e → e ≤ done.length
  sorted : queue.Pairwise fun x y => ∀ e f, dist x = some e → dist y = some f → e ≤ f
  near : ∀ x ∈ queue.head?, ∀ d, dist x = some d → ∀ y e, dist y = some e → e ≤ d + 1
  closed : ∀ x ∈ done, ∀ d, dist x = some d → ∀ y ∈ adj x, ∃ e, dist y = some e ∧ e ≤ d + 1

/-- What holds while the neighbours of `v` are looked at; `ws` are those left. -/
structure Within (adj : α → List α) (start : α) (vs done queue : List α) (dist : α → Option Nat) (v : α) (d : Nat)
    (ws : List α) : Prop where
  nodup : (done ++ v :: queue).Nodup
  known : ∀ x, x ∈ done ++ v :: queue ↔ (dist x).isSome = true
  inside : ∀ x ∈ done ++ v :: queue, x ∈ vs
  source : dist start = some 0
  real : ∀ x e, dist x = some e → Walk adj start e x
  small : ∀ x e, dist x = some e → e ≤ done.length + 1
  sorted : queue.Pairwise fun x y => ∀ e f, dist x = some e → dist y = some f → e ≤ f
  closed : ∀ x ∈ done, ∀ d, dist x = some d → ∀ y ∈ adj x, ∃ e, dist y = some e ∧ e ≤ d + 1
  now : dist v = some d
  least : d ≤ done.length
  low : ∀ x ∈ queue, ∀ e, dist x = some e → d ≤ e
  high : ∀ x e, dist x = some e → e ≤ d + 1
  rest : ∀ y ∈ adj v, y ∈ ws ∨ ∃ e, dist y = some e ∧ e ≤ d + 1
  left : ∀ y ∈ ws, y ∈ adj v

theorem Between.begin {v : α} {d : Nat} (h : Between adj start vs done (v :: queue) dist) (hd : dist v = some d) :
    Within adj start vs done queue dist v d (adj v) where
  nodup := h.nodup
  known := h.known
  inside := h.inside
  source := h.source
  real := h.real
  small x e he := Nat.le_succ_of_le (h.small x e he)
  sorted := (List.pairwise_cons.mp h.sorted).2
  closed := h.closed
  now := hd
  least := h.small v d hd
  low x hx e he := (List.pairwise_cons.mp h.sorted).1 x hx d e hd he
  high := h.near v rfl d hd
  rest _ hy := .inl hy
  left _ hy := hy

theorem Within.finish {v : α} {d : Nat} (h : Within adj start vs done queue dist v d []) :
    Between adj start vs (done ++ [v]) queue dist := by
  have e : done ++ [v] ++ queue = done ++ v :: queue := by simp
  refine ⟨e ▸ h.nodup, e ▸ h.known, e ▸ h.inside, h.source, h.real, fun x f hf => ?_, h.sorted, ?_, ?_⟩
  · rw [List.length_append]; exact h.small x f hf
  · intro x hx d' hd' y f hf
    have h1 := h.low x (List.mem_of_mem_head? hx) d' hd'
    have h2 := h.high y f hf
    omega
  · intro x hx d' hd' y hy
    rcases List.mem_append.mp hx with hx | hx
    · exact h.closed x hx d' hd' y hy
    · cases List.mem_singleton.mp hx
      rw [h.now] at hd'
      cases hd'
      exact (h.rest y hy).resolve_left fun h => by cases h

theorem Within.skip {v w : α} {d : Nat} {ws : List α} (h : Within adj start vs done queue dist v d (w :: ws))
    (hw : (dist w).isSome = true) : Within adj start vs done queue dist v d ws :=
  { h with
    rest := fun y hy => by
      rcases h.rest y hy with hm | hm
      · rcases List.mem_cons.mp hm with rfl | hm
        · obtain ⟨e, he⟩ := Option.isSome_iff_exists.mp hw
          exact .inr ⟨e, he, h.high _ e he⟩
        · exact .inl hm
      · exact .inr hm
    left := fun y hy => h.left y (List.mem_cons_of_mem _ hy) }

theorem Within.add [DecidableEq α] {v w : α} {d : Nat} {ws : List α} (h : Within adj start vs done queue dist v d (w :: ws))
    (hw : (dist w).isSome = false) (hv : w ∈ vs) :
    Within adj start vs done (queue ++ [w]) (fun x => if x = w then some (d + 1) else dist x) v d ws := by
  have new : w ∉ done ++ v :: queue := fun hm => by
    rw [h.known, hw] at hm; cases hm
  have old : ∀ {x}, x ∈ done ++ v :: queue → x ≠ w := fun hx he => new (he ▸ hx)
  have e : done ++ v :: (queue ++ [w]) = (done ++ v :: queue) ++ [w] := by simp
  have keep : ∀ {x f}, dist x = some f → x ≠ w := fun hx he => by
    rw [← he, hx] at hw; cases hw
  have up : ∀ {y f}, dist y = some f → (if y = w then some (d + 1) else dist y) = some f := fun hy => by
    rw [if_neg (keep hy)]; exact hy
  refine ⟨?_, ?_, ?_, up h.source, ?_, ?_, ?_, ?_, up h.now, h.least, ?_, ?_, ?_,
    fun y hy => h.left y (List.mem_cons_of_mem _ hy)⟩
  · rw [e, List.nodup_append]
    exact ⟨h.nodup, List.nodup_singleton _, fun x hx y hy => by rw [List.mem_singleton.mp hy]; exact old hx⟩
  · intro x
    rw [e, List.mem_append, h.known, List.mem_singleton]
    by_cases hx : x = w
    · simp [hx]
    · simp [hx]
  · intro x hx
    rw [e] at hx
    rcases List.mem_append.mp hx with hx | hx
    · exact h.inside x hx
    · rw [List.mem_singleton.mp hx]; exact hv
  · intro x f hf
    split at hf
    · rename_i hx
      cases hf
      rw [hx]
      exact .step (h.real v d h.now) (h.left w List.mem_cons_self)
    · exact h.real x f hf
  · intro x f hf
    split at hf
    · cases hf; have := h.least; omega
    · exact h.small x f hf
  · refine List.pairwise_append.mpr ⟨?_, List.pairwise_singleton _ _, ?_⟩
    · refine h.sorted.imp_of_mem fun {x y} hx hy hxy f g hf hg => ?_
      rw [if_neg (old (by simp [hx]))] at hf
      rw [if_neg (old (by simp [hy]))] at hg
      exact hxy f g hf hg
    · intro x hx y hy f g hf hg
      rw [if_neg (old (by simp [hx]))] at hf
      rw [if_pos (List.mem_singleton.mp hy)] at hg
      cases hg
      exact h.high x f hf
  · intro x hx f hf y hy
    rw [if_neg (old (by simp [hx]))] at hf
    obtain ⟨g, hg, hle⟩ := h.closed x hx f hf y hy
    exact ⟨g, up hg, hle⟩
  · intro x hx f hf
    rcases List.mem_append.mp hx with hx | hx
    · rw [if_neg (old (by simp [hx]))] at hf
      exact h.low x hx f hf
    · rw [if_pos (List.mem_singleton.mp hx)] at hf
      cases hf; omega
  · intro x f hf
    split at hf
    · cases hf; omega
    · exact h.high x f hf
  · intro y hy
    by_cases hyw : y = w
    · exact .inr ⟨d + 1, if_pos hyw, Nat.le_refl _⟩
    · rcases h.rest y hy with hm | ⟨f, hf, hle⟩
      · exact .inl ((List.mem_cons.mp hm).resolve_left hyw)
      · exact .inr ⟨f, up hf, hle⟩

/-- when the queue is empty, every vertex has its distance -/
theorem Between.final (h : Between adj start vs done [] dist) (v : α) (d : Nat) :
    dist v = some d ↔ Walk adj start d v ∧ ∀ d', Walk adj start d' v → d ≤ d' := by
  have all : ∀ {n x}, Walk adj start n x → ∃ e, dist x = some e ∧ e ≤ n := by
    intro n x hw
    induction hw with
    | refl => exact ⟨0, h.source, Nat.le_refl _⟩
    | step _ hy ih =>
      obtain ⟨e, he, hle⟩ := ih
      have hx := (h.known _).mpr (Option.isSome_iff_exists.mpr ⟨e, he⟩)
      rw [List.append_nil] at hx
      obtain ⟨f, hf, hlf⟩ := h.closed _ hx e he _ hy
      exact ⟨f, hf, by omega⟩
  constructor
  · intro hd
    refine ⟨h.real v d hd, fun d' hw => ?_⟩
    obtain ⟨e, he, hle⟩ := all hw
    rw [hd] at he; cases he
    exact hle
  · rintro ⟨hw, hmin⟩
    obtain ⟨e, he, hle⟩ := all hw
    have := hmin e (h.real v e he)
    rw [he, Nat.le_antisymm hle this]

end

section
variable {α : Type} [Cfg] [Elem α] [DecidableEq α] {adj : α → List α} {start : α} {vs : List α} {n : Nat}

omit [Cfg] [Elem α] [DecidableEq α] in
theorem onQueue_ok {β : Type} {m : M (St α) β} {s : Search α} {b : β} {q : St α} (h : m s.queue = (.ok b, q)) :
    onQueue m s = (.ok b, { s with queue := q }) := by rw [onQueue, h]

omit [DecidableEq α] in
theorem pushBack_room {s : St α} {q : List α} (h : Rep s.cb ⟨n, q⟩) (hq : q.length < n) (v : α) :
    ∃ cb, pushBack v s = (.ok (), ⟨cb, s.dropped⟩) ∧ Rep cb ⟨n, q ++ [v]⟩ := by
  obtain ⟨cb, h1, h2⟩ := pushBack_sim h v
  have e : Spec.pushBack ⟨n, q⟩ v = ⟨.ok (), ⟨n, q ++ [v]⟩, []⟩ := by
    unfold Spec.pushBack
    rw [if_neg (by show n ≠ 0; omega), if_pos hq]
  rw [e] at h1 h2
  exact ⟨cb, by rw [h1]; simp, h2⟩

theorem visit_ok (hn : vs.length ≤ n + 1) (hu : n < usizeMax) (hadj : ∀ v ∈ vs, ∀ w ∈ adj v, w ∈ vs) {done : List α} {v : α}
    {d : Nat} (ws : List α) : ∀ {queue : List α} {s : Search α}, Rep s.queue.cb ⟨n, queue⟩ →
      Within adj start vs done queue s.dist.get v d ws →
      ∃ queue' cb dist, visit d ws s = (.ok (), ⟨⟨cb, s.queue.dropped⟩, dist⟩) ∧ Rep cb ⟨n, queue'⟩ ∧
        Within adj start vs done queue' dist.get v d [] := by
  induction ws with
  | nil => intro queue s hr h; exact ⟨queue, s.queue.cb, s.dist, rfl, hr, h⟩
  | cons w ws ih =>
    intro queue s hr h
    unfold visit
    have hget : (M.get : M (Search α) _) s = (.ok s, s) := rfl
    rw [M.bind_ok hget]
    by_cases hw : (s.dist.get w).isSome = true
    · rw [if_pos (show s.dist.containsKey w = true from hw)]
      exact ih hr (h.skip hw)
    · rw [if_neg (show ¬ s.dist.containsKey w = true from hw)]
      have hv : w ∈ vs := hadj v (h.inside v (by simp)) w (h.left w List.mem_cons_self)
      have h' := h.add (by simpa using hw) hv
      have hlen : (done ++ v :: (queue ++ [w])).length ≤ vs.length :=
        (h'.nodup.subperm fun x hx => h'.inside x hx).length_le
      simp only [List.length_append, List.length_cons, List.length_nil] at hlen
      have hadd : (M.lift (uadd d 1) : M (Search α) _) s = (.ok (d + 1), s) := by
        rw [M.lift, uadd_ok (by have := h.least; omega)]
      have hmod : (M.modify fun s => { s with dist := s.dist.insert w (d + 1) } : M (Search α) Unit) s
          = (.ok (), ⟨s.queue, s.dist.insert w (d + 1)⟩) := rfl
      obtain ⟨cb, h1, h2⟩ := pushBack_room hr (by omega) w
      rw [M.bind_ok hadd, M.bind_ok hmod, M.bind_ok (onQueue_ok (s := ⟨s.queue, s.dist.insert w (d + 1)⟩) h1)]
      refine ih (s := ⟨⟨cb, s.queue.dropped⟩, s.dist.insert w (d + 1)⟩) h2 ?_
      rw [show (s.dist.insert w (d + 1)).get = fun x => if x = w then some (d + 1) else s.dist.get x from
        funext fun x => HMap.get_insert]
      exact h'

theorem search_ok (hn : vs.length ≤ n + 1) (hu : n < usizeMax) (hadj : ∀ v ∈ vs, ∀ w ∈ adj v, w ∈ vs) (fuel : Nat) :
    ∀ {done queue : List α} {s : Search α}, Rep s.queue.cb ⟨n, queue⟩ →
      Between adj start vs done queue s.dist.get → vs.length < fuel + done.length →
      ∃ s' done', search adj fuel s = (.ok (), s') ∧ s'.queue.dropped = s.queue.dropped ∧
        Between adj start vs done' [] s'.dist.get := by
  induction fuel with
  | zero =>
    intro done queue s _ h hf
    have := (h.nodup.subperm fun x hx => h.inside x hx).length_le
    rw [List.length_append] at this
    omega
  | succ fuel ih =>
    intro done queue s hr h hf
    obtain ⟨cb, h1, h2⟩ := popFront_sim hr
    unfold search
    rw [M.bind_ok (onQueue_ok h1)]
    cases queue with
    | nil => exact ⟨_, done, rfl, rfl, h⟩
    | cons v queue =>
      simp only [List.head?_cons, List.tail_cons] at h2 ⊢
      have hget : (M.get : M (Search α) _) ⟨⟨cb, s.queue.dropped⟩, s.dist⟩
        = (.ok ⟨⟨cb, s.queue.dropped⟩, s.dist⟩, ⟨⟨cb, s.queue.dropped⟩, s.dist⟩) := rfl
      obtain ⟨d, hd⟩ := Option.isSome_iff_exists.mp ((h.known v).mp (by simp))
      rw [M.bind_ok hget]
      dsimp only
      rw [hd]
      dsimp only
      obtain ⟨queue', cb', dist, g1, g2, g3⟩ := visit_ok hn hu hadj (adj v) (s := ⟨⟨cb, s.queue.dropped⟩, s.dist⟩) h2 (h.begin hd)
      rw [M.bind_ok g1]
      exact ih (s := ⟨⟨cb', s.queue.dropped⟩, dist⟩) g2 g3.finish (by rw [List.length_append, List.length_singleton]; omega)

end
end Client
