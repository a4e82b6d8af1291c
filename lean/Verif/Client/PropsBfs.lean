import Verif.Client.LemmasBfs
/-!
# C120: breadth first search with a circular buffer as the queue
-/

open Rust CB
namespace Client

section
variable {α : Type} [Cfg] [Elem α] [DecidableEq α] {adj : α → List α} {start : α} {vs : List α} {n fuel : Nat}

/-- **C120.** On a graph whose vertices are among `vs`, with a queue of capacity at least `vs.len() - 1`, the search ends
after at most as many rounds as there are vertices, never panics, overwrites nothing in the queue, and the map then holds
exactly the vertices that can be reached, each with the length of a shortest walk. -/
theorem c120_shortest (hu : Elem.uninitOk α = true) (hpos : 0 < n) (hn : n ≤ isizeMax)
    (hs : (n + 1) * Elem.size α ≤ isizeMax) (hstart : start ∈ vs) (hadj : ∀ v ∈ vs, ∀ w ∈ adj v, w ∈ vs)
    (hroom : vs.length ≤ n + 1) (hfuel : vs.length < fuel) :
    ∃ s, distances adj fuel n start = .ok s ∧ s.queue.dropped = [] ∧
      ∀ v d, s.dist.get v = some d ↔ Walk adj start d v ∧ ∀ d', Walk adj start d' v → d ≤ d' := by
  have h6 := two_isizeMax
  obtain ⟨cb, e, hr⟩ := withCapacity_rep hu hn hs
  obtain ⟨cb', h1, h2⟩ := pushBack_room (s := ⟨cb, []⟩) hr hpos start
  have hb : Between adj start vs [] [start] (HMap.empty.insert start 0).get := by
    have hg : (HMap.empty.insert start 0).get = fun x => if x = start then some 0 else none :=
      funext fun x => HMap.get_insert
    rw [hg]
    refine ⟨List.nodup_singleton _, fun x => ?_, fun x hx => ?_, if_pos rfl, ?_, ?_, List.pairwise_singleton _ _, ?_, ?_⟩
    · by_cases hx : x = start <;> simp [hx]
    · rw [List.mem_singleton.mp hx]; exact hstart
    · intro x d hd
      split at hd
      · rename_i hx
        cases hd; rw [hx]; exact .refl
      · cases hd
    · intro x d hd
      split at hd
      · cases hd; exact Nat.le_refl _
      · cases hd
    · intro x _ d _ y f hf
      split at hf
      · cases hf; omega
      · cases hf
    · intro x hx; cases hx
  obtain ⟨s', done, g1, g0, g2⟩ := search_ok (fuel := fuel) hroom (by omega) hadj
    (s := ⟨⟨cb', []⟩, HMap.empty.insert start 0⟩) h2 hb (by simpa using hfuel)
  refine ⟨s', ?_, g0, g2.final⟩
  unfold distances
  rw [e]
  show ((do
    let (r, s) := (do onQueue (pushBack start); search adj fuel : M (Search α) Unit) ⟨⟨cb, []⟩, HMap.empty.insert start 0⟩
    r
    return s) : Except Fault (Search α)) = _
  rw [M.bind_ok (onQueue_ok (s := ⟨⟨cb, []⟩, HMap.empty.insert start 0⟩) h1), g1]
  rfl

end

/-- a square 0-1-3-2 with a tail 3-4 and a lonely 5 -/
def streets : Nat → List Nat
  | 0 => [1, 2]
  | 1 => [0, 3]
  | 2 => [0, 3]
  | 3 => [1, 2, 4]
  | 4 => [3]
  | _ => []

open CB.Demo in
example : Elem.uninitOk Nat = true ∧ 0 < 5 ∧ 5 ≤ isizeMax ∧ (5 + 1) * Elem.size Nat ≤ isizeMax ∧ 0 ∈ List.range 6 ∧
    (∀ v ∈ List.range 6, ∀ w ∈ streets v, w ∈ List.range 6) ∧ (List.range 6).length ≤ 5 + 1 ∧ (List.range 6).length < 7 ∧
    (distances streets 7 5 0).toOption.map (fun s => (List.range 6).map s.dist.get)
      = some [some 0, some 1, some 1, some 2, some 3, none] :=
  ⟨rfl, by decide, by decide, by decide, by decide, by decide, by decide, by decide, by decide +kernel⟩
open CB.Demo in
/-- A star with three leaves and a queue of two: one leaf is overwritten, and what lies behind it is not found. So the
capacity is needed. -/
example : ∃ adj : Nat → List Nat, (∀ v ∈ List.range 5, ∀ w ∈ adj v, w ∈ List.range 5) ∧ Walk adj 0 2 4 ∧
    (distances adj 6 2 0).toOption.map (fun s => (s.dist.get 4, s.queue.dropped)) = some (none, [1]) := by
  refine ⟨fun v => if v = 0 then [1, 2, 3] else if v = 1 then [4] else [], by decide, ?_, by decide +kernel⟩
  exact .step (v := 1) (.step .refl (by decide)) (by decide)

end Client
