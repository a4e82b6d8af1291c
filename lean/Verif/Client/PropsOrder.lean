import Verif.Client.LemmasOrder
/-!
# C148: tasks arranged with a counter and a circular buffer
-/

open Rust CB
namespace Client

section
variable {α : Type} [Cfg] [Elem α] [DecidableEq α] {after : α → List α} {vs : List α} {n fuel : Nat}

/-- **C148.** With a buffer in which all tasks have room, the loop ends after at most as many rounds as there are tasks,
nothing panics, and nothing in the buffer is overwritten. No task is named twice, each comes after all it waits for, and
exactly those tasks are left out that wait for a task that waits for itself. What is left in the counter is what the tasks
left out release. -/
theorem c148_arranged (hu : Elem.uninitOk α = true) (hn : n ≤ isizeMax) (hs : (n + 1) * Elem.size α ≤ isizeMax) (hvs : vs.Nodup)
    (hadj : ∀ v ∈ vs, ∀ w ∈ after v, w ∈ vs) (hmax : ∀ v, (vs.flatMap after).count v ≤ usizeMax) (hroom : vs.length ≤ n)
    (hfuel : vs.length < fuel) :
    ∃ s, arrange after fuel n vs = .ok s ∧ s.line.dropped = [] ∧ s.out.Nodup ∧
      (∀ pre v post, s.out = pre ++ v :: post → ∀ u ∈ vs, v ∈ after u → u ∈ pre) ∧
      (∀ v, v ∈ s.out ↔ v ∈ vs ∧ ¬∃ u ∈ vs, Awaits after u u ∧ (u = v ∨ Awaits after u v)) ∧
      ∀ v k, s.waits.get v = some k ↔ 0 < k ∧ k = ((vs.filter fun u => decide (u ∉ s.out)).flatMap after).count v := by
  have h6 := two_isizeMax
  obtain ⟨c, e1, hst⟩ := Cnt.stores_fromIter hmax
  obtain ⟨cb, e2, hr⟩ := withCapacity_rep hu hn hs
  have hp : pending after vs [] = vs.flatMap after := by simp [pending]
  obtain ⟨cb', h1, h2⟩ := enlistAll_ok (l := vs.flatMap after) vs (s := ⟨⟨cb, []⟩, c, []⟩) hr hst (by simpa using hroom)
  obtain ⟨s', g1, g2, g3, g4⟩ := work_ok (after := after) hvs hroom (by omega) hadj fuel (s := ⟨⟨cb', []⟩, c, []⟩) h2
    ⟨by simpa using hvs.filter _, fun x hx => by
      simp only [List.nil_append, List.mem_filter] at hx; exact hx.1, by rw [hp]; exact hst, fun x hx => by
      rw [hp]
      simp only [List.nil_append, List.mem_filter, decide_eq_true_eq]
      exact ⟨fun h => h.2, fun h => ⟨hx, h⟩⟩⟩
    (fun pre v post e => by simp at e) (by simpa using hfuel)
  refine ⟨s', ?_, g2, g3.nodup, g4, fun v => ⟨fun hv => ⟨g3.inside v hv, ?_⟩, ?_⟩, fun v k => ?_⟩
  · unfold arrange
    rw [e1]
    show (withCapacity n >>= fun cb => _) = _
    rw [e2]
    show ((do
      let (r, s) := (do enlistAll vs; work after fuel : M (Tasks α) Unit) ⟨⟨cb, []⟩, c, []⟩
      r
      return s) : Except Fault (Tasks α)) = _
    rw [M.bind_ok h1, g1]
    rfl
  · rintro ⟨u, hu, hc, hr⟩
    refine g4.free hadj hu hc ?_ hv
    rcases hr with rfl | hr
    · exact .refl
    · exact hr.to_reflTransGen
  · rintro ⟨hv, hno⟩
    by_contra hout
    obtain ⟨u, hu, hc, hr⟩ := stuck (after := after) (vs := vs) (fun x => x ∈ vs ∧ x ∉ s'.out) (fun x h => h.1) (fun x h => by
      by_contra hno
      refine h.2 ((g3.ready x h.1).mpr fun hx => hno ?_)
      obtain ⟨u, hu, hud, hxu⟩ := mem_pending.mp hx
      exact ⟨u, ⟨hu, hud⟩, hxu⟩) ⟨hv, hout⟩
    refine hno ⟨u, hu, hc, ?_⟩
    rcases Relation.reflTransGen_iff_eq_or_transGen.mp hr with e | hr
    · exact .inl e.symm
    · exact .inr hr
  · rw [g3.stores.2]
    show (if (pending after vs s'.out).count v = 0 then none else some ((pending after vs s'.out).count v)) = some k ↔
      0 < k ∧ k = (pending after vs s'.out).count v
    split
    · rename_i h0; simp; omega
    · rename_i h0; simp; omega

/-- **C148 (complete).** All tasks are arranged exactly if none waits for itself. -/
theorem c148_complete (hu : Elem.uninitOk α = true) (hn : n ≤ isizeMax) (hs : (n + 1) * Elem.size α ≤ isizeMax) (hvs : vs.Nodup)
    (hadj : ∀ v ∈ vs, ∀ w ∈ after v, w ∈ vs) (hmax : ∀ v, (vs.flatMap after).count v ≤ usizeMax) (hroom : vs.length ≤ n)
    (hfuel : vs.length < fuel) :
    ∃ s, arrange after fuel n vs = .ok s ∧ (s.out.Perm vs ↔ ∀ v ∈ vs, ¬Awaits after v v) ∧
      (s.out.length = vs.length ↔ s.out.Perm vs) := by
  obtain ⟨s, h1, _, h2, _, h3, _⟩ := c148_arranged hu hn hs hvs hadj hmax hroom hfuel
  have hsub : s.out.Subperm vs := h2.subperm fun v hv => ((h3 v).mp hv).1
  refine ⟨s, h1, ⟨fun hp v hv hc => ?_, fun hno => ?_⟩, fun hl => hsub.perm_of_length_le (Nat.le_of_eq hl.symm), fun hp => hp.length_eq⟩
  · exact ((h3 v).mp (hp.mem_iff.mpr hv)).2 ⟨v, hv, hc, .inl rfl⟩
  · refine (List.perm_ext_iff_of_nodup h2 hvs).mpr fun v => ⟨fun hv => ((h3 v).mp hv).1, fun hv => (h3 v).mpr ⟨hv, ?_⟩⟩
    rintro ⟨u, hu, hc, _⟩
    exact hno u hu hc

end

/-- 0 before 1 and, twice, before 2; both before 3; 4 and 5 wait for each other, and 6 for 5 and 3 -/
def chores : Nat → List Nat
  | 0 => [1, 2, 2]
  | 1 => [3]
  | 2 => [3]
  | 3 => [6]
  | 4 => [5]
  | 5 => [4, 6]
  | _ => []

open CB.Demo in
example : Elem.uninitOk Nat = true ∧ 7 ≤ isizeMax ∧ (7 + 1) * Elem.size Nat ≤ isizeMax ∧ [6, 5, 4, 3, 2, 1, 0].Nodup ∧
    (∀ v ∈ [6, 5, 4, 3, 2, 1, 0], ∀ w ∈ chores v, w ∈ [6, 5, 4, 3, 2, 1, 0]) ∧
    (∀ v, ([6, 5, 4, 3, 2, 1, 0].flatMap chores).count v ≤ usizeMax) ∧
    Awaits chores 4 4 ∧ (arrange chores 8 7 [6, 5, 4, 3, 2, 1, 0]).toOption.map (fun s => (s.out, s.waits.get 6, s.waits.get 3))
      = some ([0, 1, 2, 3], some 1, none) :=
  ⟨rfl, by decide, by decide, by decide, by decide, fun _ => Nat.le_trans List.count_le_length (by decide),
    .tail (.single (by decide : 5 ∈ chores 4)) (by decide), by decide +kernel⟩

end Client
