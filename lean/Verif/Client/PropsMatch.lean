import Verif.Client.LemmasMatch
/-!
# C152: a stable matching found with a circular buffer
-/

open Rust CB
namespace Client

section
variable {P W : Type} [Cfg] [Elem P] [DecidableEq P] [DecidableEq W] {prefs : P → List W} {rank : W → P → Nat} {ps : List P}
  {n fuel : Nat}

/-- **C152 (stable).** With a buffer in which all applicants have room the loop ends after at most as many rounds as there are
applicants and entries on their lists, nothing panics, nothing in the buffer is overwritten, and the matching is stable. -/
theorem c152_stable (hu : Elem.uninitOk P = true) (hn : n ≤ isizeMax) (hs : (n + 1) * Elem.size P ≤ isizeMax) (hps : ps.Nodup)
    (hroom : ps.length ≤ n) (hfuel : (ps.map fun m => (prefs m).length).sum + ps.length < fuel) :
    ∃ held, assign prefs rank fuel n ps = .ok (held, []) ∧ Stable prefs rank ps held := by
  obtain ⟨held, rest, d, h1, h2⟩ := assign_ok (prefs := prefs) (rank := rank) hu hn hs hps hroom hfuel
  exact ⟨held, h1, h2.stable⟩

/-- **C152 (best for the applicants).** If no place ranks two applicants the same, then no applicant has a better place in any
stable matching: who has a place in some stable matching gets one, and none that comes later on the list. -/
theorem c152_best (hu : Elem.uninitOk P = true) (hn : n ≤ isizeMax) (hs : (n + 1) * Elem.size P ≤ isizeMax) (hps : ps.Nodup)
    (hroom : ps.length ≤ n) (hfuel : (ps.map fun m => (prefs m).length).sum + ps.length < fuel)
    (hst : ∀ w, ∀ m ∈ ps, ∀ m' ∈ ps, rank w m = rank w m' → m = m') {held : W → Option P} {dropped : List P}
    (hr : assign prefs rank fuel n ps = .ok (held, dropped)) {μ : W → Option P} (hμ : Stable prefs rank ps μ) {m : P} {w' : W}
    (hw' : μ w' = some m) : ∃ w, held w = some m ∧ (prefs m).idxOf w ≤ (prefs m).idxOf w' := by
  obtain ⟨held, rest, d, h1, h2⟩ := assign_ok (prefs := prefs) (rank := rank) hu hn hs hps hroom hfuel
  rw [h1] at hr; cases hr
  exact h2.best hst hμ hw'

/-- **C152 (the order in the line does not matter).** If no place ranks two applicants the same, the result is the same in
whatever order the applicants queue up. -/
theorem c152_order (hu : Elem.uninitOk P = true) (hn : n ≤ isizeMax) (hs : (n + 1) * Elem.size P ≤ isizeMax) (hps : ps.Nodup)
    (hroom : ps.length ≤ n) (hfuel : (ps.map fun m => (prefs m).length).sum + ps.length < fuel)
    (hst : ∀ w, ∀ m ∈ ps, ∀ m' ∈ ps, rank w m = rank w m' → m = m') {ps' : List P} (hp : ps'.Perm ps) :
    assign prefs rank fuel n ps' = assign prefs rank fuel n ps := by
  obtain ⟨held, rest, d, h1, h2⟩ := assign_ok (prefs := prefs) (rank := rank) hu hn hs hps hroom hfuel
  obtain ⟨held', rest', d', g1, g2⟩ := assign_ok (prefs := prefs) (rank := rank) (fuel := fuel) hu hn hs (hp.nodup_iff.mpr hps)
    (by rw [hp.length_eq]; exact hroom) (by rw [(hp.map _).sum_nat, hp.length_eq]; exact hfuel)
  rw [h1, g1]
  have tr : ∀ {a b : List P}, a.Perm b → ∀ {μ : W → Option P}, Stable prefs rank a μ → Stable prefs rank b μ :=
    fun hab μ hμ => ⟨fun w m hm => ⟨hab.mem_iff.mp (hμ.listed w m hm).1, (hμ.listed w m hm).2⟩, hμ.once,
      fun m hm => hμ.free m (hab.mem_iff.mpr hm)⟩
  have hst' : Strict rank ps' := fun w m hm m' hm' => hst w m (hp.mem_iff.mp hm) m' (hp.mem_iff.mp hm')
  -- each is at least as good as the other
  have both : ∀ w m, held w = some m ↔ held' w = some m := by
    have key : ∀ w m w', held w = some m → held' w' = some m → w = w' := by
      intro w m w' a b
      obtain ⟨v, v1, v2⟩ := h2.best hst (tr hp g2.stable) b
      obtain ⟨u, u1, u2⟩ := g2.best hst' (tr hp.symm h2.stable) a
      have e1 := h2.one v1 a
      have e2 := g2.one u1 b
      subst e1 e2
      exact (List.idxOf_inj (h2.stable.listed v m a).2).mp (Nat.le_antisymm v2 u2)
    intro w m
    constructor
    · intro a
      obtain ⟨u, u1, _⟩ := g2.best hst' (tr hp.symm h2.stable) a
      rw [key w m u a u1]
      exact u1
    · intro b
      obtain ⟨v, v1, _⟩ := h2.best hst (tr hp g2.stable) b
      rw [← key v m w v1 b]
      exact v1
  have : held' = held := funext fun w => Option.ext fun m => (both w m).symm
  rw [this]

end

/-- three applicants and their lists; the third lists one place only -/
def wishes : Nat → List Char
  | 0 => ['x', 'y', 'z']
  | 1 => ['x', 'z']
  | _ => ['x']
/-- what the places think of the applicants -/
def opinion : Char → Nat → Nat
  | 'x', m => 3 - m
  | _, m => m

open CB.Demo in
example : Elem.uninitOk Nat = true ∧ 3 ≤ isizeMax ∧ (3 + 1) * Elem.size Nat ≤ isizeMax ∧ [0, 1, 2].Nodup ∧
    ([0, 1, 2].map fun m => (wishes m).length).sum + [0, 1, 2].length < 10 ∧
    (∀ w, ∀ m ∈ [0, 1, 2], ∀ m' ∈ [0, 1, 2], opinion w m = opinion w m' → m = m') ∧
    (assign wishes opinion 10 3 [0, 1, 2]).toOption.map (fun r => (['x', 'y', 'z'].map r.1, r.2))
      = some ([some 2, some 0, some 1], []) ∧ [2, 0, 1].Perm [0, 1, 2] :=
  ⟨rfl, by decide, by decide, by decide, by decide, fun w m hm m' hm' h => by
    simp only [List.mem_cons, List.not_mem_nil, or_false] at hm hm'
    unfold opinion at h
    split at h <;> omega, by decide +kernel, by decide⟩

/-- two applicants that want different places, which want the other one -/
def crossed : Nat → List Bool
  | 0 => [true, false]
  | _ => [false, true]
/-- what the two places think -/
def crossedRank : Bool → Nat → Nat
  | true, m => 5 - m
  | false, m => m
/-- the matching that is best for the places: stable too, and the program's is better for both applicants -/
def crossedOther : Bool → Option Nat
  | true => some 1
  | false => some 0

open CB.Demo in
example : Stable crossed crossedRank [0, 1] crossedOther ∧
    (∀ w, ∀ m ∈ [0, 1], ∀ m' ∈ [0, 1], crossedRank w m = crossedRank w m' → m = m') ∧
    ([0, 1].map fun m => (crossed m).length).sum + [0, 1].length < 7 ∧
    (assign crossed crossedRank 7 2 [0, 1]).toOption.map (fun r => (r.1 true, r.1 false)) = some (some 0, some 1) := by
  refine ⟨⟨?_, ?_, ?_⟩, by decide, by decide, by decide +kernel⟩
  · intro w m h
    cases w <;> (cases h; decide)
  · intro w w' m h h'
    cases w <;> cases w' <;> first | rfl | (cases h; cases h')
  · intro m hm w hb
    simp only [List.mem_cons, List.not_mem_nil, or_false] at hm
    rcases hm with rfl | rfl <;> cases w
    · exact absurd (hb.wants false rfl) (by decide)
    · exact absurd (hb.takes 1 rfl) (by decide)
    · exact absurd (hb.takes 0 rfl) (by decide)
    · exact absurd (hb.wants true rfl) (by decide)

end Client
