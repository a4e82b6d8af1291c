import Verif.Client.SpecMatch
import Verif.Client.LemmasBfs
/-!
# Lemmas for C152
-/

open Rust CB
namespace Client

section
variable {P W : Type} [DecidableEq P] [DecidableEq W] {prefs : P → List W} {rank : W → P → Nat} {ps : List P}

omit [DecidableEq P] in
theorem idxOf_lt_of_split {l d r : List W} (h : l = d ++ r) {w x : W} (hw : w ∈ d) (hx : x ∉ d) : l.idxOf w < l.idxOf x := by
  subst h
  rw [List.idxOf_append_of_mem hw, List.idxOf_append_of_notMem hx]
  have := List.idxOf_lt_length_of_mem hw
  omega

/-- places rank no two applicants the same -/
def Strict (rank : W → P → Nat) (ps : List P) : Prop := ∀ w, ∀ m ∈ ps, ∀ m' ∈ ps, rank w m = rank w m' → m = m'

/-- What holds at all times: `q` waits, `d m` are the places to which `m` has applied. -/
structure Courting (prefs : P → List W) (rank : W → P → Nat) (ps q : List P) (held : W → Option P) (rest d : P → List W) :
    Prop where
  nodup : q.Nodup
  inside : ∀ m ∈ q, m ∈ ps
  split : ∀ m, prefs m = d m ++ rest m
  taken : ∀ m, ∀ w ∈ d m, ∃ k, held w = some k ∧ rank w k ≤ rank w m
  last : ∀ w m, held w = some m → m ∈ ps ∧ m ∉ q ∧ ∃ d0, d m = d0 ++ [w]
  idle : ∀ m ∈ ps, m ∉ q → (∃ w, held w = some m) ∨ rest m = []
  lost : Strict rank ps → ∀ μ, Stable prefs rank ps μ → ∀ m, ∀ w ∈ d m, held w ≠ some m → μ w ≠ some m

omit [DecidableEq P] in
/-- who is refused in favour of `k` is not there in any stable matching, if `k` can have nothing better -/
theorem refused {μ : W → Option P} (hμ : Stable prefs rank ps μ) {k l : P} {w : W} {dk rk : List W} (hk : k ∈ ps)
    (hs : prefs k = dk ++ rk) (hw : w ∈ dk) (hno : ∀ x ∈ dk, x ≠ w → μ x ≠ some k) (hl : l ≠ k)
    (hlt : rank w k < rank w l) : μ w ≠ some l := by
  intro h
  refine hμ.free k hk w ⟨by rw [hs]; exact List.mem_append_left _ hw, fun x hx => ?_, fun m' hm' => ?_⟩
  · refine idxOf_lt_of_split hs hw fun hxd => hno x hxd ?_ hx
    rintro rfl
    rw [h] at hx
    exact hl (Option.some.inj hx)
  · rw [h] at hm'
    cases hm'
    exact hlt

variable {q : List P} {held : W → Option P} {rest d : P → List W}

omit [DecidableEq P] in
theorem Courting.one (h : Courting prefs rank ps q held rest d) {w w' : W} {m : P} (h1 : held w = some m)
    (h2 : held w' = some m) : w = w' := by
  obtain ⟨_, _, d0, e0⟩ := h.last w m h1
  obtain ⟨_, _, d1, e1⟩ := h.last w' m h2
  rw [e0] at e1
  have := List.append_inj' e1 rfl
  simpa using this.2

omit [DecidableEq P] in
theorem Courting.giveUp {m : P} (h : Courting prefs rank ps (m :: q) held rest d) (hr : rest m = []) :
    Courting prefs rank ps q held rest d := by
  refine ⟨(List.nodup_cons.mp h.nodup).2, fun x hx => h.inside x (List.mem_cons_of_mem _ hx), h.split, h.taken,
    fun w x hx => ?_, fun x hx hn => ?_, h.lost⟩
  · obtain ⟨h1, h2, h3⟩ := h.last w x hx
    exact ⟨h1, fun hq => h2 (List.mem_cons_of_mem _ hq), h3⟩
  · by_cases hxm : x = m
    · subst hxm; exact .inr hr
    · exact h.idle x hx (by simp [hxm, hn])

theorem Courting.split' {m : P} (h : Courting prefs rank ps (m :: q) held rest d) {w : W} {ws : List W}
    (hr : rest m = w :: ws) (x : P) :
    prefs x = Function.update d m (d m ++ [w]) x ++ Function.update rest m ws x := by
  by_cases hx : x = m
  · subst hx
    rw [h.split, hr]
    simp
  · rw [Function.update_of_ne hx, Function.update_of_ne hx]
    exact h.split x

omit [DecidableEq W] in
theorem mem_update {m x : P} {v w : W} (hv : v ∈ Function.update d m (d m ++ [w]) x) : v ∈ d x ∨ (x = m ∧ v = w) := by
  by_cases hx : x = m
  · subst hx
    simpa using hv
  · rw [Function.update_of_ne hx] at hv
    exact .inl hv

/-- the place takes the applicant; whom it had goes to the end of the line -/
theorem Courting.give {m : P} (h : Courting prefs rank ps (m :: q) held rest d) {w : W} {ws : List W}
    (hr : rest m = w :: ws) (hlt : ∀ k, held w = some k → rank w m < rank w k) :
    Courting prefs rank ps (q ++ (held w).toList) (Function.update held w (some m)) (Function.update rest m ws)
      (Function.update d m (d m ++ [w])) := by
  obtain ⟨hmq, hq⟩ := List.nodup_cons.mp h.nodup
  have hm := h.inside m List.mem_cons_self
  have hnew : ∀ x, x ∈ (held w).toList ↔ held w = some x := fun x => by simp
  have hout : ∀ x, held w = some x → x ∉ q ∧ x ≠ m := fun x hx => by
    have := (h.last w x hx).2.1
    exact ⟨fun hq => this (List.mem_cons_of_mem _ hq), fun e => this (e ▸ List.mem_cons_self)⟩
  have hmem : ∀ x, x ∈ q ++ (held w).toList ↔ x ∈ q ∨ held w = some x := fun x => by rw [List.mem_append, hnew]
  refine ⟨?_, fun x hx => ?_, h.split' hr, fun x v hv => ?_, fun v x hx => ?_, fun x hx hn => ?_, fun hst μ hμ x v hv hne => ?_⟩
  · cases hw : held w with
    | none => simpa using hq
    | some k =>
      simp only [Option.toList_some]
      rw [List.nodup_append]
      exact ⟨hq, List.nodup_singleton _, fun x hx y hy => by
        rw [List.mem_singleton.mp hy]; exact fun e => (hout k hw).1 (e ▸ hx)⟩
  · rcases (hmem x).mp hx with hx | hx
    · exact h.inside x (List.mem_cons_of_mem _ hx)
    · exact (h.last w x hx).1
  · by_cases hvw : v = w
    · subst hvw
      refine ⟨m, by simp, ?_⟩
      rcases mem_update hv with hv | ⟨rfl, _⟩
      · obtain ⟨k, h1, h2⟩ := h.taken x v hv
        have := hlt k h1
        omega
      · exact Nat.le_refl _
    · rw [Function.update_of_ne hvw]
      rcases mem_update hv with hv | ⟨_, hv⟩
      · exact h.taken x v hv
      · exact absurd hv hvw
  · by_cases hvw : v = w
    · subst hvw
      rw [Function.update_self] at hx
      cases hx
      exact ⟨hm, fun hq' => ((hmem _).mp hq').elim hmq fun h0 => (hout _ h0).2 rfl, d m, by simp⟩
    · rw [Function.update_of_ne hvw] at hx
      obtain ⟨h1, h2, h3⟩ := h.last v x hx
      have hxm : x ≠ m := fun e => h2 (e ▸ List.mem_cons_self)
      refine ⟨h1, fun hq' => ?_, by rw [Function.update_of_ne hxm]; exact h3⟩
      rcases (hmem x).mp hq' with hq' | hq'
      · exact h2 (List.mem_cons_of_mem _ hq')
      · exact hvw (h.one hx hq')
  · by_cases hxm : x = m
    · subst hxm
      exact .inl ⟨w, by simp⟩
    · rcases h.idle x hx (by simp only [List.mem_cons, not_or]; exact ⟨hxm, fun hq' => hn ((hmem x).mpr (.inl hq'))⟩) with
        ⟨v, hv⟩ | h0
      · refine .inl ⟨v, ?_⟩
        rw [Function.update_of_ne]
        · exact hv
        · rintro rfl
          exact hn ((hmem x).mpr (.inr hv))
      · exact .inr (by rw [Function.update_of_ne hxm]; exact h0)
  · rcases mem_update hv with hv | ⟨rfl, rfl⟩
    · by_cases hvx : held v = some x
      · have hvw : v = w := by
          by_contra hvw
          rw [Function.update_of_ne hvw] at hne
          exact hne hvx
        subst hvw
        refine refused hμ hm (h.split' hr m) (by simp) (fun y hy hyv => ?_) (hout x hvx).2 (hlt x hvx)
        rcases mem_update hy with hy | ⟨_, hy⟩
        · exact h.lost hst μ hμ m y hy fun h0 => (h.last y m h0).2.1 List.mem_cons_self
        · exact absurd hy hyv
      · exact h.lost hst μ hμ x v hv hvx
    · exact absurd (Function.update_self _ _ _) hne

/-- the place refuses the applicant, who goes to the end of the line -/
theorem Courting.refuse {m k : P} (h : Courting prefs rank ps (m :: q) held rest d) {w : W} {ws : List W}
    (hr : rest m = w :: ws) (hk : held w = some k) (hle : ¬rank w m < rank w k) :
    Courting prefs rank ps (q ++ [m]) held (Function.update rest m ws) (Function.update d m (d m ++ [w])) := by
  obtain ⟨hmq, hq⟩ := List.nodup_cons.mp h.nodup
  have hm := h.inside m List.mem_cons_self
  have hmem : ∀ x, x ∈ q ++ [m] ↔ x ∈ m :: q := fun x => by simp [or_comm]
  obtain ⟨k1, k2, d0, k3⟩ := h.last w k hk
  have hkm : k ≠ m := fun e => k2 (e ▸ List.mem_cons_self)
  refine ⟨?_, fun x hx => h.inside x ((hmem x).mp hx), h.split' hr, fun x v hv => ?_, fun v x hx => ?_, fun x hx hn => ?_,
    fun hst μ hμ x v hv hne => ?_⟩
  · rw [List.nodup_append]
    exact ⟨hq, List.nodup_singleton _, fun x hx y hy => by rw [List.mem_singleton.mp hy]; exact fun e => hmq (e ▸ hx)⟩
  · rcases mem_update hv with hv | ⟨rfl, rfl⟩
    · exact h.taken x v hv
    · exact ⟨k, hk, by omega⟩
  · obtain ⟨h1, h2, h3⟩ := h.last v x hx
    have hxm : x ≠ m := fun e => h2 (e ▸ List.mem_cons_self)
    exact ⟨h1, fun hq' => h2 ((hmem x).mp hq'), by rw [Function.update_of_ne hxm]; exact h3⟩
  · have hn' : x ∉ m :: q := fun hq' => hn ((hmem x).mpr hq')
    have hxm : x ≠ m := fun e => hn' (e ▸ List.mem_cons_self)
    rw [Function.update_of_ne hxm]
    exact h.idle x hx hn'
  · rcases mem_update hv with hv | ⟨rfl, rfl⟩
    · exact h.lost hst μ hμ x v hv hne
    · refine refused hμ k1 (h.split k) (by rw [k3]; simp) (fun y hy hyv => ?_) (Ne.symm hkm) ?_
      · exact h.lost hst μ hμ k y hy fun h0 => hyv (h.one h0 hk)
      · have : rank v x ≠ rank v k := fun e => hkm (hst v x hm k k1 e).symm
        omega

omit [DecidableEq P] in
/-- when nobody waits, nobody would rather have each other -/
theorem Courting.stable (h : Courting prefs rank ps [] held rest d) : Stable prefs rank ps held := by
  refine ⟨fun w m hm => ?_, fun w w' m => h.one, fun m hm w hb => ?_⟩
  · obtain ⟨h1, _, d0, h3⟩ := h.last w m hm
    exact ⟨h1, by rw [h.split, h3]; simp⟩
  · have hw : w ∈ d m := by
      by_contra hw
      rcases h.idle m hm (by simp) with ⟨w', hw'⟩ | h0
      · have := hb.wants w' hw'
        obtain ⟨_, _, d0, h3⟩ := h.last w' m hw'
        have := idxOf_lt_of_split (h.split m) (w := w') (x := w) (by rw [h3]; simp) hw
        omega
      · have := hb.listed
        rw [h.split, h0, List.append_nil] at this
        exact hw this
    obtain ⟨k, h1, h2⟩ := h.taken m w hw
    have := hb.takes k h1
    omega

omit [DecidableEq P] in
/-- and everybody has the best of all stable matchings -/
theorem Courting.best (h : Courting prefs rank ps [] held rest d) (hst : Strict rank ps) {μ : W → Option P}
    (hμ : Stable prefs rank ps μ) {m : P} {w' : W} (hw' : μ w' = some m) :
    ∃ w, held w = some m ∧ (prefs m).idxOf w ≤ (prefs m).idxOf w' := by
  obtain ⟨hm, hl⟩ := hμ.listed w' m hw'
  by_cases hd : w' ∈ d m
  · by_cases hh : held w' = some m
    · exact ⟨w', hh, Nat.le_refl _⟩
    · exact absurd hw' (h.lost hst μ hμ m w' hd hh)
  · rcases h.idle m hm (by simp) with ⟨w, hw⟩ | h0
    · obtain ⟨_, _, d0, h3⟩ := h.last w m hw
      exact ⟨w, hw, Nat.le_of_lt (idxOf_lt_of_split (h.split m) (by rw [h3]; simp) hd)⟩
    · rw [h.split, h0, List.append_nil] at hl
      exact absurd hl hd

omit [DecidableEq W] in
theorem sum_update {m : P} {w : W} {ws : List W} (hr : rest m = w :: ws) : ∀ {l : List P}, m ∈ l →
    (l.map fun x => (Function.update rest m ws x).length).sum + 1 ≤ (l.map fun x => (rest x).length).sum := by
  have hle : ∀ x, (Function.update rest m ws x).length ≤ (rest x).length := fun x => by
    by_cases hx : x = m
    · subst hx; simp [hr]
    · exact Nat.le_of_eq (by rw [Function.update_of_ne hx])
  have hall : ∀ l : List P, (l.map fun x => (Function.update rest m ws x).length).sum ≤ (l.map fun x => (rest x).length).sum := by
    intro l
    induction l with
    | nil => exact Nat.le_refl _
    | cons x l ih =>
      have := hle x
      simp only [List.map_cons, List.sum_cons]
      omega
  intro l hl
  induction l with
  | nil => cases hl
  | cons x l ih =>
    simp only [List.map_cons, List.sum_cons]
    by_cases hx : x = m
    · subst hx
      have := hall l
      simp only [Function.update_self, hr, List.length_cons]
      omega
    · have := ih ((List.mem_cons.mp hl).resolve_left (Ne.symm hx))
      have := hle x
      omega

end

section
variable {P W : Type} [Cfg] [Elem P] [DecidableEq P] [DecidableEq W] {prefs : P → List W} {rank : W → P → Nat} {ps : List P}
  {n : Nat}

omit [DecidableEq P] in
theorem queueUp_ok (ms : List P) : ∀ {q : List P} {s : St P}, Rep s.cb ⟨n, q⟩ → q.length + ms.length ≤ n →
    ∃ cb, queueUp ms s = (.ok (), ⟨cb, s.dropped⟩) ∧ Rep cb ⟨n, q ++ ms⟩ := by
  induction ms with
  | nil => intro q s hr _; exact ⟨s.cb, rfl, by simpa using hr⟩
  | cons m ms ih =>
    intro q s hr hn
    rw [List.length_cons] at hn
    obtain ⟨cb, h1, h2⟩ := pushBack_room hr (by omega) m
    obtain ⟨cb', g1, g2⟩ := ih (s := ⟨cb, s.dropped⟩) h2 (by rw [List.length_append, List.length_singleton]; omega)
    exact ⟨cb', by rw [queueUp, M.bind_ok h1, g1], by simpa using g2⟩

theorem apply_ok (hroom : ps.length ≤ n) (fuel : Nat) : ∀ {q : List P} {s : St P} {held : W → Option P} {rest d : P → List W},
    Rep s.cb ⟨n, q⟩ → Courting prefs rank ps q held rest d → (ps.map fun x => (rest x).length).sum + q.length < fuel →
    ∃ held' rest' d' s', apply rank fuel held rest s = (.ok held', s') ∧ s'.dropped = s.dropped ∧
      Courting prefs rank ps [] held' rest' d' := by
  induction fuel with
  | zero => intro q s held rest d _ _ hf; omega
  | succ fuel ih =>
    intro q s held rest d hr h hf
    obtain ⟨cb, h1, h2⟩ := popFront_sim hr
    unfold apply
    rw [M.bind_ok h1]
    cases q with
    | nil => exact ⟨held, rest, d, _, rfl, rfl, h⟩
    | cons m q =>
      simp only [List.head?_cons, List.tail_cons] at h2 ⊢
      rw [List.length_cons] at hf
      have hlen : q.length + 1 ≤ ps.length := by
        have := (h.nodup.subperm fun x hx => h.inside x hx).length_le
        simpa using this
      cases hrm : rest m with
      | nil => exact ih (s := ⟨cb, s.dropped⟩) h2 (h.giveUp hrm) (by omega)
      | cons w ws =>
        have hsum := sum_update hrm (h.inside m List.mem_cons_self)
        cases hw : held w with
        | none =>
          simp only [hw]
          have hg := h.give hrm (by rw [hw]; simp)
          rw [hw, Option.toList_none, List.append_nil] at hg
          exact ih (s := ⟨cb, s.dropped⟩) h2 hg (by omega)
        | some k =>
          simp only [hw]
          by_cases hlt : rank w m < rank w k
          · rw [if_pos hlt]
            have hg := h.give hrm (by rw [hw]; rintro x ⟨⟩; exact hlt)
            rw [hw, Option.toList_some] at hg
            obtain ⟨cb', p1, p2⟩ := pushBack_room (s := ⟨cb, s.dropped⟩) h2 (by omega) k
            rw [M.bind_ok p1]
            exact ih (s := ⟨cb', s.dropped⟩) p2 hg (by rw [List.length_append, List.length_singleton]; omega)
          · rw [if_neg hlt]
            obtain ⟨cb', p1, p2⟩ := pushBack_room (s := ⟨cb, s.dropped⟩) h2 (by omega) m
            rw [M.bind_ok p1]
            exact ih (s := ⟨cb', s.dropped⟩) p2 (h.refuse hrm hw hlt)
              (by rw [List.length_append, List.length_singleton]; omega)

theorem assign_ok (hu : Elem.uninitOk P = true) (hn : n ≤ isizeMax) (hs : (n + 1) * Elem.size P ≤ isizeMax) (hps : ps.Nodup)
    (hroom : ps.length ≤ n) {fuel : Nat} (hfuel : (ps.map fun m => (prefs m).length).sum + ps.length < fuel) :
    ∃ held rest d, assign prefs rank fuel n ps = .ok (held, []) ∧ Courting prefs rank ps [] held rest d := by
  obtain ⟨cb, e1, hr⟩ := withCapacity_rep hu hn hs
  obtain ⟨cb', h1, h2⟩ := queueUp_ok ps (s := ⟨cb, []⟩) hr (by simpa using hroom)
  rw [List.nil_append] at h2
  obtain ⟨held, rest, d, s', g1, g2, g3⟩ := apply_ok (prefs := prefs) (rank := rank) hroom fuel (s := ⟨cb', []⟩) h2
    (held := fun _ => none) (rest := prefs) (d := fun _ => [])
    ⟨hps, fun _ h => h, fun _ => rfl, fun _ _ h => (by cases h), fun _ _ h => (by cases h), fun m hm hn => absurd hm hn,
      fun _ _ _ _ _ h => (by cases h)⟩ hfuel
  refine ⟨held, rest, d, ?_, g3⟩
  unfold assign
  rw [e1]
  show ((do
    let (r, s) := (do queueUp ps; apply rank fuel (fun _ => none) prefs : M (St P) (W → Option P)) ⟨cb, []⟩
    let held ← r
    return (held, s.dropped)) : Except Fault ((W → Option P) × List P)) = _
  rw [M.bind_ok h1, g1]
  show Except.ok (held, s'.dropped) = _
  rw [g2]

end
end Client
