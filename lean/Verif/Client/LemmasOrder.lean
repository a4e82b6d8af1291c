import Verif.Client.SpecOrder
import Verif.Client.LemmasBfs
import Verif.Cnt.LemmasStock
import Mathlib.Order.WellFounded
import Mathlib.Data.Fintype.Card
import Mathlib.Data.Set.Finite.Basic
/-!
# Lemmas for C148
-/

open Rust CB
namespace Client

section
variable {α : Type} [DecidableEq α] {after : α → List α} {vs done queue : List α}

/-- what the tasks that are not done release -/
def pending (after : α → List α) (vs done : List α) : List α := (vs.filter fun x => decide (x ∉ done)).flatMap after

theorem pending_count (hvs : vs.Nodup) {v : α} (hv : v ∈ vs) (hd : v ∉ done) (x : α) :
    (pending after vs done).count x = (pending after vs (done ++ [v]) ++ after v).count x := by
  have hp : (vs.filter fun x => decide (x ∉ done)).Perm (v :: vs.filter fun x => decide (x ∉ done ++ [v])) := by
    refine (List.perm_ext_iff_of_nodup (hvs.filter _) ?_).mpr fun y => ?_
    · rw [List.nodup_cons]
      exact ⟨by simp, hvs.filter _⟩
    · by_cases hy : y = v
      · subst hy; simp [hv, hd]
      · simp [hy]
  rw [pending, (hp.flatMap_right after).count_eq x, List.flatMap_cons, List.count_append, List.count_append, pending]
  omega

theorem mem_pending {x : α} : x ∈ pending after vs done ↔ ∃ u ∈ vs, u ∉ done ∧ x ∈ after u := by
  simp [pending, and_assoc]

/-- each comes after those it waits for -/
def Arranged (after : α → List α) (vs out : List α) : Prop :=
  ∀ pre v post, out = pre ++ v :: post → ∀ u ∈ vs, v ∈ after u → u ∈ pre

omit [DecidableEq α] in
theorem Arranged.snoc {v : α} (h : Arranged after vs done) (hv : ∀ u ∈ vs, v ∈ after u → u ∈ done) :
    Arranged after vs (done ++ [v]) := by
  intro pre w post e
  rcases List.eq_nil_or_concat post with rfl | ⟨post', x, rfl⟩
  · have := List.append_inj' e rfl
    obtain ⟨rfl, h2⟩ := this
    cases h2
    exact hv
  · have e' : done ++ [v] = (pre ++ w :: post') ++ [x] := by simpa using e
    exact h pre w post' (List.append_inj' e' rfl).1

omit [DecidableEq α] in
/-- nothing that is arranged waits for something that waits for itself -/
theorem Arranged.free (h : Arranged after vs done) (hadj : ∀ v ∈ vs, ∀ w ∈ after v, w ∈ vs) {u v : α} (hu : u ∈ vs)
    (hc : Awaits after u u) (hr : Relation.ReflTransGen (fun x y => y ∈ after x) u v) : v ∉ done := by
  have reach : ∀ {a b}, a ∈ vs → Relation.ReflTransGen (fun x y => y ∈ after x) a b → b ∈ vs := by
    intro a b ha hab
    induction hab with
    | refl => exact ha
    | tail _ h2 ih => exact hadj _ ih _ h2
  -- going back from a task finds it in ever shorter prefixes
  have key : ∀ (n : Nat) (pre post : List α) (x : α), pre.length = n → done = pre ++ x :: post →
      ¬Relation.ReflTransGen (fun x y => y ∈ after x) u x := by
    intro n
    induction n using Nat.strongRecOn with
    | _ n ih =>
      intro pre post x hn e hux
      have hlast : Awaits after u x := Relation.TransGen.trans_left hc hux
      obtain ⟨y, h1, h2⟩ := Relation.TransGen.tail'_iff.mp hlast
      have hy := h pre x post e y (reach hu h1) h2
      obtain ⟨p1, p2, rfl⟩ := List.append_of_mem hy
      refine ih p1.length ?_ p1 (p2 ++ x :: post) y rfl (by rw [e]; simp) h1
      rw [← hn]; simp
  intro hv
  obtain ⟨pre, post, e⟩ := List.append_of_mem hv
  exact key _ pre post v rfl e hr

omit [DecidableEq α] in
/-- what is never done waits for something that waits for itself -/
theorem stuck (left : α → Prop) (hin : ∀ x, left x → x ∈ vs) (hpred : ∀ x, left x → ∃ u, left u ∧ x ∈ after u) {v : α} (hv : left v) :
    ∃ u ∈ vs, Awaits after u u ∧ Relation.ReflTransGen (fun x y => y ∈ after x) u v := by
  by_contra hno
  push Not at hno
  let A := { x : α // x ∈ vs ∧ Relation.ReflTransGen (fun x y => y ∈ after x) x v }
  have : Finite { x // x ∈ vs } := vs.finite_toSet
  have : Finite A := Finite.of_injective (β := { x // x ∈ vs }) (fun a => ⟨a.1, a.2.1⟩) fun a b e => Subtype.ext (by simpa using e)
  let R : A → A → Prop := fun a b => Awaits after a.1 b.1
  have : IsTrans A R := ⟨fun _ _ _ h1 h2 => Relation.TransGen.trans h1 h2⟩
  have : Std.Irrefl R := ⟨fun a h => hno a.1 a.2.1 h a.2.2⟩
  have wf : WellFounded R := Finite.wellFounded_of_trans_of_irrefl R
  obtain ⟨m, hm, hmin⟩ := wf.has_min { a : A | left a.1 } ⟨⟨v, hin v hv, .refl⟩, hv⟩
  obtain ⟨u, hu, hmu⟩ := hpred m.1 hm
  exact hmin ⟨u, hin u hu, .head hmu m.2.2⟩ hu (.single hmu)

end

section
variable {α : Type} [Cfg] [Elem α] [DecidableEq α] {after : α → List α} {vs : List α} {n : Nat}

/-- What holds at all times: `front` are the tasks that are done or can be done, `l` what is counted. -/
structure Ready (vs front l : List α) (c : Cnt.Counter α) : Prop where
  nodup : front.Nodup
  inside : ∀ x ∈ front, x ∈ vs
  stores : Cnt.Stores c fun x => l.count x
  ready : ∀ x ∈ vs, x ∈ front ↔ x ∉ l

omit [Cfg] [Elem α] [DecidableEq α] in
theorem onLine_ok {β : Type} {m : M (St α) β} {s : Tasks α} {b : β} {q : St α} (h : m s.line = (.ok b, q)) :
    onLine m s = (.ok b, { s with line := q }) := by rw [onLine, h]

omit [Cfg] [Elem α] [DecidableEq α] in
theorem onWaits_ok {β : Type} {m : M (Cnt.Counter α) β} {s : Tasks α} {b : β} {c : Cnt.Counter α}
    (h : m s.waits = (.ok b, c)) : onWaits m s = (.ok b, { s with waits := c }) := by rw [onWaits, h]

omit [Elem α] in
theorem stores_isNone {c : Cnt.Counter α} {l : List α} (h : Cnt.Stores c fun x => l.count x) (x : α) :
    (c.get x).isNone = true ↔ x ∉ l := by
  rw [h.2]
  split
  · rename_i h0; simpa using List.count_eq_zero.mp h0
  · rename_i h0; simpa using List.count_pos_iff.mp (Nat.pos_of_ne_zero h0)

/-- `enlist` on a task that is not in front -/
theorem enlist_ok {l queue : List α} {s : Tasks α} (hr : Rep s.line.cb ⟨n, queue⟩) (hs : Cnt.Stores s.waits fun x => l.count x)
    {w : α} (hroom : w ∉ l → queue.length < n) :
    ∃ cb, enlist w s = (.ok (), { s with line := ⟨cb, s.line.dropped⟩ }) ∧ Rep cb ⟨n, if w ∈ l then queue else queue ++ [w]⟩ := by
  have hget : (M.get : M (Tasks α) (Tasks α)) s = (.ok s, s) := rfl
  by_cases hw : w ∈ l
  · refine ⟨s.line.cb, ?_, by rw [if_pos hw]; exact hr⟩
    rw [enlist, M.bind_ok hget, if_neg (by rw [stores_isNone hs]; exact fun h => h hw)]
    rfl
  · obtain ⟨cb, h1, h2⟩ := pushBack_room hr (hroom hw) w
    refine ⟨cb, ?_, by rw [if_neg hw]; exact h2⟩
    rw [enlist, M.bind_ok hget, if_pos (by rw [stores_isNone hs]; exact hw), onLine_ok h1]

theorem enlistAll_ok {l : List α} (ws : List α) : ∀ {queue : List α} {s : Tasks α}, Rep s.line.cb ⟨n, queue⟩ →
    (Cnt.Stores s.waits fun x => l.count x) → queue.length + ws.length ≤ n →
    ∃ cb, enlistAll ws s = (.ok (), { s with line := ⟨cb, s.line.dropped⟩ }) ∧
      Rep cb ⟨n, queue ++ ws.filter fun x => decide (x ∉ l)⟩ := by
  induction ws with
  | nil => intro queue s hr _ _; exact ⟨s.line.cb, rfl, by simpa using hr⟩
  | cons w ws ih =>
    intro queue s hr hs hroom
    rw [List.length_cons] at hroom
    obtain ⟨cb, h1, h2⟩ := enlist_ok hr hs (w := w) fun _ => by omega
    obtain ⟨cb', g1, g2⟩ := ih (s := { s with line := ⟨cb, s.line.dropped⟩ }) h2 hs (by
      split
      · omega
      · rw [List.length_append, List.length_singleton]; omega)
    refine ⟨cb', ?_, ?_⟩
    · rw [enlistAll, M.bind_ok h1, g1]
    · by_cases hw : w ∈ l
      · simpa [hw] using g2
      · simpa [hw] using g2

theorem release_ok (hroom : vs.length ≤ n) (hone : 1 ≤ usizeMax) {done base : List α} {v : α} (ws : List α) :
    (∀ w ∈ ws, w ∈ vs) → ∀ {queue : List α} {s : Tasks α}, Rep s.line.cb ⟨n, queue⟩ →
      Ready vs (done ++ v :: queue) (base ++ ws) s.waits →
      ∃ queue' cb c, release ws s = (.ok (), ⟨⟨cb, s.line.dropped⟩, c, s.out⟩) ∧ Rep cb ⟨n, queue'⟩ ∧
        Ready vs (done ++ v :: queue') base c := by
  induction ws with
  | nil => intro _ queue s hr h; exact ⟨queue, s.line.cb, s.waits, rfl, hr, by simpa using h⟩
  | cons w ws ih =>
    intro hin queue s hr h
    obtain ⟨one, h1, h2⟩ := Cnt.stores_fromIter (items := [w]) fun k => by
      have := List.count_le_length (a := k) (l := [w])
      rw [List.length_singleton] at this
      omega
    obtain ⟨c, h3, h4⟩ := Cnt.stores_subAssign h.stores h2 (List.Perm.refl _)
    have hst : Cnt.Stores c fun x => (base ++ ws).count x := by
      refine ⟨h4.1, fun x => ?_⟩
      have e : (base ++ w :: ws).count x - [w].count x = (base ++ ws).count x := by
        rw [show base ++ w :: ws = base ++ ([w] ++ ws) from rfl]
        simp only [List.count_append]
        omega
      simp only [h4.2, e]
    have hwf : w ∉ done ++ v :: queue := fun hw => (h.ready w (hin w List.mem_cons_self)).mp hw (by simp)
    have hlen : queue.length + 2 ≤ vs.length := by
      have hnd : ((done ++ v :: queue) ++ [w]).Nodup := by
        rw [List.nodup_append]
        exact ⟨h.nodup, List.nodup_singleton _, fun x hx y hy => by
          rw [List.mem_singleton.mp hy]; exact fun e => hwf (e ▸ hx)⟩
      have := (hnd.subperm (l₂ := vs) fun x hx => by
        rcases List.mem_append.mp hx with hx | hx
        · exact h.inside x hx
        · rw [List.mem_singleton.mp hx]; exact hin w List.mem_cons_self).length_le
      simp only [List.length_append, List.length_cons, List.length_nil] at this
      omega
    obtain ⟨cb, g1, g2⟩ := enlist_ok (s := { s with waits := c }) hr hst (w := w) fun _ => by omega
    obtain ⟨queue', cb', c', k1, k2, k3⟩ := ih (fun x hx => hin x (List.mem_cons_of_mem _ hx))
      (s := ⟨⟨cb, s.line.dropped⟩, c, s.out⟩) g2 (by
        by_cases hw : w ∈ base ++ ws
        · rw [if_pos hw]
          refine ⟨h.nodup, h.inside, hst, fun x hx => ?_⟩
          rw [h.ready x hx]
          by_cases hxw : x = w
          · subst hxw
            exact ⟨fun h0 => absurd (by simp) h0, fun h0 => absurd hw h0⟩
          · simp [hxw]
        · rw [if_neg hw]
          have e : done ++ v :: (queue ++ [w]) = (done ++ v :: queue) ++ [w] := by simp
          rw [e]
          refine ⟨?_, fun x hx => ?_, hst, fun x hx => ?_⟩
          · rw [List.nodup_append]
            exact ⟨h.nodup, List.nodup_singleton _, fun x hx y hy => by
              rw [List.mem_singleton.mp hy]; exact fun e => hwf (e ▸ hx)⟩
          · rcases List.mem_append.mp hx with hx | hx
            · exact h.inside x hx
            · rw [List.mem_singleton.mp hx]; exact hin w List.mem_cons_self
          · rw [List.mem_append, h.ready x hx, List.mem_singleton]
            by_cases hxw : x = w
            · subst hxw
              exact ⟨fun _ => hw, fun _ => .inr rfl⟩
            · simp [hxw])
    refine ⟨queue', cb', c', ?_, k2, k3⟩
    have h1' : (M.lift (Cnt.Counter.fromIter [w]) : M (Tasks α) _) s = (.ok one, s) := by rw [h1]; rfl
    rw [release, M.bind_ok h1', M.bind_ok (onWaits_ok h3), M.bind_ok g1, k1]

theorem work_ok (hvs : vs.Nodup) (hroom : vs.length ≤ n) (hone : 1 ≤ usizeMax) (hadj : ∀ v ∈ vs, ∀ w ∈ after v, w ∈ vs) (fuel : Nat) :
    ∀ {queue : List α} {s : Tasks α}, Rep s.line.cb ⟨n, queue⟩ → Ready vs (s.out ++ queue) (pending after vs s.out) s.waits →
      Arranged after vs s.out → vs.length < fuel + s.out.length →
      ∃ s', work after fuel s = (.ok (), s') ∧ s'.line.dropped = s.line.dropped ∧
        Ready vs s'.out (pending after vs s'.out) s'.waits ∧ Arranged after vs s'.out := by
  induction fuel with
  | zero =>
    intro queue s _ h _ hf
    have := (h.nodup.subperm fun x hx => h.inside x hx).length_le
    rw [List.length_append] at this
    omega
  | succ fuel ih =>
    intro queue s hr h ha hf
    obtain ⟨cb, h1, h2⟩ := popFront_sim hr
    unfold work
    rw [M.bind_ok (onLine_ok h1)]
    cases queue with
    | nil => exact ⟨_, rfl, rfl, by simpa using h, ha⟩
    | cons v queue =>
      simp only [List.head?_cons, List.tail_cons] at h2 ⊢
      have hv : v ∈ vs := h.inside v (by simp)
      have hvd : v ∉ s.out := fun hd => (List.nodup_append.mp h.nodup).2.2 v hd v List.mem_cons_self rfl
      have hcount := pending_count (after := after) hvs hv hvd
      obtain ⟨queue', cb', c, g1, g2, g3⟩ := release_ok hroom hone (done := s.out) (base := pending after vs (s.out ++ [v])) (v := v)
        (after v) (hadj v hv) (s := ⟨⟨cb, s.line.dropped⟩, s.waits, s.out⟩) h2
        ⟨h.nodup, h.inside, ⟨h.stores.1, fun x => by simp only [h.stores.2, hcount]⟩, fun x hx => by
          rw [h.ready x hx, ← List.count_eq_zero, ← List.count_eq_zero, hcount]⟩
      have hmod : (M.modify fun s => { s with out := s.out ++ [v] } : M (Tasks α) Unit) ⟨⟨cb', s.line.dropped⟩, c, s.out⟩
        = (.ok (), ⟨⟨cb', s.line.dropped⟩, c, s.out ++ [v]⟩) := rfl
      rw [M.bind_ok g1, M.bind_ok hmod]
      refine ih (s := ⟨⟨cb', s.line.dropped⟩, c, s.out ++ [v]⟩) g2 (by simpa using g3) ?_ (by
        rw [List.length_append, List.length_singleton]; omega)
      refine ha.snoc fun u hu hvu => ?_
      by_contra hud
      exact (h.ready v hv).mp (by simp) (mem_pending.mpr ⟨u, hu, hud, hvu⟩)

end
end Client
