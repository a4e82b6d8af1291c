import Verif.Client.SpecBroadcast
import Verif.CB.Props
import Mathlib.Order.Nat
/-!
# Lemmas for C141
-/

open Rust CB
namespace Client

variable {ρ α : Type} [Cfg] [Elem α] [DecidableEq ρ] {c : Nat}

/-- the client after these messages, of which each reader has not seen those of `new` -/
structure Keeps (c : Nat) (b : Broadcast ρ α) (w : List α) (new : ρ → List α) : Prop where
  ring : Rep b.st.cb ⟨c, lastN c w⟩
  total : b.total = w.length
  le : ∀ r, b.cursor r ≤ w.length
  new : ∀ r, new r = w.drop (b.cursor r)

omit [Cfg] [Elem α] [DecidableEq ρ] in
theorem onRing_ok {β : Type} {m : M (St α) β} {st : St α} {n : Nat} {cu : ρ → Nat} {x : β} {t : St α} (h : m st = (.ok x, t)) :
    onRing m ⟨st, n, cu⟩ = (.ok x, ⟨t, n, cu⟩) := by
  unfold onRing; rw [h]

omit [DecidableEq ρ] in
theorem write_ok (hd : ∀ x : α, Elem.dropPanics x = false) {b : Broadcast ρ α} {w : List α} {new : ρ → List α}
    (h : Keeps c b w new) (v : α) (hw : w.length + 1 ≤ usizeMax) :
    ∃ b', write v b = (.ok (), b') ∧ Keeps c b' (w ++ [v]) fun r => new r ++ [v] := by
  obtain ⟨st, n, cu⟩ := b
  obtain ⟨ring, total, le, hnew⟩ := h
  dsimp only at ring total le hnew
  subst total
  obtain ⟨st', g1, g2⟩ : ∃ st', pushBack v st = (.ok (), st') ∧ Rep st'.cb ⟨c, lastN c (lastN c w ++ [v])⟩ := by
    obtain ⟨cb, g1, g2⟩ := pushBack_sim ring v
    rw [pushBack_calm ring.le_cap fun x _ => hd x] at g1 g2
    exact ⟨_, g1, g2⟩
  refine ⟨⟨st', w.length + 1, cu⟩, ?_, ?_, ?_, ?_, ?_⟩
  · unfold write
    rw [M.bind_ok (onRing_ok g1)]
    have e : (M.lift (uadd w.length 1) : M (Broadcast ρ α) Nat) = M.lift (.ok (w.length + 1)) := by rw [uadd_ok hw]
    show (M.lift (uadd w.length 1) >>= fun n => M.modify fun b : Broadcast ρ α => { b with total := n }) _ = _
    rw [e]
    rfl
  · rw [lastN_append_lastN] at g2
    exact g2
  · simp
  · intro r
    have := le r
    rw [List.length_append]
    dsimp only
    omega
  · intro r
    rw [hnew r, List.drop_append_of_le_length (le r)]

theorem poll_ok {b : Broadcast ρ α} {w : List α} {new : ρ → List α} (h : Keeps c b w new) (r : ρ) :
    ∃ b', poll r b = (.ok ((new r).length - c, lastN c (new r)), b') ∧ Keeps c b' w fun r' => if r = r' then [] else new r' := by
  obtain ⟨st, n, cu⟩ := b
  obtain ⟨ring, total, le, hnew⟩ := h
  dsimp only at ring total le hnew
  subst total
  have hl : (self_ Buf.len : M (St α) _) st = (.ok (lastN c w).length, st) := by
    show (st.cb.len, st) = _
    rw [ring.len_eq]
  have hc : (self_ Buf.contents : M (St α) _) st = (.ok (lastN c w), st) := by
    show (st.cb.contents, st) = _
    rw [ring.contents_eq]
  have hll : (lastN c w).length = min c w.length := lastN_length
  refine ⟨⟨st, w.length, fun r' => if r' = r then w.length else cu r'⟩, ?_, ring, rfl, ?_, ?_⟩
  · unfold poll
    have g : (M.get : M (Broadcast ρ α) _) ⟨st, w.length, cu⟩ = (.ok ⟨st, w.length, cu⟩, ⟨st, w.length, cu⟩) := rfl
    rw [M.bind_ok g, M.bind_ok (onRing_ok hl)]
    have hs : (M.lift (usub w.length (lastN c w).length) : M (Broadcast ρ α) _) ⟨st, w.length, cu⟩ =
        (.ok (w.length - c), ⟨st, w.length, cu⟩) := by
      rw [usub_ok (by rw [hll]; omega), hll, show w.length - min c w.length = w.length - c by omega]
      rfl
    rw [M.bind_ok hs, M.bind_ok g]
    have hm : (M.modify fun b : Broadcast ρ α => { b with cursor := fun r' => if r' = r then b.total else b.cursor r' })
        ⟨st, w.length, cu⟩ = (.ok (), ⟨st, w.length, fun r' => if r' = r then w.length else cu r'⟩) := rfl
    rw [M.bind_ok hm, M.bind_ok (onRing_ok hc), M.pure_run]
    have hr := le r
    have e1 : w.length - c - cu r = (new r).length - c := by rw [hnew r, List.length_drop]; omega
    have e2 : (lastN c w).drop (cu r - (w.length - c)) = lastN c (new r) := by
      rw [hnew r, lastN, lastN, List.drop_drop, List.drop_drop, List.length_drop]
      congr 1
      omega
    rw [e1, e2]
  · intro r'
    dsimp only
    split
    · exact Nat.le_refl _
    · exact le r'
  · intro r'
    dsimp only
    by_cases h : r' = r
    · rw [if_pos h, if_pos h.symm, List.drop_length]
    · rw [if_neg h, if_neg (Ne.symm h), hnew r']

theorem occurAll_ok (hd : ∀ x : α, Elem.dropPanics x = false) (os : List (Occur ρ α)) :
    ∀ {b : Broadcast ρ α} {w : List α} {new : ρ → List α}, Keeps c b w new → (w ++ written os).length ≤ usizeMax →
    ∃ b' outs, occurAll os b = (.ok outs, b') ∧ Keeps c b' (w ++ written os) (fun r => unseen r (new r) os) ∧
      outs.length = os.length ∧ (∀ (i : Nat) (v : α), os[i]? = some (.write v) → outs[i]? = some none) ∧
      ∀ pre r post, os = pre ++ .poll r :: post →
        outs[pre.length]? = some (some ((unseen r (new r) pre).length - c, lastN c (unseen r (new r) pre))) := by
  induction os with
  | nil =>
    intro b w new h hw
    refine ⟨b, [], rfl, by simpa [written, unseen] using h, rfl, fun i v h => by simp at h, fun pre r post he => ?_⟩
    cases pre <;> cases he
  | cons o os ih =>
    intro b w new h hw
    cases o with
    | write v =>
      rw [written, List.length_append, List.length_cons] at hw
      obtain ⟨b1, g1, k1⟩ := write_ok hd h v (by omega)
      obtain ⟨b2, outs, g2, k2, l2, w2, p2⟩ := ih k1 (by rw [List.length_append, List.length_append]; simp; omega)
      refine ⟨b2, none :: outs, ?_, ?_, by simp [l2], ?_, ?_⟩
      · unfold occurAll
        rw [M.bind_ok g1, M.bind_ok g2]
        rfl
      · simpa [written, unseen] using k2
      · rintro (_ | i) v' hv
        · rfl
        · exact w2 i v' hv
      · intro pre r post he
        cases pre with
        | nil => cases he
        | cons o' pre =>
          rw [List.cons_append] at he
          have e := (List.cons.inj he).1
          have := p2 pre r post (List.cons.inj he).2
          rw [← e, List.length_cons, List.getElem?_cons_succ]
          exact this
    | poll q =>
      obtain ⟨b1, g1, k1⟩ := poll_ok h q
      obtain ⟨b2, outs, g2, k2, l2, w2, p2⟩ := ih k1 hw
      refine ⟨b2, some ((new q).length - c, lastN c (new q)) :: outs, ?_, k2, by simp [l2], ?_, ?_⟩
      · unfold occurAll
        rw [M.bind_ok g1, M.bind_ok g2]
        rfl
      · rintro (_ | i) v' hv
        · cases hv
        · exact w2 i v' hv
      · intro pre r post he
        cases pre with
        | nil =>
          obtain ⟨he, _⟩ := List.cons.inj he
          cases he
          rfl
        | cons o' pre =>
          rw [List.cons_append] at he
          have e := (List.cons.inj he).1
          have := p2 pre r post (List.cons.inj he).2
          rw [← e, List.length_cons, List.getElem?_cons_succ]
          exact this

theorem polls_sum (hd : ∀ x : α, Elem.dropPanics x = false) (r : ρ) (os : List (Occur ρ α)) :
    ∀ {b b' : Broadcast ρ α} {w : List α} {new : ρ → List α} {outs}, Keeps c b w new → (w ++ written os).length ≤ usizeMax →
    occurAll os b = (.ok outs, b') →
    ((pollsOf r os outs).map fun g => g.1 + g.2.length).sum + (unseen r (new r) os).length =
      (new r).length + (written os).length ∧
    ((∀ g ∈ pollsOf r os outs, g.1 = 0) →
      (pollsOf r os outs).flatMap (·.2) ++ unseen r (new r) os = new r ++ written os) := by
  induction os with
  | nil =>
    intro b b' w new outs h hw he
    cases outs <;> simp [pollsOf, unseen, written]
  | cons o os ih =>
    intro b b' w new outs h hw he
    cases o with
    | write v =>
      rw [written, List.length_append, List.length_cons] at hw
      obtain ⟨b1, g1, k1⟩ := write_ok hd h v (by omega)
      obtain ⟨b2, outs', g2, -⟩ := occurAll_ok hd os k1 (by rw [List.length_append, List.length_append]; simp; omega)
      unfold occurAll at he
      rw [M.bind_ok g1, M.bind_ok g2] at he
      cases he
      obtain ⟨i1, i2⟩ := ih k1 (by rw [List.length_append, List.length_append]; simp; omega) g2
      simp only [pollsOf, unseen, written, List.length_cons]
      refine ⟨?_, fun hz => ?_⟩
      · rw [i1]; simp; omega
      · rw [i2 hz]; simp
    | poll q =>
      obtain ⟨b1, g1, k1⟩ := poll_ok h q
      obtain ⟨b2, outs', g2, -⟩ := occurAll_ok hd os k1 hw
      unfold occurAll at he
      rw [M.bind_ok g1, M.bind_ok g2] at he
      cases he
      obtain ⟨i1, i2⟩ := ih k1 hw g2
      simp only [pollsOf, unseen, written]
      by_cases hq : q = r
      · simp only [hq, if_true] at i1 i2 ⊢
        rw [List.map_cons, List.sum_cons]
        refine ⟨?_, fun hz => ?_⟩
        · have hl : (lastN c (new r)).length = min c (new r).length := lastN_length
          simp only [List.length_nil, Nat.zero_add] at i1
          dsimp only
          omega
        · have h0 := hz _ List.mem_cons_self
          dsimp only at h0
          rw [List.flatMap_cons, List.append_assoc, i2 fun g hg => hz g (List.mem_cons_of_mem _ hg), lastN, h0]
          simp
      · simp only [hq, if_false] at i1 i2 ⊢
        exact ⟨i1, i2⟩

end Client
