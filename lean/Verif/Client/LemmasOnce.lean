import Verif.Client.SpecOnce
import Verif.Client.LemmasWindow
import Verif.Client.LemmasBfs
/-!
# Lemmas for C154
-/

open Rust CB Cnt
namespace Client

section
variable {α : Type} [DecidableEq α]

/-- those that come once in `xs`, out of `q` -/
def once (xs q : List α) : List α := q.filter fun y => decide (xs.count y = 1)

/-- The line keeps those that come once, in their order. -/
structure Kept (xs q : List α) : Prop where
  nodup : q.Nodup
  inside : ∀ x ∈ q, x ∈ xs
  same : once xs q = once xs xs

theorem Kept.new {xs q : List α} (h : Kept xs q) {x : α} (hx : x ∉ xs) : Kept (xs ++ [x]) (q ++ [x]) where
  nodup := List.nodup_append.mpr ⟨h.nodup, by simp, fun a ha b hb => by
    rw [List.mem_singleton] at hb; subst hb; rintro rfl; exact hx (h.inside _ ha)⟩
  inside := fun y hy => by
    rcases List.mem_append.mp hy with hy | hy
    · exact List.mem_append_left _ (h.inside y hy)
    · exact List.mem_append_right _ hy
  same := by
    have key : ∀ l : List α, (∀ y ∈ l, y ∈ xs) → once (xs ++ [x]) l = once xs l := fun l hl =>
      List.filter_congr fun y hy => by
        have : x ≠ y := by rintro rfl; exact hx (hl _ hy)
        simp [List.count_append, this]
    have app : ∀ l, once (xs ++ [x]) (l ++ [x]) = once (xs ++ [x]) l ++ once (xs ++ [x]) [x] := fun l => List.filter_append ..
    rw [app, app, key q h.inside, key xs fun _ h => h, h.same]

theorem Kept.again {xs q : List α} (h : Kept xs q) {x : α} (hx : x ∈ xs) : Kept (xs ++ [x]) q where
  nodup := h.nodup
  inside := fun y hy => List.mem_append_left _ (h.inside y hy)
  same := by
    have hp := List.count_pos_iff.mpr hx
    have key : ∀ l : List α, once (xs ++ [x]) l = (once xs l).filter fun y => decide (y ≠ x) := fun l => by
      unfold once
      rw [List.filter_filter]
      refine List.filter_congr fun y _ => ?_
      by_cases hy : y = x
      · subst hy
        simp [List.count_append]; omega
      · simp [List.count_append, hy, Ne.symm hy]
    have app : once (xs ++ [x]) (xs ++ [x]) = once (xs ++ [x]) xs ++ once (xs ++ [x]) [x] := List.filter_append ..
    have nil : once (xs ++ [x]) [x] = [] := by
      simp [once, List.count_append]; omega
    rw [app, nil, List.append_nil, key, key, h.same]

theorem Kept.tail {xs q : List α} {y : α} (h : Kept xs (y :: q)) (hy : xs.count y ≠ 1) : Kept xs q where
  nodup := (List.nodup_cons.mp h.nodup).2
  inside := fun x hx => h.inside x (List.mem_cons_of_mem _ hx)
  same := by
    rw [← h.same]
    simp [once, hy]

theorem Kept.length {xs q : List α} (h : Kept xs q) : q.length ≤ xs.dedup.length :=
  (h.nodup.subperm fun x hx => List.mem_dedup.mpr (h.inside x hx)).length_le

/-- what is in front of the line -/
theorem Kept.head {xs q : List α} (h : Kept xs q) (hq : ∀ y, q.head? = some y → xs.count y = 1) :
    q.head? = (once xs xs).head? := by
  rw [← h.same]
  cases q with
  | nil => rfl
  | cons y q => simp [once, hq y rfl]

theorem once_head {xs : List α} {x : α} : (once xs xs).head? = some x ↔ FirstOnce xs x := by
  rw [once, List.head?_filter, List.find?_eq_some_iff_append]
  constructor
  · rintro ⟨h1, pre, post, e, h2⟩
    have h1 : xs.count x = 1 := by simpa using h1
    have h1' := h1
    rw [e, List.count_append, List.count_cons_self] at h1'
    refine ⟨pre, post, e, List.count_eq_zero.mp (by omega), List.count_eq_zero.mp (by omega), fun y hy => ?_⟩
    have h3 : xs.count y ≠ 1 := by simpa using h2 y hy
    have h4 : 0 < xs.count y := List.count_pos_iff.mpr (by rw [e]; exact List.mem_append_left _ hy)
    omega
  · rintro ⟨pre, post, e, h1, h2, h3⟩
    refine ⟨?_, pre, post, e, fun y hy => ?_⟩
    · rw [e, List.count_append, List.count_cons_self, List.count_eq_zero.mpr h1, List.count_eq_zero.mpr h2]
      rfl
    · have := h3 y hy
      simp; omega

theorem once_none {xs : List α} : (once xs xs).head? = none ↔ ∀ x ∈ xs, 2 ≤ xs.count x := by
  rw [List.head?_eq_none_iff, once, List.filter_eq_nil_iff]
  refine forall₂_congr fun x hx => ?_
  have := List.count_pos_iff.mpr hx
  simp; omega

end

section
variable {α : Type} [Cfg] [Elem α] [DecidableEq α] {n : Nat}

omit [Elem α] in
theorem push_counts {c : Counter α} {xs : List α} (hv : Valid c) (hh : Holds c xs) {x : α} (hl : (xs ++ [x]).length ≤ usizeMax) :
    ∃ c', Counter.push x c = (.ok (), c') ∧ Valid c' ∧ Holds c' (xs ++ [x]) := by
  obtain ⟨c', h1, h2, h3⟩ := feed_run (.push x) hv (fun k => by
    have := (List.count_le_length (a := k) (l := xs ++ [x])).trans hl
    rw [hh.mult]; simpa [Feed.items] using this)
  refine ⟨c', h1, h2, fun k => ?_⟩
  rw [h3, hh.mult, hh]
  simp only [Feed.items, List.mem_singleton, List.count_append, List.count_singleton]
  by_cases hk : k = x
  · subst hk; simp
  · simp [hk, Ne.symm hk]

omit [Cfg] [Elem α] in
theorem get_one {c : Counter α} {xs : List α} (hh : Holds c xs) (x : α) : c.get x = some 1 ↔ xs.count x = 1 := by
  rw [hh]
  split
  · simp
  · simp; omega

theorem discard_ok {xs : List α} : ∀ (q : List α) {w : Window α}, Rep w.st.cb ⟨n, q⟩ → Holds w.counts xs → Kept xs q →
    ∃ cb q', discard q.length w = (.ok (), ⟨⟨cb, w.st.dropped⟩, w.counts⟩) ∧ Rep cb ⟨n, q'⟩ ∧ Kept xs q' ∧
      ∀ y, q'.head? = some y → xs.count y = 1 := by
  intro q
  induction q with
  | nil => exact fun {w} hr _ hk => ⟨w.st.cb, [], rfl, hr, hk, fun y h => by cases h⟩
  | cons y q ih =>
    intro w hr hh hk
    have hf : (self_ Buf.first : M (St α) _) w.st = (.ok (some y), w.st) := by
      show (w.st.cb.first, w.st) = _
      rw [hr.first_eq]; rfl
    rw [List.length_cons, discard, M.bind_ok (onBuf_ok hf)]
    by_cases h1 : xs.count y = 1
    · refine ⟨w.st.cb, y :: q, ?_, hr, hk, fun z hz => by cases hz; exact h1⟩
      show (if w.counts.get y = some 1 then _ else _ : M (Window α) Unit) w = _
      rw [if_pos ((get_one hh y).mpr h1)]
      rfl
    · obtain ⟨cb, g1, g2⟩ := popFront_sim (s := w.st) hr
      obtain ⟨cb', q', k1, k2⟩ := ih (w := ⟨⟨cb, w.st.dropped⟩, w.counts⟩) g2 hh (hk.tail h1)
      refine ⟨cb', q', ?_, k2⟩
      show (if w.counts.get y = some 1 then _ else _ : M (Window α) Unit) w = _
      rw [if_neg (mt (get_one hh y).mp h1), M.bind_ok (onBuf_ok g1)]
      exact k1

/-- one item -/
theorem see_ok {xs q : List α} {w : Window α} {x : α} (hl : (xs ++ [x]).length ≤ usizeMax) (hn : (xs ++ [x]).dedup.length ≤ n)
    (hr : Rep w.st.cb ⟨n, q⟩) (hv : Valid w.counts) (hh : Holds w.counts xs) (hk : Kept xs q) :
    ∃ cb c q', see x w = (.ok (once (xs ++ [x]) (xs ++ [x])).head?, ⟨⟨cb, w.st.dropped⟩, c⟩) ∧ Rep cb ⟨n, q'⟩ ∧ Valid c ∧
      Holds c (xs ++ [x]) ∧ Kept (xs ++ [x]) q' := by
  obtain ⟨c, h1, h2, h3⟩ := push_counts hv hh hl
  have mid : ∃ cb q1, noteNew x ⟨w.st, c⟩ = (.ok (), ⟨⟨cb, w.st.dropped⟩, c⟩) ∧ Rep cb ⟨n, q1⟩ ∧ Kept (xs ++ [x]) q1 := by
    show ∃ cb q1, (if c.get x = some 1 then onBuf (pushBack x) else pure () : M (Window α) Unit) ⟨w.st, c⟩ = _ ∧ _
    by_cases hx : x ∈ xs
    · have := List.count_pos_iff.mpr hx
      rw [if_neg (by rw [get_one h3]; simp [List.count_append]; omega)]
      exact ⟨w.st.cb, q, rfl, hr, hk.again hx⟩
    · rw [if_pos (by rw [get_one h3]; simp [List.count_append, List.count_eq_zero.mpr hx])]
      have hk' := hk.new hx
      have hlen := hk'.length
      rw [List.length_append, List.length_singleton] at hlen
      obtain ⟨cb, g1, g2⟩ := pushBack_room (s := w.st) hr (by omega) x
      exact ⟨cb, q ++ [x], onBuf_ok (w := ⟨w.st, c⟩) g1, g2, hk'⟩
  obtain ⟨cb, q1, m1, m2, m3⟩ := mid
  obtain ⟨cb', q', d1, d2, d3, d4⟩ := discard_ok q1 (w := ⟨⟨cb, w.st.dropped⟩, c⟩) m2 h3 m3
  have hlen : (self_ Buf.len : M (St α) _) ⟨cb, w.st.dropped⟩ = (.ok q1.length, ⟨cb, w.st.dropped⟩) := by
    show (cb.len, _) = _
    rw [m2.len_eq]
  have hfirst : (self_ Buf.first : M (St α) _) ⟨cb', w.st.dropped⟩ = (.ok q'.head?, ⟨cb', w.st.dropped⟩) := by
    show (cb'.first, _) = _
    rw [d2.first_eq]
  refine ⟨cb', c, q', ?_, d2, h2, h3, d3⟩
  rw [see, M.bind_ok (onCounts_ok h1), M.bind_ok m1, M.bind_ok (onBuf_ok (w := ⟨⟨cb, w.st.dropped⟩, c⟩) hlen), M.bind_ok d1,
    onBuf_ok (w := ⟨⟨cb', w.st.dropped⟩, c⟩) hfirst, d3.head d4]

/-- all items -/
theorem seeAll_ok : ∀ (ys : List α) {xs q : List α} {w : Window α}, (xs ++ ys).length ≤ usizeMax →
    (xs ++ ys).dedup.length ≤ n → Rep w.st.cb ⟨n, q⟩ → Valid w.counts → Holds w.counts xs → Kept xs q →
    ∃ as w', seeAll ys w = (.ok as, w') ∧ w'.st.dropped = w.st.dropped ∧ as.length = ys.length ∧
      ∀ i (hi : i < as.length), as[i] = (once (xs ++ ys.take (i + 1)) (xs ++ ys.take (i + 1))).head? := by
  intro ys
  induction ys with
  | nil => exact fun {xs q w} _ _ _ _ _ _ => ⟨[], w, rfl, rfl, rfl, fun i hi => by cases hi⟩
  | cons y ys ih =>
    intro xs q w hl hn hr hv hh hk
    have e : xs ++ y :: ys = (xs ++ [y]) ++ ys := by simp
    rw [e] at hl hn
    have hn' : (xs ++ [y]).dedup.length ≤ n := by
      refine le_trans ?_ hn
      refine ((List.nodup_dedup _).subperm fun z hz => ?_).length_le
      exact List.mem_dedup.mpr (List.mem_append_left _ (List.mem_dedup.mp hz))
    obtain ⟨cb, c, q', h1, h2, h3, h4, h5⟩ := see_ok (by rw [List.length_append] at hl; omega) hn' hr hv hh hk
    obtain ⟨as, w', g1, g2, g3, g4⟩ := ih (w := ⟨⟨cb, w.st.dropped⟩, c⟩) hl hn h2 h3 h4 h5
    refine ⟨(once (xs ++ [y]) (xs ++ [y])).head? :: as, w', ?_, g2, by rw [List.length_cons, g3, List.length_cons], fun i hi => ?_⟩
    · rw [seeAll, M.bind_ok h1, M.bind_ok g1]
      rfl
    · cases i with
      | zero => simp
      | succ i =>
        rw [List.getElem_cons_succ, g4]
        simp

/-- without a bound on the room -/
theorem discard_any {xs : List α} : ∀ (q : List α) {w : Window α}, Rep w.st.cb ⟨n, q⟩ → Holds w.counts xs →
    ∃ cb q', discard q.length w = (.ok (), ⟨⟨cb, w.st.dropped⟩, w.counts⟩) ∧ Rep cb ⟨n, q'⟩ ∧ (∀ y ∈ q', y ∈ q) ∧
      ∀ y, q'.head? = some y → xs.count y = 1 := by
  intro q
  induction q with
  | nil => exact fun {w} hr _ => ⟨w.st.cb, [], rfl, hr, fun _ h => h, fun y h => by cases h⟩
  | cons y q ih =>
    intro w hr hh
    have hf : (self_ Buf.first : M (St α) _) w.st = (.ok (some y), w.st) := by
      show (w.st.cb.first, w.st) = _
      rw [hr.first_eq]; rfl
    rw [List.length_cons, discard, M.bind_ok (onBuf_ok hf)]
    by_cases h1 : xs.count y = 1
    · refine ⟨w.st.cb, y :: q, ?_, hr, fun _ h => h, fun z hz => by cases hz; exact h1⟩
      show (if w.counts.get y = some 1 then _ else _ : M (Window α) Unit) w = _
      rw [if_pos ((get_one hh y).mpr h1)]
      rfl
    · obtain ⟨cb, g1, g2⟩ := popFront_sim (s := w.st) hr
      obtain ⟨cb', q', k1, k2, k3, k4⟩ := ih (w := ⟨⟨cb, w.st.dropped⟩, w.counts⟩) g2 hh
      refine ⟨cb', q', ?_, k2, fun z hz => List.mem_cons_of_mem _ (k3 z hz), k4⟩
      show (if w.counts.get y = some 1 then _ else _ : M (Window α) Unit) w = _
      rw [if_neg (mt (get_one hh y).mp h1), M.bind_ok (onBuf_ok g1)]
      exact k1

theorem see_any {xs q : List α} {w : Window α} {x : α} (hl : (xs ++ [x]).length ≤ usizeMax) (hc : Calm (xs ++ [x]))
    (hr : Rep w.st.cb ⟨n, q⟩) (hv : Valid w.counts) (hh : Holds w.counts xs) (hk : ∀ y ∈ q, y ∈ xs) :
    ∃ a w' q', see x w = (.ok a, w') ∧ Rep w'.st.cb ⟨n, q'⟩ ∧ Valid w'.counts ∧ Holds w'.counts (xs ++ [x]) ∧
      (∀ y ∈ q', y ∈ xs ++ [x]) ∧ ∀ y, a = some y → (xs ++ [x]).count y = 1 := by
  obtain ⟨c, h1, h2, h3⟩ := push_counts hv hh hl
  have mid : ∃ st q1, noteNew x ⟨w.st, c⟩ = (.ok (), ⟨st, c⟩) ∧ Rep st.cb ⟨n, q1⟩ ∧ ∀ y ∈ q1, y ∈ xs ++ [x] := by
    show ∃ st q1, (if c.get x = some 1 then onBuf (pushBack x) else pure () : M (Window α) Unit) ⟨w.st, c⟩ = _ ∧ _
    by_cases hx : c.get x = some 1
    · rw [if_pos hx]
      have hsub : ∀ y ∈ q ++ [x], y ∈ xs ++ [x] := fun y hy => by
        rcases List.mem_append.mp hy with hy | hy
        · exact List.mem_append_left _ (hk y hy)
        · exact List.mem_append_right _ hy
      obtain ⟨cb, g1, g2⟩ := pushBack_sim (s := w.st) hr x
      rw [pushBack_calm hr.le_cap fun y hy => hc y (hsub y hy)] at g1 g2
      exact ⟨_, _, onBuf_ok (w := ⟨w.st, c⟩) g1, g2, fun y hy => hsub y (List.mem_of_mem_drop hy)⟩
    · rw [if_neg hx]
      exact ⟨w.st, q, rfl, hr, fun y hy => List.mem_append_left _ (hk y hy)⟩
  obtain ⟨st, q1, m1, m2, m3⟩ := mid
  obtain ⟨cb', q', d1, d2, d3, d4⟩ := discard_any q1 (w := ⟨st, c⟩) m2 h3
  have hlen : (self_ Buf.len : M (St α) _) st = (.ok q1.length, st) := by
    show (st.cb.len, _) = _
    rw [m2.len_eq]
  have hfirst : (self_ Buf.first : M (St α) _) ⟨cb', st.dropped⟩ = (.ok q'.head?, ⟨cb', st.dropped⟩) := by
    show (cb'.first, _) = _
    rw [d2.first_eq]
  refine ⟨q'.head?, ⟨⟨cb', st.dropped⟩, c⟩, q', ?_, d2, h2, h3, fun y hy => m3 y (d3 y hy), d4⟩
  rw [see, M.bind_ok (onCounts_ok h1), M.bind_ok m1, M.bind_ok (onBuf_ok (w := ⟨st, c⟩) hlen), M.bind_ok d1,
    onBuf_ok (w := ⟨⟨cb', st.dropped⟩, c⟩) hfirst]

theorem seeAll_any : ∀ (ys : List α) {xs q : List α} {w : Window α}, (xs ++ ys).length ≤ usizeMax → Calm (xs ++ ys) →
    Rep w.st.cb ⟨n, q⟩ → Valid w.counts → Holds w.counts xs → (∀ y ∈ q, y ∈ xs) →
    ∃ as w', seeAll ys w = (.ok as, w') ∧ as.length = ys.length ∧
      ∀ i (hi : i < as.length) y, as[i] = some y → (xs ++ ys.take (i + 1)).count y = 1 := by
  intro ys
  induction ys with
  | nil => exact fun {xs q w} _ _ _ _ _ _ => ⟨[], w, rfl, rfl, fun i hi => by cases hi⟩
  | cons y ys ih =>
    intro xs q w hl hc hr hv hh hk
    have e : xs ++ y :: ys = (xs ++ [y]) ++ ys := by simp
    rw [e] at hl hc
    obtain ⟨a, w1, q', h1, h2, h3, h4, h5, h6⟩ := see_any (by rw [List.length_append] at hl; omega)
      (fun z hz => hc z (List.mem_append_left _ hz)) hr hv hh hk
    obtain ⟨as, w', g1, g3, g4⟩ := ih hl hc h2 h3 h4 h5
    refine ⟨a :: as, w', ?_, by rw [List.length_cons, g3, List.length_cons], fun i hi => ?_⟩
    · rw [seeAll, M.bind_ok h1, M.bind_ok g1]
      rfl
    · cases i with
      | zero => simpa using h6
      | succ i =>
        intro z hz
        rw [List.getElem_cons_succ] at hz
        simpa using g4 i _ z hz

end
end Client
