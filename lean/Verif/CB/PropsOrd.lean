import Verif.CB.ModelOrd
import Verif.CB.LemmasWorld
import Mathlib.Data.List.Lex
/-!
# C129: operators on buffers, and the greatest, least and clamped buffer
-/

open Rust
namespace CB
section
variable {α : Type} [Cfg] [Elem α]

theorem partialCmp_shown {a b : Buf α} (ha : Reachable a) (hb : Reachable b) (pc : α → α → Option Ordering) :
    Buf.partialCmp pc a b = .ok (iterPartialCmp pc (shown a) (shown b)) := by
  obtain ⟨xs, _, hx, _⟩ := ha.shows
  obtain ⟨ys, _, hy, _⟩ := hb.shows
  obtain ⟨i1, h1, c1⟩ := iter_collect ha hx
  obtain ⟨i2, h2, c2⟩ := iter_collect hb hy
  rw [shown_eq hx, shown_eq hy]
  unfold Buf.partialCmp; rw [h1, h2, ← c1, ← c2]; rfl

theorem cmp_shown {a b : Buf α} (ha : Reachable a) (hb : Reachable b) (c : α → α → Ordering) :
    Buf.cmp c a b = .ok (iterCmp c (shown a) (shown b)) := by
  obtain ⟨xs, _, hx, _⟩ := ha.shows
  obtain ⟨ys, _, hy, _⟩ := hb.shows
  obtain ⟨i1, h1, c1⟩ := iter_collect ha hx
  obtain ⟨i2, h2, c2⟩ := iter_collect hb hy
  rw [shown_eq hx, shown_eq hy]
  unfold Buf.cmp; rw [h1, h2, ← c1, ← c2]; rfl

omit [Cfg] [Elem α] in
theorem iterCmp_linear [LinearOrder α] : ∀ xs ys : List α,
    (iterCmp compare xs ys = .lt ↔ xs < ys) ∧ (iterCmp compare xs ys = .gt ↔ ys < xs) ∧
      (iterCmp compare xs ys = .eq ↔ xs = ys)
  | [], [] => by simp [iterCmp]
  | [], y :: ys => by simp [iterCmp]
  | x :: xs, [] => by simp [iterCmp]
  | x :: xs, y :: ys => by
    have ih := iterCmp_linear xs ys
    rw [List.cons_lt_cons_iff, List.cons_lt_cons_iff, List.cons.injEq]
    unfold iterCmp
    rcases lt_trichotomy x y with h | h | h
    · rw [compare_lt_iff_lt.mpr h]; simp [h, h.ne, h.ne', h.not_gt]
    · subst h; rw [compare_eq_iff_eq.mpr rfl]; simpa using ih
    · rw [compare_gt_iff_gt.mpr h]; simp [h, h.ne, h.ne', h.not_gt]

theorem dropBuf_calm {b : Buf α} (h : Reachable b) (hc : Calm (shown b)) (dr : List α) :
    dropBuf b dr = (.ok (), dr ++ (shown b).reverse) := by
  obtain ⟨xs, n, hx, hn, hl, r⟩ := h.shows
  rw [shown_eq hx] at hc ⊢
  obtain ⟨cb', e, _⟩ := c08_drop_drops_the_rest h hx hc dr
  unfold dropBuf
  rw [e]

/-- what the pairwise choices do when no destructor panics -/
theorem max_run [LinearOrder α] {a b : Buf α} (ha : Reachable a) (hb : Reachable b) (ca : Calm (shown a))
    (cb : Calm (shown b)) (dr : List α) :
    Buf.max compare a b dr = if shown b < shown a then (.ok a, dr ++ (shown b).reverse)
      else (.ok b, dr ++ (shown a).reverse) := by
  unfold Buf.max
  rw [cmp_shown ha hb, M.bind_ok (m := M.lift (Except.ok _)) rfl]
  obtain ⟨h1, h2, h3⟩ := iterCmp_linear (shown a) (shown b)
  cases h : iterCmp compare (shown a) (shown b) with
  | gt => rw [if_pos (h2.mp h)]; dsimp only; rw [M.bind_ok (dropBuf_calm hb cb dr)]; rfl
  | lt => rw [if_neg (h1.mp h).not_gt]; dsimp only; rw [M.bind_ok (dropBuf_calm ha ca dr)]; rfl
  | eq => rw [if_neg (by rw [h3.mp h]; exact lt_irrefl _)]; dsimp only; rw [M.bind_ok (dropBuf_calm ha ca dr)]; rfl

theorem min_run [LinearOrder α] {a b : Buf α} (ha : Reachable a) (hb : Reachable b) (ca : Calm (shown a))
    (cb : Calm (shown b)) (dr : List α) :
    Buf.min compare a b dr = if shown b < shown a then (.ok b, dr ++ (shown a).reverse)
      else (.ok a, dr ++ (shown b).reverse) := by
  unfold Buf.min
  rw [cmp_shown ha hb, M.bind_ok (m := M.lift (Except.ok _)) rfl]
  obtain ⟨h1, h2, h3⟩ := iterCmp_linear (shown a) (shown b)
  cases h : iterCmp compare (shown a) (shown b) with
  | gt => rw [if_pos (h2.mp h)]; dsimp only; rw [M.bind_ok (dropBuf_calm ha ca dr)]; rfl
  | lt => rw [if_neg (h1.mp h).not_gt]; dsimp only; rw [M.bind_ok (dropBuf_calm hb cb dr)]; rfl
  | eq => rw [if_neg (by rw [h3.mp h]; exact lt_irrefl _)]; dsimp only; rw [M.bind_ok (dropBuf_calm hb cb dr)]; rfl

theorem lt_run [LinearOrder α] {a b : Buf α} (ha : Reachable a) (hb : Reachable b) :
    Buf.lt (fun x y => some (compare x y)) a b = .ok (decide (shown a < shown b)) := by
  unfold Buf.lt
  rw [partialCmp_shown ha hb, iterPartialCmp_some]
  obtain ⟨h1, h2, h3⟩ := iterCmp_linear (shown a) (shown b)
  cases h : iterCmp compare (shown a) (shown b) with
  | lt => rw [decide_eq_true (h1.mp h)]; rfl
  | eq => rw [decide_eq_false (by rw [h3.mp h]; exact lt_irrefl _)]; rfl
  | gt => rw [decide_eq_false (h2.mp h).not_gt]; rfl

theorem gt_run [LinearOrder α] {a b : Buf α} (ha : Reachable a) (hb : Reachable b) :
    Buf.gt (fun x y => some (compare x y)) a b = .ok (decide (shown b < shown a)) := by
  unfold Buf.gt
  rw [partialCmp_shown ha hb, iterPartialCmp_some]
  obtain ⟨h1, h2, h3⟩ := iterCmp_linear (shown a) (shown b)
  cases h : iterCmp compare (shown a) (shown b) with
  | gt => rw [decide_eq_true (h2.mp h)]; rfl
  | eq => rw [decide_eq_false (by rw [h3.mp h]; exact lt_irrefl _)]; rfl
  | lt => rw [decide_eq_false (h1.mp h).not_gt]; rfl

theorem le_run [LinearOrder α] {a b : Buf α} (ha : Reachable a) (hb : Reachable b) :
    Buf.le (fun x y => some (compare x y)) a b = .ok (decide (shown a ≤ shown b)) := by
  unfold Buf.le
  rw [partialCmp_shown ha hb, iterPartialCmp_some]
  obtain ⟨h1, h2, h3⟩ := iterCmp_linear (shown a) (shown b)
  cases h : iterCmp compare (shown a) (shown b) with
  | lt => rw [decide_eq_true (h1.mp h).le]; rfl
  | eq => rw [decide_eq_true (h3.mp h).le]; rfl
  | gt => rw [decide_eq_false (h2.mp h).not_ge]; rfl

theorem ge_run [LinearOrder α] {a b : Buf α} (ha : Reachable a) (hb : Reachable b) :
    Buf.ge (fun x y => some (compare x y)) a b = .ok (decide (shown b ≤ shown a)) := by
  unfold Buf.ge
  rw [partialCmp_shown ha hb, iterPartialCmp_some]
  obtain ⟨h1, h2, h3⟩ := iterCmp_linear (shown a) (shown b)
  cases h : iterCmp compare (shown a) (shown b) with
  | gt => rw [decide_eq_true (h2.mp h).le]; rfl
  | eq => rw [decide_eq_true (h3.mp h).ge]; rfl
  | lt => rw [decide_eq_false (h1.mp h).not_ge]; rfl

/-! ## the property -/

/-- **C129 (operators).** With totally ordered elements the six operators compare the contents in lexicographic order, however
the buffers are laid out and whatever their capacities. -/
theorem c129_operators [LinearOrder α] {a b : Buf α} (ha : Reachable a) (hb : Reachable b) {xs ys : List α}
    (hx : a.contents = .ok xs) (hy : b.contents = .ok ys) :
    Buf.lt (fun x y => some (compare x y)) a b = .ok (decide (xs < ys)) ∧
    Buf.le (fun x y => some (compare x y)) a b = .ok (decide (xs ≤ ys)) ∧
    Buf.gt (fun x y => some (compare x y)) a b = .ok (decide (ys < xs)) ∧
    Buf.ge (fun x y => some (compare x y)) a b = .ok (decide (ys ≤ xs)) ∧
    Buf.eq (fun x y => decide (x = y)) a b = .ok (decide (xs = ys)) ∧
    Buf.ne (fun x y => decide (x = y)) a b = .ok (decide (xs ≠ ys)) := by
  have e : Buf.eq (fun x y => decide (x = y)) a b = .ok (decide (xs = ys)) := by
    obtain ⟨r, h, hr⟩ := c15_eq ha hb hx hy fun x y => decide (x = y)
    rw [h]
    congr 1
    rw [Bool.eq_iff_iff, hr, decide_eq_true_iff]
    constructor
    · rintro ⟨h1, h2⟩
      apply List.ext_getElem h1
      intro i hi hj
      simpa using h2 i _ _ (List.getElem?_eq_getElem hi) (List.getElem?_eq_getElem hj)
    · rintro rfl
      exact ⟨rfl, fun i x y h1 h2 => by rw [h1] at h2; cases h2; simp⟩
  have l := lt_run ha hb; have m := le_run ha hb; have g := gt_run ha hb; have k := ge_run ha hb
  rw [shown_eq hx, shown_eq hy] at l m g k
  refine ⟨l, m, g, k, e, ?_⟩
  unfold Buf.ne
  rw [e]
  by_cases h : xs = ys <;> simp [h, pure, Except.pure, bind, Except.bind]

/-- **C129 (values that do not compare).** If the contents agree up to a pair of elements of which neither is less and which
are not equal either (such as a `NaN`), all of `<`, `<=`, `>`, `>=` say no. -/
theorem c129_incomparable {a b : Buf α} (ha : Reachable a) (hb : Reachable b) {p q r s : List α} {x y : α}
    (hx : a.contents = .ok (p ++ x :: r)) (hy : b.contents = .ok (q ++ y :: s)) (pc : α → α → Option Ordering)
    (hpq : Pairwise2 (fun u v => pc u v = some .eq) p q) (hxy : pc x y = none) :
    Buf.lt pc a b = .ok false ∧ Buf.le pc a b = .ok false ∧ Buf.gt pc a b = .ok false ∧ Buf.ge pc a b = .ok false := by
  obtain ⟨o, h, ho⟩ := c15_partial_cmp ha hb hx hy pc
  have : o = none := (ho none).mpr (.inl ⟨p, q, x, y, r, s, rfl, rfl, hpq, hxy, by simp⟩)
  rw [this] at h
  unfold Buf.lt Buf.le Buf.gt Buf.ge
  rw [h]
  exact ⟨rfl, rfl, rfl, rfl⟩

/-- **C129 (`max`, `min`).** Of two buffers `max` returns the one with the greater content, `min` the one with the lesser, as it
is; with equal contents `max` returns the second and `min` the first. The elements of the other one are dropped, once
each. -/
theorem c129_max_min [LinearOrder α] {a b : Buf α} (ha : Reachable a) (hb : Reachable b) {xs ys : List α}
    (hx : a.contents = .ok xs) (hy : b.contents = .ok ys) (ca : Calm xs) (cb : Calm ys) (dr : List α) :
    (xs ≤ ys → Buf.max compare a b dr = (.ok b, dr ++ xs.reverse) ∧ Buf.min compare a b dr = (.ok a, dr ++ ys.reverse)) ∧
    (ys < xs → Buf.max compare a b dr = (.ok a, dr ++ ys.reverse) ∧ Buf.min compare a b dr = (.ok b, dr ++ xs.reverse)) := by
  have h1 := max_run ha hb (by rwa [shown_eq hx]) (by rwa [shown_eq hy]) dr
  have h2 := min_run ha hb (by rwa [shown_eq hx]) (by rwa [shown_eq hy]) dr
  rw [shown_eq hx, shown_eq hy] at h1 h2
  rw [h1, h2]
  exact ⟨fun h => by rw [if_neg h.not_gt, if_neg h.not_gt]; exact ⟨rfl, rfl⟩,
    fun h => by rw [if_pos h, if_pos h]; exact ⟨rfl, rfl⟩⟩

/-- **C129 (`clamp`).** `clamp` panics exactly if the limits are the wrong way round. Else it returns one of the three buffers,
as it is: a limit if the content lies beyond it, else the buffer itself. The elements of the other two are dropped, once
each; if it panics, those of all three. -/
theorem c129_clamp [LinearOrder α] {a lo hi : Buf α} (ha : Reachable a) (hl : Reachable lo) (hh : Reachable hi)
    {xs ls hs : List α} (hx : a.contents = .ok xs) (hls : lo.contents = .ok ls) (hhs : hi.contents = .ok hs)
    (ca : Calm xs) (cl : Calm ls) (ch : Calm hs) (dr : List α) :
    ∃ r d, Buf.clamp (fun x y => some (compare x y)) a lo hi dr = (r, dr ++ d) ∧
      (hs < ls → r = .error .explicit ∧ d.Perm (xs ++ ls ++ hs)) ∧
      (ls ≤ hs → xs < ls → r = .ok lo ∧ d.Perm (xs ++ hs)) ∧
      (ls ≤ hs → hs < xs → r = .ok hi ∧ d.Perm (xs ++ ls)) ∧
      (ls ≤ xs → xs ≤ hs → r = .ok a ∧ d.Perm (ls ++ hs)) := by
  have da := fun dr => dropBuf_calm ha (by rwa [shown_eq hx]) dr
  have dl := fun dr => dropBuf_calm hl (by rwa [shown_eq hls]) dr
  have dh := fun dr => dropBuf_calm hh (by rwa [shown_eq hhs]) dr
  have e1 := le_run hl hh; have e2 := lt_run ha hl; have e3 := gt_run ha hh
  rw [shown_eq hx] at da e2 e3
  rw [shown_eq hls] at dl e1 e2
  rw [shown_eq hhs] at dh e1 e3
  have pr : ∀ u v : List α, (u.reverse ++ v.reverse).Perm (v ++ u) := fun u v =>
    ((List.reverse_perm u).append (List.reverse_perm v)).trans List.perm_append_comm
  unfold Buf.clamp
  rw [e1, M.bind_ok (m := M.lift (Except.ok _)) rfl]
  by_cases h1 : ls ≤ hs
  · rw [if_pos (decide_eq_true h1), e2, M.bind_ok (m := M.lift (Except.ok _)) rfl]
    by_cases h2 : xs < ls
    · rw [if_pos (decide_eq_true h2), M.bind_ok (dh _), M.bind_ok (da _)]
      exact ⟨.ok lo, hs.reverse ++ xs.reverse, by rw [M.pure_run, List.append_assoc], fun h => absurd h h1.not_gt,
        fun _ _ => ⟨rfl, pr _ _⟩, fun _ h => absurd (h2.trans_le h1) h.not_gt, fun h => absurd h2 h.not_gt⟩
    · rw [if_neg (by simpa using h2), e3, M.bind_ok (m := M.lift (Except.ok _)) rfl]
      by_cases h3 : hs < xs
      · rw [if_pos (decide_eq_true h3), M.bind_ok (dl _), M.bind_ok (da _)]
        exact ⟨.ok hi, ls.reverse ++ xs.reverse, by rw [M.pure_run, List.append_assoc], fun h => absurd h h1.not_gt,
          fun _ h => absurd h h2, fun _ _ => ⟨rfl, pr _ _⟩, fun _ h => absurd h3 h.not_gt⟩
      · rw [if_neg (by simpa using h3), M.bind_ok (dh _), M.bind_ok (dl _)]
        exact ⟨.ok a, hs.reverse ++ ls.reverse, by rw [M.pure_run, List.append_assoc], fun h => absurd h h1.not_gt,
          fun _ h => absurd h h2, fun _ h => absurd h h3, fun _ _ => ⟨rfl, pr _ _⟩⟩
  · rw [if_neg (by simpa using h1), M.bind_ok (dh _), M.bind_ok (dl _), M.bind_ok (da _)]
    refine ⟨.error .explicit, hs.reverse ++ (ls.reverse ++ xs.reverse), by simp [M.throw], fun _ => ⟨rfl, ?_⟩,
      fun h => absurd h h1, fun h => absurd h h1, fun h h' => absurd (h.trans h') h1⟩
    exact ((List.reverse_perm hs).append (pr ls xs)).trans List.perm_append_comm

/-- **C129 (greatest of many).** `Iterator::max` over buffers returns the last of those with the greatest content, as it is, and
drops the elements of all others, once each. -/
theorem c129_max_of_many [LinearOrder α] : ∀ (bs : List (Buf α)) (a : Buf α), (∀ b ∈ a :: bs, Reachable b ∧ Calm (shown b)) →
    ∀ dr : List α, ∃ r pre post d, reduceBufs (Buf.max compare) a bs dr = (.ok r, dr ++ d) ∧ a :: bs = pre ++ r :: post ∧
      (∀ b ∈ pre, shown b ≤ shown r) ∧ (∀ b ∈ post, shown b < shown r) ∧ d.Perm ((pre ++ post).flatMap shown)
  | [], a, _, dr => ⟨a, [], [], [], by simp [reduceBufs, M.pure_run], rfl, by simp, by simp, by simp⟩
  | b :: bs, a, h, dr => by
    have ha := h a (by simp); have hb := h b (by simp)
    have e := max_run ha.1 hb.1 ha.2 hb.2 dr
    by_cases hlt : shown b < shown a
    · rw [if_pos hlt] at e
      obtain ⟨r, pre, post, d, e2, h1, h2, h3, h4⟩ := c129_max_of_many bs a
        (fun c hc => h c (by rcases List.mem_cons.mp hc with h | h <;> simp [h])) (dr ++ (shown b).reverse)
      have run : reduceBufs (Buf.max compare) a (b :: bs) dr = (.ok r, dr ++ ((shown b).reverse ++ d)) := by
        unfold reduceBufs
        rw [M.bind_ok e, e2, List.append_assoc]
      have pd : ((shown b).reverse ++ d).Perm (shown b ++ (pre ++ post).flatMap shown) :=
        (List.reverse_perm _).append h4
      cases pre with
      | nil =>
        obtain ⟨rfl, rfl⟩ : a = r ∧ bs = post := by simpa using h1
        exact ⟨a, [], b :: bs, _, run, rfl, by simp, by simpa using ⟨hlt, h3⟩, by simpa using pd⟩
      | cons c pre =>
        obtain ⟨rfl, rfl⟩ : a = c ∧ bs = pre ++ r :: post := by simpa using h1
        refine ⟨r, a :: b :: pre, post, _, run, rfl, ?_, h3, ?_⟩
        · have := h2 a (by simp)
          intro c hc
          rcases List.mem_cons.mp hc with rfl | hc
          · exact this
          rcases List.mem_cons.mp hc with rfl | hc
          · exact (hlt.trans_le this).le
          · exact h2 c (by simp [hc])
        · refine pd.trans ?_
          simp only [List.cons_append, List.flatMap_cons]
          rw [← List.append_assoc, ← List.append_assoc]
          exact List.perm_append_comm.append_right _
    · rw [if_neg hlt] at e
      obtain ⟨r, pre, post, d, e2, h1, h2, h3, h4⟩ := c129_max_of_many bs b
        (fun c hc => h c (by rcases List.mem_cons.mp hc with h | h <;> simp [h])) (dr ++ (shown a).reverse)
      have run : reduceBufs (Buf.max compare) a (b :: bs) dr = (.ok r, dr ++ ((shown a).reverse ++ d)) := by
        unfold reduceBufs
        rw [M.bind_ok e, e2, List.append_assoc]
      refine ⟨r, a :: pre, post, _, run, by rw [h1]; rfl, ?_, h3, ?_⟩
      · have hr : shown b ≤ shown r := by
          have hb : b ∈ pre ++ r :: post := by rw [← h1]; simp
          rcases List.mem_append.mp hb with hb | hb
          · exact h2 b hb
          · rcases List.mem_cons.mp hb with rfl | hb
            · exact le_refl _
            · exact (h3 b hb).le
        intro c hc
        rcases List.mem_cons.mp hc with rfl | hc
        · exact (not_lt.mp hlt).trans hr
        · exact h2 c hc
      · simpa using (List.reverse_perm _).append h4

/-- **C129 (least of many).** `Iterator::min` over buffers returns the first of those with the least content, as it is, and
drops the elements of all others, once each. -/
theorem c129_min_of_many [LinearOrder α] : ∀ (bs : List (Buf α)) (a : Buf α), (∀ b ∈ a :: bs, Reachable b ∧ Calm (shown b)) →
    ∀ dr : List α, ∃ r pre post d, reduceBufs (Buf.min compare) a bs dr = (.ok r, dr ++ d) ∧ a :: bs = pre ++ r :: post ∧
      (∀ b ∈ pre, shown r < shown b) ∧ (∀ b ∈ post, shown r ≤ shown b) ∧ d.Perm ((pre ++ post).flatMap shown)
  | [], a, _, dr => ⟨a, [], [], [], by simp [reduceBufs, M.pure_run], rfl, by simp, by simp, by simp⟩
  | b :: bs, a, h, dr => by
    have ha := h a (by simp); have hb := h b (by simp)
    have e := min_run ha.1 hb.1 ha.2 hb.2 dr
    by_cases hlt : shown b < shown a
    · rw [if_pos hlt] at e
      obtain ⟨r, pre, post, d, e2, h1, h2, h3, h4⟩ := c129_min_of_many bs b
        (fun c hc => h c (by rcases List.mem_cons.mp hc with h | h <;> simp [h])) (dr ++ (shown a).reverse)
      have run : reduceBufs (Buf.min compare) a (b :: bs) dr = (.ok r, dr ++ ((shown a).reverse ++ d)) := by
        unfold reduceBufs
        rw [M.bind_ok e, e2, List.append_assoc]
      refine ⟨r, a :: pre, post, _, run, by rw [h1]; rfl, ?_, h3, ?_⟩
      · have hr : shown r ≤ shown b := by
          have hb : b ∈ pre ++ r :: post := by rw [← h1]; simp
          rcases List.mem_append.mp hb with hb | hb
          · exact (h2 b hb).le
          · rcases List.mem_cons.mp hb with rfl | hb
            · exact le_refl _
            · exact h3 b hb
        intro c hc
        rcases List.mem_cons.mp hc with rfl | hc
        · exact hr.trans_lt hlt
        · exact h2 c hc
      · simpa using (List.reverse_perm _).append h4
    · rw [if_neg hlt] at e
      obtain ⟨r, pre, post, d, e2, h1, h2, h3, h4⟩ := c129_min_of_many bs a
        (fun c hc => h c (by rcases List.mem_cons.mp hc with h | h <;> simp [h])) (dr ++ (shown b).reverse)
      have run : reduceBufs (Buf.min compare) a (b :: bs) dr = (.ok r, dr ++ ((shown b).reverse ++ d)) := by
        unfold reduceBufs
        rw [M.bind_ok e, e2, List.append_assoc]
      have pd : ((shown b).reverse ++ d).Perm (shown b ++ (pre ++ post).flatMap shown) :=
        (List.reverse_perm _).append h4
      cases pre with
      | nil =>
        obtain ⟨rfl, rfl⟩ : a = r ∧ bs = post := by simpa using h1
        exact ⟨a, [], b :: bs, _, run, rfl, by simp, by simpa using ⟨not_lt.mp hlt, h3⟩, by simpa using pd⟩
      | cons c pre =>
        obtain ⟨rfl, rfl⟩ : a = c ∧ bs = pre ++ r :: post := by simpa using h1
        refine ⟨r, a :: b :: pre, post, _, run, rfl, ?_, h3, ?_⟩
        · have := h2 a (by simp)
          intro c hc
          rcases List.mem_cons.mp hc with rfl | hc
          · exact this
          rcases List.mem_cons.mp hc with rfl | hc
          · exact this.trans_le (not_lt.mp hlt)
          · exact h2 c (by simp [hc])
        · refine pd.trans ?_
          simp only [List.cons_append, List.flatMap_cons]
          rw [← List.append_assoc, ← List.append_assoc]
          exact List.perm_append_comm.append_right _

end

open Demo in
example : Reachable Demo.buf ∧ Reachable Demo.bomb ∧ Demo.buf.contents = .ok ([] ++ 3 :: [4, 5]) ∧
    Demo.bomb.contents = .ok ([] ++ 13 :: [4, 5]) ∧ Calm (shown Demo.buf) ∧ ([3, 4, 5] : List Nat) < [13, 4, 5] ∧
    Buf.lt (fun x y => some (compare x y)) Demo.buf Demo.bomb = .ok true ∧
    Buf.le (fun x y => if x = 13 ∨ y = 13 then none else some (compare x y)) Demo.buf Demo.bomb = .ok false :=
  ⟨buf_reachable, bomb_reachable, buf_contents, bomb_contents, by unfold Calm; decide +kernel, by decide +kernel, rfl, rfl⟩
open Demo in
example : Reachable (step .popFront ⟨Demo.buf, []⟩).2.cb ∧ shown (step .popFront ⟨Demo.buf, []⟩).2.cb = [4, 5] ∧
    Calm (shown (step .popFront ⟨Demo.buf, []⟩).2.cb) ∧
    (reduceBufs (Buf.max compare) Demo.buf [(step .popFront ⟨Demo.buf, []⟩).2.cb, Demo.buf] []).2 = [5, 4, 3, 5, 4, 3] ∧
    (Buf.clamp (fun x y => some (compare x y)) Demo.buf (step .popFront ⟨Demo.buf, []⟩).2.cb Demo.buf []).2 =
      [5, 4, 3, 5, 4, 5, 4, 3] :=
  ⟨.step _ _ buf_reachable trivial, by decide +kernel, by unfold Calm; decide +kernel, by decide +kernel, by decide +kernel⟩

end CB
