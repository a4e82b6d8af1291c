import Verif.Itv.ModelKey
import Verif.Itv.Lemmas
import Mathlib.Order.Nat
/-!
# C89: which bound is kept when bounds compare equal

Values are compared by `key`; bounds with equal keys need not be the same.
-/

open Rust
namespace Itv.Key

/-! ## vocabulary -/
section
variable {T K : Type} [LinearOrder K] (key : T → K)

/-- the interval of keys -/
def keysL (l : LowerBound T) : LowerBound K := ⟨⟨key l.bound.val, l.bound.isClosed⟩⟩
/-- the interval of keys -/
def keysU (u : UpperBound T) : UpperBound K := ⟨⟨key u.bound.val, u.bound.isClosed⟩⟩
/-- the interval of keys -/
def keys (i : Interval T) : Interval K := ⟨i.imp.map fun a => ⟨keysL key a.lo, keysU key a.up⟩⟩

/-- `l` starts before `l'` -/
def Starts (l l' : LowerBound T) : Prop :=
  key l.bound.val < key l'.bound.val ∨
    key l.bound.val = key l'.bound.val ∧ l.bound.isClosed = true ∧ l'.bound.isClosed = false

/-- `u` ends before `u'` -/
def Ends (u u' : UpperBound T) : Prop :=
  key u.bound.val < key u'.bound.val ∨
    key u.bound.val = key u'.bound.val ∧ u.bound.isClosed = false ∧ u'.bound.isClosed = true

instance (l l' : LowerBound T) : Decidable (Starts key l l') := by unfold Starts; infer_instance
instance (u u' : UpperBound T) : Decidable (Ends key u u') := by unfold Ends; infer_instance

/-! ## helper lemmas -/

theorem cmpL_lt (a b : LowerBound T) : cmpL key a b = .lt ↔ Starts key a b := by
  have := LowerBound.cmp_lt (a := keysL key a) (b := keysL key b)
  exact this
theorem cmpL_gt (a b : LowerBound T) : cmpL key a b = .gt ↔ Starts key b a := by
  refine (LowerBound.cmp_gt (a := keysL key a) (b := keysL key b)).trans ?_
  unfold Starts keysL LowerBound.val LowerBound.isClosed
  constructor <;> (rintro (h | ⟨h1, h2, h3⟩) <;> simp_all)
theorem cmpU_lt (a b : UpperBound T) : cmpU key a b = .lt ↔ Ends key a b := by
  have := UpperBound.cmp_lt (c := keysU key a) (d := keysU key b)
  exact this
theorem cmpU_gt (a b : UpperBound T) : cmpU key a b = .gt ↔ Ends key b a := by
  refine (UpperBound.cmp_gt (c := keysU key a) (d := keysU key b)).trans ?_
  unfold Ends keysU UpperBound.val UpperBound.isClosed
  constructor <;> (rintro (h | ⟨h1, h2, h3⟩) <;> simp_all)

theorem minL_eq (a b : LowerBound T) : minL key a b = if Starts key b a then b else a := by
  unfold minL
  cases h : cmpL key a b <;> simp [← cmpL_gt, h]
theorem maxL_eq (a b : LowerBound T) : maxL key a b = if Starts key b a then a else b := by
  unfold maxL
  cases h : cmpL key a b <;> simp [← cmpL_gt, h]
theorem minU_eq (a b : UpperBound T) : minU key a b = if Ends key b a then b else a := by
  unfold minU
  cases h : cmpU key a b <;> simp [← cmpU_gt, h]
theorem maxU_eq (a b : UpperBound T) : maxU key a b = if Ends key b a then a else b := by
  unfold maxU
  cases h : cmpU key a b <;> simp [← cmpU_gt, h]

theorem keys_min (a b : LowerBound T) : keysL key (minL key a b) = (keysL key a).min (keysL key b) := by
  show _ = (match cmpL key a b with | .lt | .eq => keysL key a | .gt => keysL key b)
  unfold minL; cases cmpL key a b <;> rfl
theorem keys_max (a b : LowerBound T) : keysL key (maxL key a b) = (keysL key a).max (keysL key b) := by
  show _ = (match cmpL key a b with | .lt | .eq => keysL key b | .gt => keysL key a)
  unfold maxL; cases cmpL key a b <;> rfl
theorem keys_minU (a b : UpperBound T) : keysU key (minU key a b) = (keysU key a).min (keysU key b) := by
  show _ = (match cmpU key a b with | .lt | .eq => keysU key a | .gt => keysU key b)
  unfold minU; cases cmpU key a b <;> rfl
theorem keys_maxU (a b : UpperBound T) : keysU key (maxU key a b) = (keysU key a).max (keysU key b) := by
  show _ = (match cmpU key a b with | .lt | .eq => keysU key b | .gt => keysU key a)
  unfold maxU; cases cmpU key a b <;> rfl

theorem fromBounds_keys (l : LowerBound T) (u : UpperBound T) :
    (fromBounds key l u).map (keys key) = Interval.fromBounds (keysL key l) (keysU key u) := by
  unfold fromBounds Interval.fromBounds Interval.createChecked
  simp only [keysL, keysU, LowerBound.intoTuple, UpperBound.intoTuple, Bound.intoTuple]
  by_cases h1 : key l.bound.val > key u.bound.val
  · simp only [h1, ↓reduceIte]; rfl
  · by_cases h2 : key l.bound.val = key u.bound.val ∧ (!l.bound.isClosed || !u.bound.isClosed) = true
    · have h3 : ¬ key u.bound.val > key u.bound.val := lt_irrefl _
      simp only [h2, h3, and_self, ↓reduceIte]; rfl
    · simp only [h1, h2, ↓reduceIte]; rfl

theorem fromBounds_ok {l : LowerBound T} {u : UpperBound T} {i : Interval T} (h : fromBounds key l u = .ok i) :
    i = ⟨some ⟨l, u⟩⟩ := by
  unfold fromBounds at h
  split at h
  · cases h
  · split at h <;> cases h
    rfl

theorem ok_of_map {α β : Type} {f : α → β} {x : Except Fault α} {y : β} (h : x.map f = .ok y) : ∃ a, x = .ok a ∧ f a = y := by
  cases x with
  | error e => cases h
  | ok a => cases h; exact ⟨a, rfl, rfl⟩

theorem lt_keys (a b : Interval T) : lt key a b = (keys key a).lt (keys key b) := by
  rcases a with ⟨_ | a⟩ <;> rcases b with ⟨_ | b⟩ <;> rfl
theorem gt_keys (a b : Interval T) : gt key a b = (keys key a).gt (keys key b) := by
  rcases a with ⟨_ | a⟩ <;> rcases b with ⟨_ | b⟩ <;> rfl
theorem canBeMerged_keys (a b : Interval T) : canBeMerged key a b = (keys key a).canBeMerged (keys key b) := by
  rcases a with ⟨_ | a⟩ <;> rcases b with ⟨_ | b⟩ <;> rfl

/-- what `into_span` and `into_merged` leave, and what `span` and `merge` leave -/
theorem hull_keys (s o : NonEmptyInterval T) :
    (let s1 : NonEmptyInterval T := if cmpL key o.lo s.lo = .lt then { s with lo := o.lo } else s
     if cmpU key o.up s1.up = .gt then { s1 with up := o.up } else s1) =
    ⟨if Starts key o.lo s.lo then o.lo else s.lo, if Ends key s.up o.up then o.up else s.up⟩ := by
  simp only [cmpL_lt, cmpU_gt]
  by_cases h1 : Starts key o.lo s.lo <;> by_cases h2 : Ends key s.up o.up <;> simp [h1, h2]

theorem meet_keys (s o : NonEmptyInterval T) :
    (let s1 : NonEmptyInterval T := if cmpL key s.lo o.lo = .lt then { s with lo := o.lo } else s
     if cmpU key s1.up o.up = .gt then { s1 with up := o.up } else s1) =
    ⟨if Starts key s.lo o.lo then o.lo else s.lo, if Ends key o.up s.up then o.up else s.up⟩ := by
  simp only [cmpL_lt, cmpU_gt]
  by_cases h1 : Starts key s.lo o.lo <;> by_cases h2 : Ends key o.up s.up <;> simp [h1, h2]

theorem intoSpan_keys (a b : Interval T) :
    (intoSpan key a b).map (keys key) = Interval.intoSpan (keys key a) (keys key b) := by
  rcases b with ⟨_ | b⟩
  · rfl
  · rcases a with ⟨_ | a⟩
    · rfl
    · show (fromBounds key _ _).map _ = Interval.fromBounds _ _
      rw [fromBounds_keys, keys_min, keys_maxU]

theorem intoIntersection_keys (a b : Interval T) :
    (intoIntersection key a b).map (keys key) = Interval.intoIntersection (keys key a) (keys key b) := by
  rcases a with ⟨_ | a⟩
  · rfl
  · rcases b with ⟨_ | b⟩
    · rfl
    · show (if gt key _ _ || lt key _ _ then _ else _ : Except Fault (Interval T)).map _ =
        (if !(!(Interval.gt _ _ || Interval.lt _ _)) then _ else Interval.fromBounds _ _ : Except Fault (Interval K))
      rw [gt_keys, lt_keys, Bool.not_not]
      split
      · rfl
      · rw [fromBounds_keys, keys_max, keys_minU]

theorem ltL_keys (a b : LowerBound T) : (keysL key a).lt (keysL key b) = decide (Starts key a b) := by
  rw [Bool.eq_iff_iff, decide_eq_true_iff]; exact LowerBound.lt_iff
theorem gtU_keys (a b : UpperBound T) : (keysU key a).gt (keysU key b) = decide (Ends key b a) := by
  rw [Bool.eq_iff_iff, decide_eq_true_iff, ← cmpU_gt]
  show (UpperBound.partialCmp _ _ == _) = true ↔ _
  rw [UpperBound.partialCmp_eq, beq_iff_eq, Option.some.injEq]
  exact Iff.rfl

/-- the in-place updates of `span` and `merge` on keys -/
theorem hull_on_keys (s o : NonEmptyInterval T) :
    (let s1 : NonEmptyInterval K := if (keysL key o.lo).lt (keysL key s.lo) then ⟨keysL key o.lo, keysU key s.up⟩
        else ⟨keysL key s.lo, keysU key s.up⟩
     if (keysU key o.up).gt s1.up then { s1 with up := keysU key o.up } else s1) =
    ⟨keysL key (if Starts key o.lo s.lo then o.lo else s.lo), keysU key (if Ends key s.up o.up then o.up else s.up)⟩ := by
  simp only [ltL_keys, decide_eq_true_eq]
  by_cases h1 : Starts key o.lo s.lo <;> by_cases h2 : Ends key s.up o.up <;> simp [h1, h2, gtU_keys]

/-- the in-place updates of `intersection` on keys -/
theorem meet_on_keys (s o : NonEmptyInterval T) :
    (let s1 : NonEmptyInterval K := if (keysL key s.lo).lt (keysL key o.lo) then ⟨keysL key o.lo, keysU key s.up⟩
        else ⟨keysL key s.lo, keysU key s.up⟩
     if s1.up.gt (keysU key o.up) then { s1 with up := keysU key o.up } else s1) =
    ⟨keysL key (if Starts key s.lo o.lo then o.lo else s.lo), keysU key (if Ends key o.up s.up then o.up else s.up)⟩ := by
  simp only [ltL_keys, decide_eq_true_eq]
  by_cases h1 : Starts key s.lo o.lo <;> by_cases h2 : Ends key o.up s.up <;> simp [h1, h2, gtU_keys]

theorem span_eq (s o : NonEmptyInterval T) : span key ⟨some o⟩ ⟨some s⟩ =
    (.ok (), ⟨some ⟨if Starts key o.lo s.lo then o.lo else s.lo, if Ends key s.up o.up then o.up else s.up⟩⟩) := by
  rw [← hull_keys key s o]; rfl

theorem merge_eq (s o : NonEmptyInterval T) : merge key ⟨some o⟩ ⟨some s⟩ =
    if canBeMerged key ⟨some s⟩ ⟨some o⟩ then
      (.ok (.ok ()), ⟨some ⟨if Starts key o.lo s.lo then o.lo else s.lo, if Ends key s.up o.up then o.up else s.up⟩⟩)
    else (.ok (.error ⟨some o⟩), ⟨some s⟩) := by
  rw [← hull_keys key s o]
  unfold merge
  cases canBeMerged key ⟨some s⟩ ⟨some o⟩ <;> rfl

theorem intersection_eq (s o : NonEmptyInterval T) : intersection key ⟨some o⟩ ⟨some s⟩ =
    if gt key ⟨some s⟩ ⟨some o⟩ || lt key ⟨some s⟩ ⟨some o⟩ then (.ok (), ⟨none⟩)
    else (.ok (), ⟨some ⟨if Starts key s.lo o.lo then o.lo else s.lo, if Ends key o.up s.up then o.up else s.up⟩⟩) := by
  rw [← meet_keys key s o]
  unfold intersection
  cases gt key ⟨some s⟩ ⟨some o⟩ <;> cases lt key ⟨some s⟩ ⟨some o⟩ <;> rfl

theorem wf_ok_meet {a b : NonEmptyInterval T} (ha : WellFormed (keys key ⟨some a⟩)) (hb : WellFormed (keys key ⟨some b⟩))
    (hg : gt key ⟨some a⟩ ⟨some b⟩ = false) (hl : lt key ⟨some a⟩ ⟨some b⟩ = false) :
    fromBounds key (maxL key a.lo b.lo) (minU key a.up b.up) =
      .ok ⟨some ⟨maxL key a.lo b.lo, minU key a.up b.up⟩⟩ := by
  have h := intoIntersection_keys key ⟨some a⟩ ⟨some b⟩
  rw [show Interval.intoIntersection (keys key ⟨some a⟩) (keys key ⟨some b⟩) = _ from
    Interval.intoIntersection_mk ha hb] at h
  obtain ⟨i, hi, _⟩ := ok_of_map h
  have hi' : fromBounds key (maxL key a.lo b.lo) (minU key a.up b.up) = .ok i := by
    rw [← hi]
    show _ = (if gt key _ _ || lt key _ _ then _ else _)
    rw [hg, hl]; rfl
  rw [hi', fromBounds_ok key hi']

theorem wf_ok_span {a b : NonEmptyInterval T} (ha : WellFormed (keys key ⟨some a⟩)) (hb : WellFormed (keys key ⟨some b⟩)) :
    fromBounds key (minL key a.lo b.lo) (maxU key a.up b.up) =
      .ok ⟨some ⟨minL key a.lo b.lo, maxU key a.up b.up⟩⟩ := by
  have h := intoSpan_keys key ⟨some a⟩ ⟨some b⟩
  rw [show Interval.intoSpan (keys key ⟨some a⟩) (keys key ⟨some b⟩) = _ from Interval.intoSpan_mk ha hb] at h
  obtain ⟨i, hi, _⟩ := ok_of_map h
  have hi' : fromBounds key (minL key a.lo b.lo) (maxU key a.up b.up) = .ok i := hi
  rw [hi', fromBounds_ok key hi']

end

/-! ## C89 -/
section
variable {T K : Type} [LinearOrder K] (key : T → K)

/-- C89: up to the keys the methods do what they do on the intervals of keys, so all that is proved about intervals
of a linear order holds of the keys. -/
theorem c89_up_to_keys (a b : Interval T) :
    (intoSpan key a b).map (keys key) = Interval.intoSpan (keys key a) (keys key b) ∧
    (intoIntersection key a b).map (keys key) = Interval.intoIntersection (keys key a) (keys key b) ∧
    (intoMerged key a b).map (fun r => (r.map (keys key)).mapError (fun p => (keys key p.1, keys key p.2))) =
      Interval.intoMerged (keys key a) (keys key b) ∧
    ((span key b a).1, keys key (span key b a).2) = Interval.span (keys key b) (keys key a) ∧
    ((intersection key b a).1, keys key (intersection key b a).2) =
      Interval.intersection (keys key b) (keys key a) ∧
    ((merge key b a).1.map (fun r => r.mapError (keys key)), keys key (merge key b a).2) =
      Interval.merge (keys key b) (keys key a) := by
  refine ⟨intoSpan_keys key a b, intoIntersection_keys key a b, ?_, ?_, ?_, ?_⟩
  · unfold intoMerged Interval.intoMerged
    rw [canBeMerged_keys]
    cases (keys key a).canBeMerged (keys key b)
    · rfl
    · rcases b with ⟨_ | b⟩
      · rfl
      · rcases a with ⟨_ | a⟩
        · rfl
        · have h := intoSpan_keys key ⟨some a⟩ ⟨some b⟩
          show ((fromBounds key _ _) >>= _).map _ = (Interval.fromBounds _ _ >>= _)
          have h' : (fromBounds key (minL key a.lo b.lo) (maxU key a.up b.up)).map (keys key) =
            Interval.fromBounds ((keysL key a.lo).min (keysL key b.lo)) ((keysU key a.up).max (keysU key b.up)) := h
          rw [← h']
          cases fromBounds key (minL key a.lo b.lo) (maxU key a.up b.up) <;> rfl
  · rcases b with ⟨_ | b⟩
    · rfl
    · rcases a with ⟨_ | a⟩
      · rfl
      · rw [span_eq]
        exact congrArg (fun x => ((.ok () : Except Fault Unit), (⟨some x⟩ : Interval K))) (hull_on_keys key a b).symm
  · rcases a with ⟨_ | a⟩
    · rfl
    · rcases b with ⟨_ | b⟩
      · rfl
      · rw [intersection_eq, gt_keys, lt_keys]
        unfold Interval.intersection
        show _ = (if ((keys key ⟨some a⟩).gt (keys key ⟨some b⟩) || (keys key ⟨some a⟩).lt (keys key ⟨some b⟩)) = true then _ else _)
        split
        · rfl
        · exact congrArg (fun x => ((.ok () : Except Fault Unit), (⟨some x⟩ : Interval K))) (meet_on_keys key a b).symm
  · unfold Interval.merge
    rw [← canBeMerged_keys]
    rcases a with ⟨_ | a⟩
    · rfl
    · rcases b with ⟨_ | b⟩
      · rfl
      · rw [merge_eq]
        cases canBeMerged key ⟨some a⟩ ⟨some b⟩
        · rfl
        · exact congrArg (fun x => ((.ok (.ok ()) : Except Fault (Except (Interval K) Unit)), (⟨some x⟩ : Interval K)))
            (hull_on_keys key a b).symm

/-- C89: spans and mergers of non-empty intervals. The smaller lower bound is kept, on a tie that of `self`, by both
forms. The greater upper bound is kept; on a tie the form by value keeps that of the argument, the form in place
that of `self`. -/
theorem c89_span {l l' : LowerBound T} {u u' : UpperBound T} (ha : WellFormed (keys key ⟨some ⟨l, u⟩⟩))
    (hb : WellFormed (keys key ⟨some ⟨l', u'⟩⟩)) :
    let byValue : Interval T := ⟨some ⟨if Starts key l' l then l' else l, if Ends key u' u then u else u'⟩⟩
    let inPlace : Interval T := ⟨some ⟨if Starts key l' l then l' else l, if Ends key u u' then u' else u⟩⟩
    intoSpan key ⟨some ⟨l, u⟩⟩ ⟨some ⟨l', u'⟩⟩ = .ok byValue ∧
    span key ⟨some ⟨l', u'⟩⟩ ⟨some ⟨l, u⟩⟩ = (.ok (), inPlace) ∧
    (canBeMerged key ⟨some ⟨l, u⟩⟩ ⟨some ⟨l', u'⟩⟩ = true →
      intoMerged key ⟨some ⟨l, u⟩⟩ ⟨some ⟨l', u'⟩⟩ = .ok (.ok byValue) ∧
      merge key ⟨some ⟨l', u'⟩⟩ ⟨some ⟨l, u⟩⟩ = (.ok (.ok ()), inPlace)) := by
  have h := wf_ok_span key ha hb
  rw [minL_eq, maxU_eq] at h
  refine ⟨?_, span_eq key _ _, fun hc => ⟨?_, ?_⟩⟩
  · show fromBounds key _ _ = _
    rw [minL_eq, maxU_eq, h]
  · unfold intoMerged
    rw [hc]
    show (fromBounds key _ _ >>= _) = _
    rw [minL_eq, maxU_eq, h]
    rfl
  · rw [merge_eq, if_pos hc]

/-- C89: intersections of non-empty intervals that meet. The greater lower bound is kept; on a tie `into_intersection`
keeps that of the argument, `intersection` that of `self`. The smaller upper bound is kept, on a tie that of `self`,
by both forms. -/
theorem c89_intersection {l l' : LowerBound T} {u u' : UpperBound T} (ha : WellFormed (keys key ⟨some ⟨l, u⟩⟩))
    (hb : WellFormed (keys key ⟨some ⟨l', u'⟩⟩)) (hg : gt key ⟨some ⟨l, u⟩⟩ ⟨some ⟨l', u'⟩⟩ = false)
    (hl : lt key ⟨some ⟨l, u⟩⟩ ⟨some ⟨l', u'⟩⟩ = false) :
    intoIntersection key ⟨some ⟨l, u⟩⟩ ⟨some ⟨l', u'⟩⟩ =
      .ok ⟨some ⟨if Starts key l' l then l else l', if Ends key u' u then u' else u⟩⟩ ∧
    intersection key ⟨some ⟨l', u'⟩⟩ ⟨some ⟨l, u⟩⟩ =
      (.ok (), ⟨some ⟨if Starts key l l' then l' else l, if Ends key u' u then u' else u⟩⟩) := by
  refine ⟨?_, ?_⟩
  · show (if gt key _ _ || lt key _ _ then _ else _) = _
    rw [hg, hl]
    show fromBounds key _ _ = _
    rw [wf_ok_meet key ha hb hg hl, maxL_eq, minU_eq]
  · rw [intersection_eq, hg, hl]; rfl

/-- C89: the two forms give the same interval exactly if the upper bounds (of a span) or lower bounds (of an
intersection) are the same or do not tie. -/
theorem c89_forms_agree_iff {l l' : LowerBound T} {u u' : UpperBound T} (ha : WellFormed (keys key ⟨some ⟨l, u⟩⟩))
    (hb : WellFormed (keys key ⟨some ⟨l', u'⟩⟩)) :
    (intoSpan key ⟨some ⟨l, u⟩⟩ ⟨some ⟨l', u'⟩⟩ = .ok (span key ⟨some ⟨l', u'⟩⟩ ⟨some ⟨l, u⟩⟩).2 ↔
      keysU key u ≠ keysU key u' ∨ u = u') ∧
    (gt key ⟨some ⟨l, u⟩⟩ ⟨some ⟨l', u'⟩⟩ = false → lt key ⟨some ⟨l, u⟩⟩ ⟨some ⟨l', u'⟩⟩ = false →
      (intoIntersection key ⟨some ⟨l, u⟩⟩ ⟨some ⟨l', u'⟩⟩ = .ok (intersection key ⟨some ⟨l', u'⟩⟩ ⟨some ⟨l, u⟩⟩).2 ↔
        keysL key l ≠ keysL key l' ∨ l = l')) := by
  have hU : keysU key u = keysU key u' ↔ ¬ Ends key u u' ∧ ¬ Ends key u' u := by
    unfold keysU Ends
    rcases lt_trichotomy (key u.bound.val) (key u'.bound.val) with h | h | h
    · simp [h, h.ne]
    · cases hc : u.bound.isClosed <;> cases hc' : u'.bound.isClosed <;> simp [h]
    · simp [h, h.ne']
  have hL : keysL key l = keysL key l' ↔ ¬ Starts key l l' ∧ ¬ Starts key l' l := by
    unfold keysL Starts
    rcases lt_trichotomy (key l.bound.val) (key l'.bound.val) with h | h | h
    · simp [h, h.ne]
    · cases hc : l.bound.isClosed <;> cases hc' : l'.bound.isClosed <;> simp [h]
    · simp [h, h.ne']
  have asymU : Ends key u u' → ¬ Ends key u' u := by
    rw [← cmpU_lt, ← cmpU_gt]; intro h; rw [h]; decide
  have asymL : Starts key l l' → ¬ Starts key l' l := by
    rw [← cmpL_lt, ← cmpL_gt]; intro h; rw [h]; decide
  refine ⟨?_, fun hg hl => ?_⟩
  · obtain ⟨h1, h2, _⟩ := c89_span key ha hb
    rw [h1, h2, ne_eq, hU]
    by_cases a1 : Ends key u u'
    · simp [a1, asymU a1]
    · by_cases a2 : Ends key u' u <;> simp [a1, a2, eq_comm]
  · obtain ⟨h1, h2⟩ := c89_intersection key ha hb hg hl
    rw [h1, h2, ne_eq, hL]
    by_cases a1 : Starts key l l'
    · simp [a1, asymL a1]
    · by_cases a2 : Starts key l' l <;> simp [a1, a2, eq_comm]

end

/-- values with a label that is not compared: `into_span` takes the label 20 of the argument's upper bound, `span`
keeps 2 -/
example :
    let a : Interval (Nat × Nat) := ⟨some ⟨⟨⟨(1, 1), true⟩⟩, ⟨⟨(5, 2), true⟩⟩⟩⟩
    let b : Interval (Nat × Nat) := ⟨some ⟨⟨⟨(1, 10), true⟩⟩, ⟨⟨(5, 20), true⟩⟩⟩⟩
    WellFormed (keys Prod.fst a) ∧ WellFormed (keys Prod.fst b) ∧
    gt Prod.fst a b = false ∧ lt Prod.fst a b = false ∧ canBeMerged Prod.fst a b = true ∧
    intoSpan Prod.fst a b = .ok ⟨some ⟨⟨⟨(1, 1), true⟩⟩, ⟨⟨(5, 20), true⟩⟩⟩⟩ ∧
    span Prod.fst b a = (.ok (), a) ∧
    intoIntersection Prod.fst a b = .ok ⟨some ⟨⟨⟨(1, 10), true⟩⟩, ⟨⟨(5, 2), true⟩⟩⟩⟩ ∧
    intersection Prod.fst b a = (.ok (), a) :=
  ⟨.inl (by decide), .inl (by decide), rfl, rfl, rfl, rfl, rfl, rfl, rfl⟩

end Itv.Key
