import Verif.Cnt.SimWild
/-!
# C95: a wrong `Hash` or `Eq` cannot lose counts

The items may have any `Hash` and `Eq` whatsoever: every lookup finds an arbitrary entry or none. Which entry an item
is counted in is then arbitrary too, but the sum of all counts is not.
-/

open Rust
namespace Cnt.Wild

section
variable {T : Type} [Cfg]

/-- the items and numbers a history hands over to be counted -/
def given (ds : List (Deed T)) : List (T × Nat) := ds.flatMap Deed.gives

/-- the numbers a history hands over to be subtracted -/
def taken (ds : List (Deed T)) : List Nat := ds.flatMap Deed.takes

omit [Cfg] in
theorem amount_append (a b : List (T × Nat)) : amount (a ++ b) = amount a + amount b := by
  unfold amount; rw [List.map_append, List.sum_append]

omit [Cfg] in
theorem le_total {c : Counter T} {e : T × Nat} (h : e ∈ c.counter.entries) : e.2 ≤ total c := by
  obtain ⟨i, hi⟩ := List.mem_iff_getElem?.mp h
  have : _ = total c := sum_eraseIdx hi
  omega

/-- every call is a loop of additions or of subtractions -/
theorem deed_cases {d : Deed T} (hd : d.Fits) {c : Counter T} (hf : Fits c) :
    (d.takes = [] ∧ ∃ n, Counts d.gives d.panics c (d.run c).1 (d.run c).2 n) ∨
    (d.gives = [] ∧ ∃ order, d = .sub order d.panics ∧ d.takes = order.map (·.1.2)) := by
  cases d with
  | push x ch =>
    left
    refine ⟨rfl, ?_⟩
    obtain ⟨n, hn⟩ := addAssign_counts [((x, 1), ch)] false hf (by
      intro e he; rw [List.mem_singleton.mp he]; exact one_le_usizeMax)
    exact ⟨n, by show Counts _ _ _ (push x ch c).1 (push x ch c).2 n; rw [push_eq]; exact hn⟩
  | extend items p =>
    left
    refine ⟨rfl, ?_⟩
    obtain ⟨n, hn⟩ := addAssign_counts (items.map fun e => ((e.1, 1), e.2)) p hf (by
      intro e he; obtain ⟨f, _, rfl⟩ := List.mem_map.mp he; exact one_le_usizeMax)
    refine ⟨n, ?_⟩
    show Counts _ _ _ (extend items p c).1 (extend items p c).2 n
    rw [extend_eq]
    rw [List.map_map] at hn
    exact hn
  | add order p =>
    left
    exact ⟨rfl, addAssign_counts order p hf fun e he => hd e.1 (List.mem_map_of_mem he)⟩
  | sub order p => exact .inr ⟨rfl, order, rfl, rfl⟩

theorem deed_fits {d : Deed T} (hd : d.Fits) {c : Counter T} (hf : Fits c) : Fits (d.run c).2 := by
  rcases deed_cases hd hf with ⟨-, n, hn⟩ | ⟨-, order, h, -⟩
  · exact hn.fits
  · rw [h]; exact (subAssign_takes order _ hf).2.1

/-- **C95**, one call. A call that counts or adds counts a first part of what it was given, and says so: it gets through
everything unless some count would overflow in a build with checks. No count it met before is lost. -/
theorem c95_call {d : Deed T} (hd : d.Fits) (ht : d.takes = []) {c : Counter T} (hf : Fits c) :
    ∃ n ≤ d.gives.length, Fits (d.run c).2 ∧
      total (d.run c).2 % (usizeMax + 1) = (total c + amount (d.gives.take n)) % (usizeMax + 1) ∧
      (Cfg.overflowChecks = true → total (d.run c).2 = total c + amount (d.gives.take n)) ∧
      ((n = d.gives.length ∧ (d.run c).1 = if d.panics then .error .user else .ok ()) ∨
        (n < d.gives.length ∧ (d.run c).1 = .error .overflow ∧ Cfg.overflowChecks = true ∧
          ∃ e ∈ (d.run c).2.counter.entries, ∃ f, d.gives[n]? = some f ∧ usizeMax < e.2 + f.2)) := by
  rcases deed_cases hd hf with ⟨-, n, hn⟩ | ⟨hg, order, h, h2⟩
  · exact ⟨n, hn.le, hn.fits, hn.modulo, hn.exact, hn.result⟩
  · have ho : order = [] := by rw [ht] at h2; simpa using h2.symm
    subst ho
    have : d.run c = (if d.panics then .error .user else .ok (), c) := by
      rw [h]; show subAssign [] _ c = _; cases d.panics <;> rfl
    rw [this, hg]
    exact ⟨0, Nat.le_refl _, hf, rfl, fun _ => rfl, .inl ⟨rfl, rfl⟩⟩

/-- **C95**, histories. After any calls, panics of the user's code being caught, the counts sum up to at most what was
handed over to be counted, and to at least that minus what was handed over to be subtracted. Every stored item was
handed over, and no stored count is zero. -/
theorem c95_total (hc : Cfg.overflowChecks = true) : ∀ (ds : List (Deed T)), (∀ d ∈ ds, d.Fits) →
    ∀ {c : Counter T}, Fits c → (∀ r ∈ (runAll ds c).1, r ≠ .error .overflow) →
    total (runAll ds c).2 ≤ total c + amount (given ds) ∧
    total c + amount (given ds) ≤ total (runAll ds c).2 + (taken ds).sum ∧
    (∀ e ∈ (runAll ds c).2.counter.entries, e.1 ∈ c.counter.entries.map (·.1) ∨ e.1 ∈ (given ds).map (·.1)) ∧
    ((∀ e ∈ given ds, 0 < e.2) → (∀ e ∈ c.counter.entries, 0 < e.2) →
      ∀ e ∈ (runAll ds c).2.counter.entries, 0 < e.2 ∧ e.2 ≤ usizeMax) := by
  intro ds
  induction ds with
  | nil =>
    intro _ c hf _
    exact ⟨Nat.le_refl _, Nat.le_refl _, fun e he => .inl (List.mem_map_of_mem he),
      fun _ h e he => ⟨h e he, hf e he⟩⟩
  | cons d ds ih =>
    intro hd c hf hr
    have hdd := hd d List.mem_cons_self
    have hf1 := deed_fits hdd hf
    obtain ⟨g1, g2, g3, g4⟩ := ih (fun x hx => hd x (List.mem_cons_of_mem _ hx)) hf1
      fun r h => hr r (List.mem_cons_of_mem _ h)
    have hr0 : (d.run c).1 ≠ .error .overflow := hr _ List.mem_cons_self
    have hgiven : given (d :: ds) = d.gives ++ given ds := rfl
    have htaken : taken (d :: ds) = d.takes ++ taken ds := rfl
    have hrun : (runAll (d :: ds) c).2 = (runAll ds (d.run c).2).2 := rfl
    rw [hgiven, htaken, hrun, amount_append, List.sum_append]
    rcases deed_cases hdd hf with ⟨ht, n, hn⟩ | ⟨hg, order, h, h2⟩
    · have hall : n = d.gives.length := by
        rcases hn.result with h | h
        · exact h.1
        · exact absurd h.2.1 hr0
      have htake : d.gives.take n = d.gives := by rw [hall, List.take_length]
      have hsum := hn.exact hc
      have hkeys := hn.keys
      rw [htake] at hsum hkeys
      rw [ht, List.sum_nil]
      refine ⟨by omega, by omega, ?_, ?_⟩
      · intro e he
        rw [List.map_append, List.mem_append]
        rcases g3 e he with h | h
        · obtain ⟨f, k1, k2⟩ := List.mem_map.mp h
          rw [← k2]
          rcases hkeys f k1 with h | h
          · exact .inl h
          · exact .inr (.inl h)
        · exact .inr (.inr h)
      · intro hp hp0
        refine g4 (fun e he => hp e (List.mem_append_right _ he)) ?_
        exact hn.pos hc (fun e he => hp e (List.mem_append_left _ he)) hp0
    · have hs := subAssign_takes order d.panics hf
      have he : d.run c = subAssign order d.panics c := by conv => lhs; rw [h]
                                                           rfl
      rw [← he] at hs
      obtain ⟨s1, s2, s3, s4, s5, s6⟩ := hs
      rw [hg, h2]
      have h0 : amount ([] : List (T × Nat)) = 0 := rfl
      rw [h0]
      refine ⟨by omega, by omega, ?_, ?_⟩
      · intro e he
        rcases g3 e he with h | h
        · obtain ⟨f, k1, k2⟩ := List.mem_map.mp h
          obtain ⟨m, k3, -⟩ := s5 f k1
          left; rw [← k2]; exact List.mem_map.mpr ⟨_, k3, rfl⟩
        · exact .inr h
      · intro hp hp0
        exact g4 hp (s6 hp0)

/-- **C95**, histories without subtraction: in every build the sum of the counts is what was handed over, modulo the
size of `usize`. -/
theorem c95_modulo : ∀ (ds : List (Deed T)), (∀ d ∈ ds, d.Fits) → taken ds = [] → ∀ {c : Counter T}, Fits c →
    (∀ r ∈ (runAll ds c).1, r ≠ .error .overflow) →
    total (runAll ds c).2 % (usizeMax + 1) = (total c + amount (given ds)) % (usizeMax + 1) := by
  intro ds
  induction ds with
  | nil => intro _ _ c _ _; rfl
  | cons d ds ih =>
    intro hd ht c hf hr
    have hdd := hd d List.mem_cons_self
    have htt : d.takes ++ taken ds = [] := ht
    obtain ⟨ht1, ht2⟩ := List.append_eq_nil_iff.mp htt
    have g := ih (fun x hx => hd x (List.mem_cons_of_mem _ hx)) ht2 (deed_fits hdd hf)
      fun r h => hr r (List.mem_cons_of_mem _ h)
    obtain ⟨n, -, -, hm, -, hres⟩ := c95_call hdd ht1 hf
    have hr0 : (d.run c).1 ≠ .error .overflow := hr _ List.mem_cons_self
    have hall : n = d.gives.length := by
      rcases hres with h | h
      · exact h.1
      · exact absurd h.2.1 hr0
    rw [hall, List.take_length] at hm
    have hgiven : given (d :: ds) = d.gives ++ given ds := rfl
    have hrun : (runAll (d :: ds) c).2 = (runAll ds (d.run c).2).2 := rfl
    rw [hgiven, hrun, amount_append, g, Nat.add_mod, hm, ← Nat.add_mod, Nat.add_assoc]

/-- **C95**, results. Every call of every history either does what it is asked to do, or panics because the user's code
does, or reports an overflow in a build with checks. Subtracting never overflows. -/
theorem c95_no_other_panic : ∀ (ds : List (Deed T)), (∀ d ∈ ds, d.Fits) → ∀ {c : Counter T}, Fits c →
    Fits (runAll ds c).2 ∧ (runAll ds c).1.length = ds.length ∧
    ∀ (i : Nat) (d : Deed T) (r : Except Fault Unit), ds[i]? = some d → (runAll ds c).1[i]? = some r →
      (r = if d.panics then .error .user else .ok ()) ∨
      (r = .error .overflow ∧ Cfg.overflowChecks = true ∧ d.takes = []) := by
  intro ds
  induction ds with
  | nil => intro _ c hf; exact ⟨hf, rfl, fun i d r h => by simp at h⟩
  | cons d ds ih =>
    intro hd c hf
    have hdd := hd d List.mem_cons_self
    obtain ⟨g1, g2, g3⟩ := ih (fun x hx => hd x (List.mem_cons_of_mem _ hx)) (deed_fits hdd hf)
    refine ⟨g1, ?_, ?_⟩
    · show (_ :: (runAll ds (d.run c).2).1).length = _
      rw [List.length_cons, g2, List.length_cons]
    · intro i d' r h1 h2
      cases i with
      | succ i => exact g3 i d' r h1 h2
      | zero =>
        cases h1
        cases h2
        rcases deed_cases hdd hf with ⟨ht, n, hn⟩ | ⟨hg, order, h, h2⟩
        · rcases hn.result with ⟨-, h⟩ | ⟨-, h, hc, -⟩
          · exact .inl h
          · exact .inr ⟨h, hc, ht⟩
        · left
          have : d.run c = subAssign order d.panics c := by conv => lhs; rw [h]
                                                            rfl
          rw [this]
          exact (subAssign_takes order d.panics hf).1

theorem fits_empty : Fits (⟨⟨[]⟩⟩ : Counter T) := fun _ he => nomatch he

/-- **C95**, collecting. Counting an iterator counts every item: with checks it returns a counter whose counts sum up to
the number of items, unless that number exceeds `usize::MAX`; without checks the sum is right modulo the size of
`usize`. Only the iterator and the overflow check panic. -/
theorem c95_from_iter (items : List (T × Option Nat)) :
    (∀ c, fromIter items = .ok c → Fits c ∧
      total c % (usizeMax + 1) = items.length % (usizeMax + 1) ∧
      (Cfg.overflowChecks = true → total c = items.length ∧ (∀ e ∈ c.counter.entries, 0 < e.2)) ∧
      (∀ e ∈ c.counter.entries, e.1 ∈ items.map (·.1))) ∧
    (items.length ≤ usizeMax ∨ Cfg.overflowChecks = false → ∃ c, fromIter items = .ok c) ∧
    (∃ f, fromIter items true = .error f) ∧
    ∀ p f, fromIter items p = .error f →
      f = .user ∧ p = true ∨ f = .overflow ∧ Cfg.overflowChecks = true ∧ usizeMax < items.length := by
  have hlen : ∀ l : List (T × Option Nat), amount (l.map fun e => (e.1, 1)) = l.length := by
    intro l
    induction l with
    | nil => rfl
    | cons e l ih =>
      unfold amount at ih ⊢
      simp only [List.map_cons, List.sum_cons, List.length_cons] at ih ⊢; omega
  have main : ∀ p, ∃ n, Counts (items.map fun e => (e.1, 1)) p (⟨⟨[]⟩⟩ : Counter T)
      (extend items p ⟨⟨[]⟩⟩).1 (extend items p ⟨⟨[]⟩⟩).2 n := by
    intro p
    rcases deed_cases (d := .extend items p) (c := ⟨⟨[]⟩⟩) (by
      intro e he; obtain ⟨f, _, rfl⟩ := List.mem_map.mp he; exact one_le_usizeMax) fits_empty with ⟨-, h⟩ | ⟨-, o, h, -⟩
    · exact h
    · cases h
  have ht0 : total (⟨⟨[]⟩⟩ : Counter T) = 0 := rfl
  refine ⟨?_, ?_, ?_, ?_⟩
  · intro c hc
    obtain ⟨n, hn⟩ := main false
    unfold fromIter Counter.owned at hc
    generalize hq : extend items false (⟨⟨[]⟩⟩ : Counter T) = q at hc hn
    obtain ⟨r, c'⟩ := q
    cases r with
    | error e => cases hc
    | ok u =>
      cases hc
      have hall : n = (items.map fun e => (e.1, 1)).length := by
        rcases hn.result with h | h
        · exact h.1
        · cases h.2.1
      have htake : (items.map fun e => (e.1, 1)).take n = items.map fun e => (e.1, 1) := by
        rw [hall, List.take_length]
      have h1 := hn.modulo
      have h2 := hn.exact
      have h3 := hn.keys
      rw [htake, ht0, hlen, Nat.zero_add] at h1
      rw [htake, ht0, hlen, Nat.zero_add] at h2
      rw [htake] at h3
      refine ⟨hn.fits, h1, fun hc => ⟨h2 hc, hn.pos hc ?_ fun e he => nomatch he⟩, ?_⟩
      · intro e he; obtain ⟨f, _, rfl⟩ := List.mem_map.mp he; exact Nat.one_pos
      · intro e he
        rcases h3 e he with h | h
        · cases h
        · rw [List.map_map] at h; exact h
  · intro hcase
    obtain ⟨n, hn⟩ := main false
    unfold fromIter Counter.owned
    generalize hq : extend items false (⟨⟨[]⟩⟩ : Counter T) = q at hn
    obtain ⟨r, c'⟩ := q
    rcases hn.result with ⟨-, h⟩ | ⟨hlt, h, hc, e, he, f, hf, hov⟩
    · cases h; exact ⟨c', rfl⟩
    · exfalso
      rcases hcase with hle | hno
      · have hsum := hn.exact hc
        have h1 : amount ((items.map fun e => (e.1, 1)).take n) = n := by
          rw [← List.map_take, hlen, List.length_take]
          rw [List.length_map] at hlt
          omega
        rw [h1, ht0] at hsum
        simp only at hsum he
        have h2 : e.2 ≤ total c' := le_total he
        have h3 : f.2 = 1 := by
          obtain ⟨g, _, rfl⟩ := List.mem_map.mp (List.mem_of_getElem? hf); rfl
        rw [List.length_map] at hlt
        omega
      · rw [hno] at hc; cases hc
  · obtain ⟨n, hn⟩ := main true
    unfold fromIter Counter.owned
    generalize hq : extend items true (⟨⟨[]⟩⟩ : Counter T) = q at hn
    obtain ⟨r, c'⟩ := q
    rcases hn.result with ⟨-, h⟩ | ⟨-, h, -⟩ <;> cases h <;> exact ⟨_, rfl⟩
  · intro p f hp
    obtain ⟨n, hn⟩ := main p
    unfold fromIter Counter.owned at hp
    generalize hq : extend items p (⟨⟨[]⟩⟩ : Counter T) = q at hp hn
    obtain ⟨r, c'⟩ := q
    rcases hn.result with ⟨-, h⟩ | ⟨hlt, h, hc, e, he, g, hg, hov⟩
    · cases p with
      | true => cases h; cases hp; exact .inl ⟨rfl, rfl⟩
      | false => cases h; cases hp
    · cases h
      cases hp
      refine .inr ⟨rfl, hc, ?_⟩
      have hsum := hn.exact hc
      have h1 : amount ((items.map fun e => (e.1, 1)).take n) = n := by
        rw [← List.map_take, hlen, List.length_take]
        rw [List.length_map] at hlt
        omega
      rw [h1, ht0] at hsum
      simp only at hsum he
      have h2 : e.2 ≤ total c' := le_total he
      have h3 : g.2 = 1 := by
        obtain ⟨x, _, rfl⟩ := List.mem_map.mp (List.mem_of_getElem? hg); rfl
      rw [List.length_map] at hlt
      omega

/-- **C95**, reports. `most_common` and `into_most_common` list every entry exactly once, larger counts first, so the
numbers they list add up to the total. -/
theorem c95_most_common {c : Counter T} (hf : Fits c) {order : List (T × Nat)} (ho : IterOf order c)
    {sort : List (Nat × (T × Nat)) → List (Nat × (T × Nat))} (hs : SortByKey sort) :
    ∃ res, Counter.mostCommon sort order = .ok res ∧ Counter.intoMostCommon sort order = .ok res ∧
      res.Perm c.counter.entries ∧ (res.map (·.2)).sum = total c ∧ res.Pairwise (fun x y => y.2 ≤ x.2) := by
  classical
  have hle : ∀ e ∈ order, e.2 ≤ usizeMax := fun e he => hf e (ho.mem_iff.mp he)
  obtain ⟨hp, hsorted⟩ := hs (order.map fun e => (usizeMax - e.2, e))
  have hp2 : ((sort (order.map fun e => (usizeMax - e.2, e))).map (·.2)).Perm order := by
    refine (hp.map (·.2)).trans ?_
    rw [List.map_map]
    simp [Function.comp_def]
  refine ⟨(sort (order.map fun e => (usizeMax - e.2, e))).map (·.2), ?_, ?_, hp2.trans ho, ?_, ?_⟩
  · rw [mostCommon_eq, Counter.intoMostCommon, mapM_usub hle]; rfl
  · rw [Counter.intoMostCommon, mapM_usub hle]; rfl
  · exact ((hp2.trans ho).map (·.2)).sum_nat
  · rw [List.pairwise_map]
    refine hsorted.imp_of_mem fun {x y} hx hy hxy => ?_
    obtain ⟨e, he, rfl⟩ := List.mem_map.mp (hp.mem_iff.mp hx)
    obtain ⟨f, hf', rfl⟩ := List.mem_map.mp (hp.mem_iff.mp hy)
    have := hle e he
    have := hle f hf'
    simp only at hxy ⊢
    omega

/-- **C95**, the operators that return a new counter. `+` and `-` either return a counter with the sums of `c95_total`,
or they report an overflow in a build with checks; `-` always returns. -/
theorem c95_operators {order : List ((T × Nat) × Option Nat)} (hv : ∀ e ∈ order, e.1.2 ≤ usizeMax) {a : Counter T}
    (hf : Fits a) :
    ((∃ c, add order a = .ok c ∧ Fits c ∧
        total c % (usizeMax + 1) = (total a + amount (order.map (·.1))) % (usizeMax + 1) ∧
        (Cfg.overflowChecks = true → total c = total a + amount (order.map (·.1)))) ∨
      (add order a = .error .overflow ∧ Cfg.overflowChecks = true)) ∧
    ∃ c, sub order a = .ok c ∧ Fits c ∧ total c ≤ total a ∧ total a ≤ total c + amount (order.map (·.1)) := by
  constructor
  · obtain ⟨n, hn⟩ := addAssign_counts order false hf hv
    unfold add Counter.owned
    generalize hq : addAssign order false a = q at hn
    obtain ⟨r, c⟩ := q
    rcases hn.result with ⟨h, hr⟩ | ⟨-, hr, hc, -⟩
    · left
      have h1 := hn.modulo
      have h2 := hn.exact
      rw [h, List.take_length] at h1
      rw [h, List.take_length] at h2
      cases hr
      exact ⟨c, rfl, hn.fits, h1, h2⟩
    · right
      cases hr
      exact ⟨rfl, hc⟩
  · obtain ⟨h1, h2, h3, h4, -⟩ := subAssign_takes order false hf
    unfold sub Counter.owned
    generalize hq : subAssign order false a = q at h1 h2 h3 h4
    obtain ⟨r, c⟩ := q
    cases h1
    refine ⟨c, rfl, h2, h3, ?_⟩
    unfold amount
    rw [List.map_map]
    exact h4

end

section
variable {T : Type} [DecidableEq T] [Cfg]

/-- **C95**, with a proper `Hash` and `Eq`. The counters of the other properties are the special case in which the
lookups find what they should: for every call there are choices under which it behaves as there. -/
theorem c95_lawful_is_a_case (s : Counter T) (hv : Valid s) :
    (∀ x, ∃ c, push x c s = Counter.push x s) ∧
    (∀ xs p, ∃ items : List (T × Option Nat), items.map (·.1) = xs ∧ extend items p s = Counter.extend xs p s) ∧
    (∀ order p, ∃ o : List ((T × Nat) × Option Nat), o.map (·.1) = order ∧
      addAssign o p s = Counter.addAssign order p s) ∧
    (∀ order p, ∃ o : List ((T × Nat) × Option Nat), o.map (·.1) = order ∧
      subAssign o p s = Counter.subAssign order p s) := by
  refine ⟨?_, ?_, fun order p => addAssign_lawful order p s, ?_⟩
  · intro x
    obtain ⟨c, hc⟩ := entryAdd_lawful s.counter x 1
    exact ⟨c, by unfold push Counter.push; rw [hc]⟩
  · intro xs p
    obtain ⟨o, h1, h2⟩ := addAssign_lawful (ones xs) p s
    refine ⟨o.map fun e => (e.1.1, e.2), ?_, ?_⟩
    · have : (o.map (·.1)).map (·.1) = (ones xs).map (·.1) := by rw [h1]
      rw [List.map_map] at this ⊢
      refine Eq.trans this ?_
      unfold ones; rw [List.map_map]; simp [Function.comp_def]
    · rw [extend_eq, Cnt.extend_eq, ← Cnt.addAssign_eq, ← h2, List.map_map]
      congr 1
      have : ∀ e ∈ o, e.1.2 = 1 := by
        intro e he
        have : e.1 ∈ ones xs := h1 ▸ List.mem_map_of_mem he
        obtain ⟨x, _, h⟩ := List.mem_map.mp this
        rw [← h]
      refine Eq.trans (List.map_congr_left (g := id) ?_) (by rw [List.map_id])
      intro e he
      have := this e he
      obtain ⟨⟨k, n⟩, c⟩ := e
      cases this
      rfl
  · intro order p
    induction order generalizing s with
    | nil => exact ⟨[], rfl, rfl⟩
    | cons e order ih =>
      obtain ⟨c, hc⟩ := subStep_lawful s hv.1 e.1 e.2
      have hv' : Valid (Counter.subAssignStep e.1 e.2 s).2 := by
        obtain ⟨c', h1, h2, -⟩ := subAssignStep_ok hv e.1 e.2
        rw [h1]; exact h2
      obtain ⟨o, h1, h2⟩ := ih _ hv'
      refine ⟨(e, c) :: o, by rw [List.map_cons, h1], ?_⟩
      show (subStep c e.2 >>= fun _ => subAssign o p) s =
        (Counter.subAssignStep e.1 e.2 >>= fun _ => Counter.subAssign order p) s
      rw [M.bind_run, M.bind_run, hc]
      generalize Counter.subAssignStep e.1 e.2 s = q at h2
      obtain ⟨r, s'⟩ := q
      cases r with
      | error e => rfl
      | ok _ => exact h2

end

/-- **C95**, the exception. Turning a map into a counter stores the entries again one by one; with a wrong `Hash` or
`Eq` an entry may overwrite another one, and its count is lost. -/
theorem c95_conversion_loses : ∃ order : List ((Nat × Nat) × Option Nat),
    total (fromMap order) < amount (order.map (·.1)) :=
  ⟨[((1, 5), none), ((2, 7), some 0)], by decide⟩

/-- **C95**, the most a conversion can do. No count is invented, and none is lost when no lookup finds anything. -/
theorem c95_conversion {T : Type} (order : List ((T × Nat) × Option Nat)) :
    total (fromMap order) ≤ amount (order.map (·.1)) ∧
    (∀ e ∈ (fromMap order).counter.entries, e.1 ∈ order.map (·.1.1)) ∧
    ((∀ e ∈ order, e.2 = none) → total (fromMap order) = amount (order.map (·.1))) := by
  have main : ∀ (order : List ((T × Nat) × Option Nat)) (m : HMap T Nat),
      total ⟨order.foldl (fun m e => insert m e.1.1 e.2 e.1.2) m⟩ ≤ total ⟨m⟩ + amount (order.map (·.1)) ∧
      (∀ e ∈ (order.foldl (fun m e => insert m e.1.1 e.2 e.1.2) m).entries,
        e.1 ∈ m.entries.map (·.1) ∨ e.1 ∈ order.map (·.1.1)) ∧
      ((∀ e ∈ order, e.2 = none) →
        total ⟨order.foldl (fun m e => insert m e.1.1 e.2 e.1.2) m⟩ = total ⟨m⟩ + amount (order.map (·.1))) := by
    intro order
    induction order with
    | nil => intro m; exact ⟨Nat.le_refl _, fun e he => .inl (List.mem_map_of_mem he), fun _ => rfl⟩
    | cons e order ih =>
      intro m
      obtain ⟨⟨k, v⟩, c⟩ := e
      obtain ⟨h1, h2, h3⟩ := ih (insert m k c v)
      have ha : amount ((((k, v), c) :: order).map (·.1)) = v + amount (order.map (·.1)) := by
        unfold amount; simp only [List.map_cons, List.sum_cons]
      have one : total ⟨insert m k c v⟩ ≤ total ⟨m⟩ + v ∧ (c = none → total ⟨insert m k c v⟩ = total ⟨m⟩ + v) ∧
          ∀ f ∈ (insert m k c v).entries, f.1 ∈ m.entries.map (·.1) ∨ f.1 = k := by
        unfold insert
        cases hs : search c m with
        | none =>
          have : total ⟨⟨(k, v) :: m.entries⟩⟩ = total ⟨m⟩ + v := by
            unfold total; simp only [List.map_cons, List.sum_cons]; omega
          refine ⟨Nat.le_of_eq this, fun _ => this, ?_⟩
          intro f hf
          rcases List.mem_cons.mp hf with rfl | hf
          · exact .inr rfl
          · exact .inl (List.mem_map_of_mem hf)
        | some q =>
          obtain ⟨i, e⟩ := q
          have hi := search_some hs
          have hsum : total ⟨⟨m.entries.set i (e.1, v)⟩⟩ + e.2 = total ⟨m⟩ + v := sum_set hi _
          refine ⟨by simp only; omega, fun h => by subst h; simp [search] at hs, ?_⟩
          intro f hf
          rcases List.mem_or_eq_of_mem_set hf with h | rfl
          · exact .inl (List.mem_map_of_mem h)
          · exact .inl (List.mem_map.mpr ⟨e, List.mem_of_getElem? hi, rfl⟩)
      obtain ⟨o1, o2, o3⟩ := one
      rw [List.foldl_cons, ha]
      refine ⟨by simp only at h1 ⊢; omega, ?_, ?_⟩
      · intro f hf
        rcases h2 f hf with h | h
        · obtain ⟨g, g1, g2⟩ := List.mem_map.mp h
          rcases o3 g g1 with h | h
          · exact .inl (g2 ▸ h)
          · right; rw [List.map_cons, ← g2, h]; exact List.mem_cons_self
        · exact .inr (List.mem_cons_of_mem _ h)
      · intro hn
        have := h3 fun e he => hn e (List.mem_cons_of_mem _ he)
        have := o2 (hn _ List.mem_cons_self)
        simp only at *
        omega
  obtain ⟨h1, h2, h3⟩ := main order ⟨[]⟩
  have h0 : total (⟨⟨[]⟩⟩ : Counter T) = 0 := rfl
  rw [h0, Nat.zero_add] at h1
  rw [h0, Nat.zero_add] at h3
  refine ⟨h1, fun e he => ?_, h3⟩
  rcases h2 e he with h | h
  · cases h
  · exact h

namespace Demo

/-- a build with overflow checks -/
local instance checked : Cfg := ⟨64, true, true, by decide, by decide⟩

/-- Items such as floating point numbers behind a careless `Eq`: `none` (not a number) is not even equal to itself. The
first three pushes store it three times, then a lookup of `2` finds one of these by mistake, then a lookup of `none`
finds the entry of `1` and subtracts from it. -/
def deeds : List (Deed (Option Nat)) :=
  [.push none none, .push none none, .extend [(some 1, none), (none, none)] true, .add [((some 2, 5), some 2)] false,
    .sub [((none, 1), some 1), ((some 9, 3), some 7)] false]

example : (∀ d ∈ deeds, d.Fits) ∧ Fits (⟨⟨[]⟩⟩ : Counter (Option Nat)) ∧
    (∀ r ∈ (runAll deeds ⟨⟨[]⟩⟩).1, r ≠ .error .overflow) ∧ amount (given deeds) = 9 ∧ (taken deeds).sum = 4 ∧
    (runAll deeds ⟨⟨[]⟩⟩).1 = [.ok (), .ok (), .error .user, .ok (), .ok ()] ∧
    (runAll deeds ⟨⟨[]⟩⟩).2.counter.entries = [(none, 1), (none, 6), (none, 1)] ∧
    total (runAll deeds ⟨⟨[]⟩⟩).2 = 8 := by
  have hs : (runAll deeds ⟨⟨[]⟩⟩).1 = [.ok (), .ok (), .error .user, .ok (), .ok ()] := by rfl
  refine ⟨?_, fits_empty, ?_, by decide, by decide, hs, by rfl, by rfl⟩
  · unfold Deed.Fits deeds usizeMax Cfg.bits checked
    decide
  · rw [hs]; decide

/-- a call that stops at an overflow: the first item is counted, the second is not -/
example : (addAssign [((some 1, 4), none), ((some 2, 1), some 1)] false
      (⟨⟨[(none, usizeMax)]⟩⟩ : Counter (Option Nat))) =
    (.error .overflow, ⟨⟨[(some 1, 4), (none, usizeMax)]⟩⟩) := by rfl

end Demo
end Cnt.Wild
