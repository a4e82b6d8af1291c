import Verif.Client.SpecRadix
import Verif.Client.LemmasBfs
import Mathlib.Data.List.Flatten
/-!
# Lemmas for C149
-/

open Rust CB
namespace Client

section
variable {α : Type}

/-- what one pass does to the items -/
def binned (d : α → Nat) (k : Nat) (items : List α) : List α := (List.range k).flatMap fun j => items.filter fun x => d x == j

theorem binned_filter {d : α → Nat} {k : Nat} {items : List α} {p : α → Bool} {v : Nat} (hp : ∀ x, p x = true → d x = v) (hv : v < k) :
    (binned d k items).filter p = items.filter p := by
  have h : ∀ m, ((List.range m).flatMap fun j => items.filter fun x => d x == j).filter p = if v < m then items.filter p else [] := by
    intro m
    induction m with
    | zero => simp
    | succ m ih =>
      rw [List.range_succ, List.flatMap_append, List.filter_append, ih]
      simp only [List.flatMap_cons, List.flatMap_nil, List.append_nil, List.filter_filter]
      by_cases hm : v = m
      · subst hm
        rw [if_neg (Nat.lt_irrefl _), if_pos (Nat.lt_succ_self _), List.nil_append]
        refine List.filter_congr fun x _ => ?_
        cases hx : p x with
        | false => rfl
        | true => simp [hp x hx]
      · have : (items.filter fun x => p x && d x == m) = [] := by
          rw [List.filter_eq_nil_iff]
          intro x _
          cases hx : p x with
          | false => simp
          | true => simp [hp x hx, hm]
        rw [this, List.append_nil]
        by_cases h1 : v < m
        · rw [if_pos h1, if_pos (by omega)]
        · rw [if_neg h1, if_neg (by omega)]
  rw [binned, h, if_pos hv]

theorem mem_binned {d : α → Nat} {k : Nat} {items : List α} {x : α} : x ∈ binned d k items ↔ x ∈ items ∧ d x < k := by
  simp only [binned, List.mem_flatMap, List.mem_range, List.mem_filter, beq_iff_eq]
  exact ⟨fun ⟨j, hj, hx, e⟩ => ⟨hx, e ▸ hj⟩, fun ⟨hx, hk⟩ => ⟨d x, hk, hx, rfl⟩⟩

theorem binned_perm {d : α → Nat} {k : Nat} {items : List α} (h : ∀ x ∈ items, d x < k) : (binned d k items).Perm items := by
  classical
  rw [List.perm_iff_count]
  intro a
  by_cases ha : d a < k
  · have := binned_filter (d := d) (k := k) (items := items) (p := fun x => x == a) (v := d a) (fun x hx => by
      rw [show x = a by simpa using hx]) ha
    rw [List.count_eq_length_filter, List.count_eq_length_filter, this]
  · rw [List.count_eq_zero_of_not_mem fun hm => ha (mem_binned.mp hm).2, List.count_eq_zero_of_not_mem fun hm => ha (h a hm)]

theorem binned_sorted {d : α → Nat} {k : Nat} {items : List α} {R : α → α → Prop} (h : items.Pairwise R) :
    (binned d k items).Pairwise fun x y => d x < d y ∨ d x = d y ∧ R x y := by
  rw [binned, List.pairwise_flatMap]
  refine ⟨fun j _ => ?_, ?_⟩
  · refine (h.filter _).imp_of_mem fun {x y} hx hy hr => .inr ⟨?_, hr⟩
    rw [List.mem_filter, beq_iff_eq] at hx hy
    rw [hx.2, hy.2]
  · refine List.pairwise_lt_range.imp fun {i j} hij x hx y hy => .inl ?_
    rw [List.mem_filter, beq_iff_eq] at hx hy
    rw [hx.2, hy.2]
    exact hij

/-- what all passes do -/
def sorted (k : Nat) : List (α → Nat) → List α → List α
  | [], items => items
  | d :: ds, items => sorted k ds (binned d k items)

theorem sorted_perm {k : Nat} (ds : List (α → Nat)) : ∀ {items : List α}, (∀ d ∈ ds, ∀ x ∈ items, d x < k) →
    (sorted k ds items).Perm items := by
  induction ds with
  | nil => exact fun _ => .refl _
  | cons d ds ih =>
    intro items h
    have hp := binned_perm (h d List.mem_cons_self)
    exact (ih fun e he x hx => h e (List.mem_cons_of_mem _ he) x (hp.mem_iff.mp hx)).trans hp

theorem sorted_filter {k : Nat} (ds : List (α → Nat)) : ∀ {items : List α} {p : α → Bool},
    (∀ d ∈ ds, ∃ v < k, ∀ x, p x = true → d x = v) → (sorted k ds items).filter p = items.filter p := by
  induction ds with
  | nil => exact fun _ => rfl
  | cons d ds ih =>
    intro items p h
    obtain ⟨v, hv, hp⟩ := h d List.mem_cons_self
    rw [sorted, ih fun e he => h e (List.mem_cons_of_mem _ he), binned_filter hp hv]

theorem sorted_sorted {k : Nat} (ds : List (α → Nat)) : ∀ {items : List α} {before : List (α → Nat)},
    items.Pairwise (ByDigits before) → (sorted k ds items).Pairwise (ByDigits (ds.reverse ++ before)) := by
  induction ds with
  | nil => exact fun h => h
  | cons d ds ih =>
    intro items before h
    have := ih (items := binned d k items) (before := d :: before) (binned_sorted h)
    simpa [sorted] using this

theorem byDigits_key {key : α → Nat} {b : Nat} (m : Nat) {x y : α} (h : ByDigits (digitsOf key b m).reverse x y) :
    key x % b ^ m ≤ key y % b ^ m := by
  induction m with
  | zero => simp [Nat.mod_one]
  | succ m ih =>
    rw [digitsOf, List.range_succ, List.map_append, List.reverse_append] at h
    have h : key x / b ^ m % b < key y / b ^ m % b ∨ key x / b ^ m % b = key y / b ^ m % b ∧
      ByDigits (digitsOf key b m).reverse x y := h
    rw [Nat.mod_pow_succ, Nat.mod_pow_succ]
    rcases h with h | ⟨e, h⟩
    · rcases Nat.eq_zero_or_pos (b ^ m) with h0 | h0
      · rw [h0] at h
        simp at h
      · have h1 := Nat.mod_lt (key x) h0
        have h2 := Nat.mul_le_mul_left (b ^ m) h
        rw [Nat.mul_succ] at h2
        have h3 := Nat.zero_le (key y % b ^ m)
        omega
    · have := ih h
      rw [e]
      omega

end

section
variable {α : Type} [Cfg] [Elem α] {n k : Nat}

/-- the bins hold these items, and nothing was overwritten -/
def Bins (n : Nat) (bins : List (St α)) (q : Nat → List α) : Prop :=
  ∀ i (h : i < bins.length), Rep bins[i].cb ⟨n, q i⟩ ∧ bins[i].dropped = []

theorem scatter_ok {digit : α → Nat} (items : List α) : ∀ {bins : List (St α)} {q : Nat → List α}, Bins n bins q →
    (∀ x ∈ items, digit x < bins.length) → (∀ j, (q j ++ items.filter fun x => digit x == j).length ≤ n) →
    ∃ bins', scatter digit items bins = (.ok (), bins') ∧ bins'.length = bins.length ∧
      Bins n bins' fun j => q j ++ items.filter fun x => digit x == j := by
  induction items with
  | nil => intro bins q h _ _; exact ⟨bins, rfl, rfl, by simpa using h⟩
  | cons x xs ih =>
    intro bins q h hd hn
    have hx := hd x List.mem_cons_self
    obtain ⟨h1, h2⟩ := h _ hx
    have hroom : (q (digit x)).length < n := by
      have := hn (digit x)
      rw [List.length_append, List.filter_cons_of_pos (by simp), List.length_cons] at this
      omega
    obtain ⟨cb, g1, g2⟩ := pushBack_room h1 hroom x
    have e : ∀ j, q j ++ (x :: xs).filter (fun y => digit y == j)
        = (if digit x = j then q j ++ [x] else q j) ++ xs.filter fun y => digit y == j := fun j => by
      by_cases hj : digit x = j
      · rw [List.filter_cons_of_pos (by simpa using hj), if_pos hj]; simp
      · rw [List.filter_cons_of_neg (by simpa using hj), if_neg hj]
    obtain ⟨bins', k1, k2, k3⟩ := ih (bins := bins.set (digit x) ⟨cb, bins[digit x].dropped⟩)
      (q := fun j => if digit x = j then q j ++ [x] else q j) (fun i hi => by
        rw [List.length_set] at hi
        rw [List.getElem_set]
        by_cases hj : digit x = i
        · subst hj
          rw [if_pos rfl]
          dsimp only
          rw [if_pos rfl]
          exact ⟨g2, h2⟩
        · rw [if_neg hj]
          dsimp only
          rw [if_neg hj]
          exact h i hi)
      (fun y hy => by rw [List.length_set]; exact hd y (List.mem_cons_of_mem _ hy)) (fun j => by rw [← e]; exact hn j)
    refine ⟨bins', ?_, by rw [k2, List.length_set], by simpa only [e] using k3⟩
    have hget : (M.get : M (List (St α)) _) bins = (.ok bins, bins) := rfl
    unfold scatter
    rw [M.bind_ok hget, List.getElem?_eq_getElem hx]
    dsimp only
    rw [g1]
    dsimp only
    rw [M.bind_ok (show (M.modify fun bins => bins.set (digit x) ⟨cb, _⟩ : M (List (St α)) Unit) bins = _ from rfl)]
    rw [M.bind_ok (show (M.lift (.ok ()) : M (List (St α)) Unit) _ = _ from rfl)]
    exact k1

theorem takeOut_ok (l : List α) : ∀ {s : St α}, Rep s.cb ⟨n, l⟩ →
    ∃ cb, takeOut l.length s = (.ok l, ⟨cb, s.dropped⟩) ∧ Rep cb ⟨n, []⟩ := by
  induction l with
  | nil => intro s h; exact ⟨s.cb, rfl, h⟩
  | cons x l ih =>
    intro s h
    obtain ⟨cb, h1, h2⟩ := popFront_sim h
    obtain ⟨cb', g1, g2⟩ := ih (s := ⟨cb, s.dropped⟩) h2
    refine ⟨cb', ?_, g2⟩
    rw [List.length_cons, takeOut, M.bind_ok h1, M.bind_ok g1]
    rfl

theorem emptyBin_ok {l : List α} {s : St α} (h : Rep s.cb ⟨n, l⟩) :
    ∃ cb, emptyBin s = (.ok l, ⟨cb, s.dropped⟩) ∧ Rep cb ⟨n, []⟩ := by
  obtain ⟨cb, h1, h2⟩ := takeOut_ok l h
  exact ⟨cb, by rw [emptyBin, self_bind _ _ h.len_eq, h1], h2⟩

theorem collect_ok (bins : List (St α)) : ∀ {q : Nat → List α}, Bins n bins q →
    ∃ bins', collect bins = (.ok ((List.range bins.length).flatMap q), bins') ∧ bins'.length = bins.length ∧
      Bins n bins' fun _ => [] := by
  induction bins with
  | nil => intro q _; exact ⟨[], rfl, rfl, fun i hi => by simp at hi⟩
  | cons b bs ih =>
    intro q h
    obtain ⟨h1, h2⟩ := h 0 (by simp)
    obtain ⟨cb, g1, g2⟩ := emptyBin_ok (s := b) h1
    obtain ⟨bs', k1, k2, k3⟩ := ih (q := fun i => q (i + 1)) fun i hi => h (i + 1) (by simpa using hi)
    refine ⟨⟨cb, b.dropped⟩ :: bs', ?_, by simp [k2], fun i hi => ?_⟩
    · rw [collect, g1]
      dsimp only
      rw [k1]
      dsimp only
      rw [List.length_cons, List.range_succ_eq_map, List.flatMap_cons, List.flatMap_map]
    · cases i with
      | zero => exact ⟨g2, h2⟩
      | succ i => exact k3 i (by simpa using hi)

theorem passes_ok (ds : List (α → Nat)) : ∀ {items : List α} {bins : List (St α)}, bins.length = k → (Bins n bins fun _ => []) →
    (∀ d ∈ ds, ∀ x ∈ items, d x < k) → (∀ d ∈ ds, ∀ j, (items.filter fun x => d x == j).length ≤ n) →
    ∃ bins', passes ds items bins = (.ok (sorted k ds items), bins') ∧ bins'.length = k ∧ Bins n bins' fun _ => [] := by
  induction ds with
  | nil => intro items bins hk h _ _; exact ⟨bins, rfl, hk, h⟩
  | cons d ds ih =>
    intro items bins hk h hd hn
    obtain ⟨b1, h1, h2, h3⟩ := scatter_ok (digit := d) items h (fun x hx => by rw [hk]; exact hd d List.mem_cons_self x hx)
      (by simpa using hn d List.mem_cons_self)
    obtain ⟨b2, g1, g2, g3⟩ := collect_ok b1 h3
    have e : (List.range b1.length).flatMap (fun j => [] ++ items.filter fun x => d x == j) = binned d k items := by
      rw [h2, hk]; rfl
    rw [e] at g1
    have hp := binned_perm (hd d List.mem_cons_self)
    obtain ⟨b3, k1, k2, k3⟩ := ih (items := binned d k items) (by rw [g2, h2, hk]) g3
      (fun e he x hx => hd e (List.mem_cons_of_mem _ he) x (hp.mem_iff.mp hx))
      (fun e he j => by rw [(hp.filter _).length_eq]; exact hn e (List.mem_cons_of_mem _ he) j)
    refine ⟨b3, ?_, k2, k3⟩
    rw [passes, M.bind_ok h1, M.bind_ok (show (collect : M (List (St α)) (List α)) b1 = _ from g1), k1]
    rfl

theorem makeBins_ok (hu : Elem.uninitOk α = true) (hn : n ≤ isizeMax) (hs : (n + 1) * Elem.size α ≤ isizeMax) (k : Nat) :
    ∃ bins : List (St α), makeBins n k = .ok bins ∧ bins.length = k ∧ Bins n bins fun _ => [] := by
  obtain ⟨cb, e, hr⟩ := withCapacity_rep hu hn hs
  induction k with
  | zero => exact ⟨[], rfl, rfl, fun i hi => by simp at hi⟩
  | succ k ih =>
    obtain ⟨bins, h1, h2, h3⟩ := ih
    refine ⟨⟨cb, []⟩ :: bins, ?_, by simp [h2], fun i hi => ?_⟩
    · rw [makeBins, e, h1]; rfl
    · cases i with
      | zero => exact ⟨hr, rfl⟩
      | succ i => exact h3 i (by simpa using hi)

end
end Client
