import Verif.CB.Place
import Verif.CB.Props
/-!
# Property theorems C74 and C75: elements stay in place; construction from a panicking iterator

`Buf.internalIndex i` is the slot that `&cb[i]` and `&mut cb[i]` refer to: the address of element `i` is the
base of the backing slice plus that many elements.
-/

set_option linter.unusedSectionVars false

open Rust
namespace CB
open Spec (Deque)

section
variable {α : Type} [Cfg] [Elem α] {cb : Buf α} {xs ys : List α} {n : Nat}

/-! ## C74 -/

/-- C74: whatever is in the buffer after a series of calls and was not put there by them lies at the
address it had before. -/
theorem c74_elements_stay_in_place (h : Reachable cb) (hx : cb.contents = .ok xs) (ops : List (Op α))
    (hops : ∀ op ∈ ops, OpOk op) (hstill : ∀ op ∈ ops, Still op) (dr : List α)
    (hy : (run ops ⟨cb, dr⟩).2.cb.contents = .ok ys) {j : Nat} {x : α} (hj : ys[j]? = some x)
    (hnew : ∀ op ∈ ops, ¬ Gives op x) :
    ∃ i slot, xs[i]? = some x ∧ cb.internalIndex i = .ok slot ∧
      (run ops ⟨cb, dr⟩).2.cb.internalIndex j = .ok slot := by
  obtain ⟨xs', n, hx', hn, hl, r⟩ := h.shows
  rw [hx] at hx'; cases hx'
  obtain ⟨cb', e', r'⟩ := run_sim ops (s := ⟨cb, dr⟩) r hops
  have hw := run_writes ops hstill ⟨cb, dr⟩
  have hr := h.run ops hops dr
  rw [e'] at hw hr hy ⊢
  rw [r'.contents_eq] at hy
  cases hy
  obtain ⟨hlt, hjx⟩ := List.getElem?_eq_some_iff.mp hj
  have hc := r'.cell hlt
  rw [hjx] at hc
  rcases hw.cells (wrap ((Spec.run ops ⟨n, xs⟩).2.1.cap + 1) (cb'.start + j)) with e | e | ⟨v, ⟨op, ho, hv⟩, e⟩
  · rw [hc] at e
    obtain ⟨i, hi, hs⟩ := r.slot_of (h.cap_lt r) e.symm
    exact ⟨i, _, hi, hs, r'.internalIndex_ok (hr.cap_lt r') hlt⟩
  · rw [hc] at e; cases e
  · rw [hc] at e; cases e; exact absurd hv (hnew op ho)

/-- C74: a push changes at most two slots of the backing slice, a pop one, and so on; from any state and also
if the call panics. -/
theorem c74_few_slots (op : Op α) {n : Nat} (hn : slotBudget op = some n) (s : St α) :
    ∃ K : List Nat, K.length ≤ n ∧ ∀ k, k ∉ K → (step op s).2.cb.buf[k]? = s.cb.buf[k]? := step_touches op hn s

end

open Demo in
example : Reachable Demo.buf ∧ Demo.buf.contents = .ok [3, 4, 5] ∧
    (run [.popFront, .pushBack 8, .pushBack 9] ⟨Demo.buf, []⟩).2.cb.contents = .ok [5, 8, 9] ∧
    (∀ op ∈ [Op.popFront, .pushBack 8, .pushBack 9], Still op ∧ OpOk op ∧ ¬ Gives op 5) ∧
    slotBudget (Op.pushBack 8) = some 2 := by
  refine ⟨Demo.buf_reachable, rfl, rfl, ?_, rfl⟩
  intro op h
  simp only [List.mem_cons, List.not_mem_nil, or_false] at h
  rcases h with rfl | rfl | rfl <;> exact ⟨trivial, trivial, by simp [Gives]⟩

/-! ## C75 -/

/-- C75 is false of the code: `from_iter` over an iterator that panics after yielding items neither returns
nor drops them; the same when a `clone` panics. -/
theorem c75_from_iter_leaks : ∃ (_ : Cfg) (_ : Elem Nat) (items : List Nat) (c : Nat → Except Fault Nat),
    items ≠ [] ∧ fromIterLog items true [] = (.error .user, []) ∧
    fromIterRefLog c (items ++ [0]) [] = (.error .user, []) ∧ clonesMade c (items ++ [0]) = items :=
  ⟨Demo.demoCfg, Demo.demoElem, [7, 8], fun n => if n = 0 then .error .user else .ok n, by decide,
    rfl, rfl, rfl⟩

section
variable {α : Type} [Cfg] [Elem α]

/-- C75, partial: if `from_iter` succeeds, every item is in the buffer and none was dropped; if it fails,
nothing is dropped at all, so no item is dropped twice. Missing: the drop of the items consumed before the
panic, which `c75_from_iter_leaks` shows not to happen. -/
theorem c75_from_iter_partial (items log : List α) (panics : Bool) (c : α → Except Fault α) :
    (fromIterLog items panics log).2 = log ∧ (fromIterRefLog c items log).2 = log ∧
    (items.length ≤ isizeMax → ∀ cb, (fromIterLog items panics log).1 = .ok cb →
      panics = false ∧ cb.contents = .ok items) ∧
    (items.length ≤ isizeMax → ∀ cb, (fromIterRefLog c items log).1 = .ok cb →
      cb.contents = .ok (clonesMade c items) ∧ (clonesMade c items).length = items.length) := by
  have hmap : ∀ (items xs : List α), items.mapM c = .ok xs → clonesMade c items = xs ∧ xs.length = items.length := by
    intro items
    induction items with
    | nil => intro xs h; cases h; exact ⟨rfl, rfl⟩
    | cons x items ih =>
      intro xs h
      rw [List.mapM_cons] at h
      unfold clonesMade
      cases hc : c x with
      | error e => rw [hc] at h; cases h
      | ok y =>
        rw [hc] at h
        cases hm : items.mapM c with
        | error e => rw [hm] at h; cases h
        | ok ys =>
          rw [hm] at h; cases h
          obtain ⟨h1, h2⟩ := ih ys hm
          simp [h1, h2]
  rw [fromIterLog_eq, fromIterRefLog_eq]
  refine ⟨rfl, rfl, fun hn cb h => ?_, fun hn cb h => ?_⟩
  · cases panics with
    | false => exact ⟨rfl, (fromIter_ok (Or.inl hn) h).contents_eq⟩
    | true =>
      simp only [fromIter] at h
      cases ha : allocCheck α items.length <;> rw [ha] at h <;> cases h
  · obtain ⟨xs, hxs, r⟩ := fromIterRef_ok (Or.inl hn) h
    obtain ⟨h1, h2⟩ := hmap items xs hxs
    rw [h1]
    exact ⟨r.contents_eq, h2⟩

end

open Demo in
example : [7, 8].length ≤ isizeMax ∧
    ∃ cb : Buf Nat, (fromIterLog [7, 8] false []).1 = .ok cb ∧ cb.contents = .ok [7, 8] :=
  ⟨by decide, ⟨[some 7, some 8, none], 0, 2⟩, rfl, rfl⟩

end CB
