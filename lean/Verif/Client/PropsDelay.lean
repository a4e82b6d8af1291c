import Verif.Client.LemmasDelay
/-!
# C155: delay lines and running sums
-/

open Rust CB
namespace Client

section
variable {α : Type} [Cfg] [Elem α] [AddCommGroup α] {m n : Nat}

/-- **C155 (delay).** Nothing panics and nothing is overwritten; at each time what comes out is what went in `n` steps before, and 0
before there was anything. -/
theorem c155_delay (hu : Elem.uninitOk α = true) (hpos : 0 < n) (hn : n ≤ isizeMax) (hs : (n + 1) * Elem.size α ≤ isizeMax)
    (xs : List α) :
    ∃ ys s, delayed n xs = .ok (ys, s) ∧ s.st.dropped = [] ∧ ys.length = xs.length ∧
      (∀ i (hi : i < ys.length), i < n → ys[i].1 = 0) ∧
      ∀ i (hi : n + i < ys.length) (hx : i < xs.length), ys[n + i].1 = xs[i] := by
  obtain ⟨ys, s, h1, h2, _, h3, _⟩ := delayed_ok hu hpos hn hs xs
  have hl : ys.length = xs.length := by
    have := congrArg List.length h3
    simpa using this
  have get : ∀ i (hi : i < ys.length), some ys[i].1 = (List.replicate n 0 ++ xs)[i]? := fun i hi => by
    have := congrArg (·[i]?) h3
    simp only [List.getElem?_map, List.getElem?_eq_getElem hi, Option.map_some] at this
    rw [this, List.getElem?_take_of_lt (by omega)]
  refine ⟨ys, s, h1, h2, hl, fun i hi hin => ?_, fun i hi hx => ?_⟩
  · have := get i hi
    rw [List.getElem?_append_left (by simpa using hin)] at this
    simpa [hin] using this
  · have := get (n + i) hi
    rw [List.getElem?_append_right (by simp)] at this
    simpa [hx] using this

/-- **C155 (sum).** However long the signal, the sum does not drift: at each time it is the sum of the latest `n` values. -/
theorem c155_sum (hu : Elem.uninitOk α = true) (hpos : 0 < n) (hn : n ≤ isizeMax) (hs : (n + 1) * Elem.size α ≤ isizeMax)
    {xs : List α} {ys : List (α × α)} {s : DelayLine α} (h : delayed n xs = .ok (ys, s)) (i : Nat) (hi : i < ys.length) :
    ys[i].2 = (lastN n (xs.take (i + 1))).sum := by
  obtain ⟨ys, s, h1, _, _, h3, h4⟩ := delayed_ok hu hpos hn hs xs
  rw [h1] at h; cases h
  have hl : ys.length = xs.length := by
    have := congrArg List.length h3
    simpa using this
  rw [h4 i hi]
  have hlen : (xs.take (i + 1)).length = i + 1 := by rw [List.length_take]; omega
  rw [lastN, hlen, List.drop_append, List.drop_replicate, List.length_replicate]
  rw [List.take_append, List.sum_append, List.length_replicate, List.drop_take]
  have z : ((List.replicate (n - (i + 1)) (0 : α)).take n).sum = 0 := by
    rw [List.take_replicate]; simp
  rw [z, zero_add]
  congr 2
  omega

/-- **C155 (series).** Two lines one after the other delay like a line of their total length. -/
theorem c155_series (hu : Elem.uninitOk α = true) (hm : 0 < m) (hn : 0 < n) (hmn : m + n ≤ isizeMax)
    (hs : (m + n + 1) * Elem.size α ≤ isizeMax) (xs : List α) :
    ∃ ys s zs s' zs' s'', delayed m xs = .ok (ys, s) ∧ delayed n (ys.map Prod.fst) = .ok (zs, s') ∧
      delayed (m + n) xs = .ok (zs', s'') ∧ zs.map Prod.fst = zs'.map Prod.fst := by
  have hs1 : (m + 1) * Elem.size α ≤ isizeMax := le_trans (Nat.mul_le_mul_right _ (by omega)) hs
  have hs2 : (n + 1) * Elem.size α ≤ isizeMax := le_trans (Nat.mul_le_mul_right _ (by omega)) hs
  obtain ⟨ys, s, h1, _, _, h2, _⟩ := delayed_ok hu hm (by omega) hs1 xs
  obtain ⟨zs, s', g1, _, _, g2, _⟩ := delayed_ok hu hn (by omega) hs2 (ys.map Prod.fst)
  obtain ⟨zs', s'', k1, _, _, k2, _⟩ := delayed_ok hu (n := m + n) (by omega) hmn hs xs
  refine ⟨ys, s, zs, s', zs', s'', h1, g1, k1, ?_⟩
  rw [g2, k2, h2]
  have hlen : ((List.replicate m (0 : α) ++ xs).take xs.length).length = xs.length := by simp
  rw [hlen, Nat.add_comm m n, List.replicate_add, List.append_assoc, List.take_append, List.take_append (l₁ := List.replicate n 0),
    List.take_take, List.length_replicate]
  congr 2
  omega

end

namespace DelayDemo
/-- `i64` -/
local instance int : Elem Int := ⟨8, fun _ => false, true⟩

open CB.Demo in
example : Elem.uninitOk Int = true ∧ 2 ≤ isizeMax ∧ (2 + 1 + 1) * Elem.size Int ≤ isizeMax ∧
    (delayed 2 [5, 7, -1, 4]).toOption.map (·.1) = some [((0 : Int), (5 : Int)), (0, 12), (5, 6), (7, 3)] ∧
    (delayed 3 [5, 7, -1, 4]).toOption.map (·.1) = some [((0 : Int), (5 : Int)), (0, 12), (0, 11), (5, 10)] :=
  ⟨rfl, by decide, by decide, by decide +kernel, by decide +kernel⟩

end DelayDemo

end Client
