import Verif.DS.LemmasCluster
import Verif.DS.Props
/-!
# C150: groups that are as far apart as possible
-/

open Rust
namespace DS

section
variable {T : Type} [DecidableEq T] [Cfg] {stack wanted : Nat} {points : List T} {pairs : List (T × T)}

/-- **C150 (groups).** The program returns: exactly as many groups as wanted, none of them empty, every point in exactly one
of them. -/
theorem c150_groups (hk : 64 ≤ stack) (small : points.dedup.length ≤ usizeMax) (o : Shuffle (T × Nat))
    (o' : Shuffle (Nat × List T)) (hp : ∀ p ∈ pairs, p.1 ∈ points ∧ p.2 ∈ points)
    (hall : ∀ p ∈ points, ∀ q ∈ points, p ≠ q → (p, q) ∈ pairs ∨ (q, p) ∈ pairs) (h1 : 1 ≤ wanted)
    (hw : wanted ≤ points.dedup.length) :
    ∃ gs, cluster stack wanted o.f o'.f points pairs = .ok gs ∧ Grouping points gs ∧ gs.length = wanted := by
  obtain ⟨gs, _, _, _, g1, g2, g3, _⟩ := cluster_ok hk small o o' hp hall h1 hw
  exact ⟨gs, g1, g2, g3⟩

/-- **C150 (far apart).** If the pairs come in the order of their distances, the groups are as far apart as possible: however
the points are put into as many groups, some two points in different groups of these are at most as far from each other as any
two points in different groups of the program. -/
theorem c150_far_apart {dist : T → T → Nat} (hsym : ∀ p q, dist p q = dist q p) (hk : 64 ≤ stack)
    (small : points.dedup.length ≤ usizeMax) (o : Shuffle (T × Nat))
    (o' : Shuffle (Nat × List T)) (hp : ∀ p ∈ pairs, p.1 ∈ points ∧ p.2 ∈ points)
    (hall : ∀ p ∈ points, ∀ q ∈ points, p ≠ q → (p, q) ∈ pairs ∨ (q, p) ∈ pairs)
    (hsort : pairs.Pairwise fun p q => dist p.1 p.2 ≤ dist q.1 q.2) (h2 : 2 ≤ wanted)
    (hw : wanted ≤ points.dedup.length) {gs hs : List (List T)}
    (hr : cluster stack wanted o.f o'.f points pairs = .ok gs) (hh : Grouping points hs) (hlen : hs.length = wanted) :
    ∃ p q, Separated hs p q ∧ ∀ p' q', Separated gs p' q' → dist p q ≤ dist p' q' := by
  obtain ⟨gs', pre, post, joined, g1, grp, glen, gsplit, gj, gpre, same⟩ := cluster_ok hk small o o' hp hall (by omega) hw
  rw [g1] at hr; cases hr
  -- united pairs are no longer than separated ones
  have short : ∀ e ∈ joined, ∀ p' q', Separated gs p' q' → dist e.1 e.2 ≤ dist p' q' := by
    intro e he p' q' hs'
    have pp := (grp.all _).mp hs'.1
    have pq := (grp.all _).mp hs'.2.1
    have hne : ¬ Conn joined p' q' := fun hc => hs'.2.2 ((same p' q').mpr ⟨pp, pq, hc⟩)
    rw [gsplit] at hsort hall
    have hle := (List.pairwise_append.mp hsort).2.2 e (gj e he)
    rcases hall p' pp q' pq (fun h => hne (h ▸ .refl _)) with h | h
    · rcases List.mem_append.mp h with h | h
      · exact absurd (gpre _ h) hne
      · exact hle _ h
    · rcases List.mem_append.mp h with h | h
      · exact absurd (.symm (gpre _ h)) hne
      · rw [hsym p' q']; exact hle _ h
  by_cases hc : ∀ e ∈ joined, ∃ g ∈ hs, e.1 ∈ g ∧ e.2 ∈ g
  · -- every group lies in one of the others
    have up : ∀ p q, Separated gs p q → Separated hs p q := fun p q =>
      separated_of_refines grp hh (by omega) fun g hg p hpg q hqg => by
        obtain ⟨px, _, hconn⟩ := (same p q).mp ⟨g, hg, hpg, hqg⟩
        rcases conn_together hh hc hconn with rfl | h
        · obtain ⟨h, m, x⟩ := List.mem_flatten.mp ((hh.all p).mpr px)
          exact ⟨h, m, x, x⟩
        · exact h
    have some : ∃ p q, Separated gs p q := by
      obtain ⟨x, hx⟩ := List.exists_mem_of_ne_nil _ (grp.nonempty (gs[0]'(by omega)) (List.getElem_mem _))
      obtain ⟨y, hy⟩ := List.exists_mem_of_ne_nil _ (grp.nonempty (gs[1]'(by omega)) (List.getElem_mem _))
      refine ⟨x, y, List.mem_flatten.mpr ⟨_, List.getElem_mem _, hx⟩, List.mem_flatten.mpr ⟨_, List.getElem_mem _, hy⟩, ?_⟩
      rintro ⟨g, m, xg, yg⟩
      obtain ⟨j, hj, rfl⟩ := List.getElem_of_mem m
      have a1 := grp.same hj (by omega) xg hx
      have a2 := grp.same hj (by omega) yg hy
      omega
    obtain ⟨p, q, h1, h3⟩ := closest dist some
    exact ⟨p, q, up p q h1, h3⟩
  · -- a united pair is separated by the others
    push Not at hc
    obtain ⟨e, he, hn⟩ := hc
    have hpe := hp e (by rw [gsplit]; exact List.mem_append_left _ (gj e he))
    refine ⟨e.1, e.2, ⟨(hh.all _).mpr hpe.1, (hh.all _).mpr hpe.2, ?_⟩, short e he⟩
    rintro ⟨g, m, x, y⟩
    exact hn g m x y

end

namespace Demo

/-- five points on a line: two close together, three close together -/
def spots : List Nat := [0, 2, 10, 11, 14]
/-- how far apart two spots are -/
def gap (p q : Nat) : Nat := (p - q) + (q - p)
/-- all pairs of spots, the closest first -/
def gaps : List (Nat × Nat) :=
  [(10, 11), (0, 2), (11, 14), (10, 14), (2, 10), (2, 11), (0, 10), (0, 11), (2, 14), (0, 14)]

end Demo

open Demo in
example : spots.dedup.length ≤ usizeMax ∧ (∀ p ∈ gaps, p.1 ∈ spots ∧ p.2 ∈ spots) ∧
    (∀ p ∈ spots, ∀ q ∈ spots, p ≠ q → (p, q) ∈ gaps ∨ (q, p) ∈ gaps) ∧
    (gaps.Pairwise fun p q => gap p.1 p.2 ≤ gap q.1 q.2) ∧ (∀ p q, gap p q = gap q p) ∧ 2 ≤ spots.dedup.length ∧
    (cluster 64 2 same.f same.f spots gaps).toOption = some [[2, 0], [14, 11, 10]] ∧
    Grouping spots [[0, 2, 10], [11, 14]] :=
  ⟨by decide +kernel, by decide, by decide, by decide, fun p q => Nat.add_comm _ _, by decide, by decide +kernel,
    ⟨by decide, by decide, fun x => by simp [spots]⟩⟩

end DS
