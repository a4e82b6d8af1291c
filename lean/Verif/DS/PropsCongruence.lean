import Verif.DS.LemmasCongruence
import Verif.DS.Props
/-!
# C151: which equations between terms follow
-/

open Rust
namespace DS

section
variable {V : Type} [DecidableEq V] [Cfg] {stack : Nat} {names : List V} {rows : List (Appl V)} {equal : List (V × V)}

/-- **C151.** The program returns, and then `in_union` tells of any two names whether they are equal in every world in which
the table and the equations are right. -/
theorem c151_follows (hk : 64 ≤ stack) (small : names.dedup.length ≤ usizeMax)
    (hrows : ∀ r ∈ rows, r.fn ∈ names ∧ r.arg ∈ names ∧ r.res ∈ names)
    (hequal : ∀ e ∈ equal, e.1 ∈ names ∧ e.2 ∈ names) :
    ∃ s, closeUp stack names rows equal DSet.new = (.ok (), s) ∧
      ∀ x ∈ names, ∀ y ∈ names, ∃ b, (DSet.inUnion stack x y false false s).1 = .ok b ∧
        (b = true ↔ Follows rows equal x y) := by
  obtain ⟨s, a, g1, g2, g3⟩ := closeUp_ok hk small hrows hequal
  refine ⟨s, g1, fun x hx y hy => ?_⟩
  obtain ⟨b, s', h1, _, h2⟩ := g2.ask hk small hx hy
  refine ⟨b, by rw [h1], h2.trans ⟨fun hc D app val v1 v2 => ?_, fun hf => ?_⟩⟩
  · exact conn_val (fun p hp => g2.sound p hp D app val v1 v2) hc
  · exact g3.complete (fun e he => .step (g2.has e he)) hf

/-- **C151 (one world for all).** There is a single world in which the table and the equations are right and in which two
names are equal only if `in_union` says so. -/
theorem c151_one_world (hk : 64 ≤ stack) (small : names.dedup.length ≤ usizeMax)
    (hrows : ∀ r ∈ rows, r.fn ∈ names ∧ r.arg ∈ names ∧ r.res ∈ names)
    (hequal : ∀ e ∈ equal, e.1 ∈ names ∧ e.2 ∈ names) {s : DSet V}
    (hr : closeUp stack names rows equal DSet.new = (.ok (), s)) :
    ∃ (D : Type) (app : D → D → D) (val : V → D), (∀ r ∈ rows, app (val r.fn) (val r.arg) = val r.res) ∧
      (∀ e ∈ equal, val e.1 = val e.2) ∧
      ∀ x ∈ names, ∀ y ∈ names, ((DSet.inUnion stack x y false false s).1 = .ok true ↔ val x = val y) := by
  obtain ⟨s, a, g1, g2, g3⟩ := closeUp_ok hk small hrows hequal
  rw [g1] at hr; cases hr
  obtain ⟨D, app, val, v1, v2, v3⟩ := g3.world (fun e he => .step (g2.has e he))
  refine ⟨D, app, val, v1, v2, fun x hx y hy => ?_⟩
  obtain ⟨b, s', h1, _, h2⟩ := g2.ask hk small hx hy
  rw [h1]
  have : ((.ok b : Except Fault Bool) = .ok true) ↔ b = true := by simp
  rw [this, h2]
  exact ⟨conn_val fun p hp => g2.sound p hp D app val v1 v2, v3 x y⟩

end

namespace Demo

/-- names: 0 is `f`, 1 is `a`, and `n + 1` is `f` applied to `n` -/
def towers : List Nat := [0, 1, 2, 3, 4, 5, 6]
/-- `f a`, `f (f a)`, … -/
def towerRows : List (Appl Nat) := [⟨0, 1, 2⟩, ⟨0, 2, 3⟩, ⟨0, 3, 4⟩, ⟨0, 4, 5⟩, ⟨0, 5, 6⟩]

end Demo

/- If applying `f` five times to `a` gives `a`, and so does applying it three times, then `f a = a`. -/
open Demo in
example : towers.dedup.length ≤ usizeMax ∧
    (∀ r ∈ towerRows, r.fn ∈ towers ∧ r.arg ∈ towers ∧ r.res ∈ towers) ∧
    (∀ e ∈ [(6, 1), (4, 1)], e.1 ∈ towers ∧ e.2 ∈ towers) ∧
    ((do closeUp 64 towers towerRows [(6, 1), (4, 1)]; DSet.inUnion 64 2 1 false false : M (DSet Nat) Bool)
      DSet.new).1.toOption = some true :=
  ⟨by decide +kernel, by decide, by decide, by decide +kernel⟩
open Demo in
example : ((do closeUp 64 towers towerRows [(6, 2), (4, 2)]; DSet.inUnion 64 2 1 false false : M (DSet Nat) Bool)
      DSet.new).1.toOption = some false := by decide +kernel

end DS
