import Verif.DS.ModelPretty
import Verif.DS.PropsDebug
/-!
# C102 for disjoint sets
-/

open Rust Rust.Fmt
namespace DS

theorem pretty_data : Code Data.pretty :=
  (pretty_struct2 (f := "parent") (g := "rank") code_nat code_nat (n := "Data") (by decide)).comp
    (f := fun x : Data => (x.parent, x.rank)) fun x y hxy => by cases x; cases y; simpa using hxy

section
variable {T : Type} [DecidableEq T] [Cfg]

/-- C102: if the `{:#?}` texts of the elements can be told apart, disjoint sets with the same `{:#?}` text have the same
elements with the same numbers and the same parents and ranks, and answer every later history of calls alike. If the `{:?}`
texts of the elements can be told apart too, the two forms agree on what is the same. -/
theorem c102_disjoint_set {d : T → List Char} (hd : Code d) {k : Nat} {st st' : Start T} {ops ops' : List (Op T)}
    {s s' : DSet T} {a a' : Abs T} (h : Reached k st ops s a) (h' : Reached k st' ops' s' a') {o o' : List (T × Nat)}
    (ho : o.Perm s.ids.entries) (ho' : o'.Perm s'.ids.entries) :
    (s.pretty d o = s'.pretty d o' →
      o = o' ∧ (∀ x, s.ids.get x = s'.ids.get x) ∧ s.dataById = s'.dataById ∧
      ∀ later : List (Op T), (∀ pre, pre <+: later → (a.run pre).card ≤ usizeMax) →
        List.Forall₂ Alike (run k later s).1 (run k later s').1) ∧
    ∀ e : T → List Char, Code e → (s.pretty d o = s'.pretty d o' ↔ s.debug e o = s'.debug e o') := by
  have key : s.pretty d o = s'.pretty d o' → o = o' ∧ s.dataById = s'.dataById := by
    intro he
    have h1 : (o, s.dataById) = (o', s'.dataById) :=
      (pretty_struct2 (f := "ids") (g := "data_by_id") (pretty_map hd code_nat) (pretty_list pretty_data)
        (n := "DisjointSet") (by decide)).injective he
    rwa [Prod.mk.injEq] at h1
  refine ⟨fun he => ?_, fun e hc => ⟨fun hp => ?_, fun hp => ?_⟩⟩
  · obtain ⟨h1, h2⟩ := key he
    exact c98_disjoint_set hd h h' ho ho' (by rw [DSet.debug, DSet.debug, h1, h2])
  · obtain ⟨h1, h2⟩ := key hp
    rw [DSet.debug, DSet.debug, h1, h2]
  · obtain ⟨h1, _, h2, _⟩ := c98_disjoint_set hc h h' ho ho' hp
    rw [DSet.pretty, DSet.pretty, h1, h2]

end

open Demo in
example : Code debugNat ∧ Reached 64 (.fromIter [7, 3]) demoOps demoEnd (Start.abs (.fromIter [7, 3]) |>.run demoOps) ∧
    demoStart.pretty debugNat [(7, 0), (3, 1)] = ("DisjointSet {\n    ids: {\n        7: 0,\n        3: 1,\n    },\n" ++
      "    data_by_id: [\n        Data {\n            parent: 0,\n            rank: 0,\n        },\n" ++
      "        Data {\n            parent: 1,\n            rank: 0,\n        },\n    ],\n}").toList ∧
    DSet.pretty debugNat [] ⟨⟨[]⟩, []⟩ = "DisjointSet {\n    ids: {},\n    data_by_id: [],\n}".toList :=
  ⟨code_nat, demo_reached, by decide +kernel, by decide +kernel⟩

end DS
