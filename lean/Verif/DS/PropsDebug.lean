import Verif.DS.ModelDebug
import Verif.DS.PropsAlike
/-!
# C98 for disjoint sets
-/

open Rust Rust.Fmt
namespace DS

theorem code_data : Code Data.debug :=
  (code_struct2 (f := "parent") (g := "rank") code_nat code_nat (n := "Data") (by decide)).comp
    (f := fun x : Data => (x.parent, x.rank)) fun x y hxy => by cases x; cases y; simpa using hxy

section
variable {T : Type} [DecidableEq T] [Cfg]

theorem inUnion_run (k : Nat) (x y : T) (s : DSet T) : (DSet.inUnion k x y false false s).1 =
    match s.ids.get x with
    | none => .ok false
    | some i =>
      match s.ids.get y with
      | none => .ok false
      | some j =>
        match find k i s.dataById with
        | (.error f, _) => .error f
        | (.ok u, d) =>
          match (find k j d).1 with
          | .error f => .error f
          | .ok v => .ok (decide (u = v)) := by
  have hl : ∀ z, DSet.lookup z false s = (.ok (s.ids.get z), s) := fun _ => rfl
  rw [DSet.inUnion, M.bind_run, hl x]
  cases hx : s.ids.get x with
  | none => rfl
  | some i =>
    simp only []
    rw [M.bind_run, hl y]
    cases hy : s.ids.get y with
    | none => rfl
    | some j =>
      simp only []
      rw [M.bind_run]
      simp only [DSet.onData]
      generalize find k i s.dataById = q
      obtain ⟨r, data1⟩ := q
      cases r with
      | error f => rfl
      | ok u =>
        simp only []
        rw [M.bind_run, show DSet.onData (find k j) (⟨s.ids, data1⟩ : DSet T) =
          ((find k j data1).1, ⟨s.ids, (find k j data1).2⟩) from rfl]
        cases (find k j data1).1 <;> rfl

/-- C98: if the texts of the elements can be told apart, disjoint sets with the same `Debug` text have the same elements
with the same numbers and the same parents and ranks, and answer every later history of calls alike. -/
theorem c98_disjoint_set {d : T → List Char} (hd : Code d) {k : Nat} {st st' : Start T} {ops ops' : List (Op T)}
    {s s' : DSet T} {a a' : Abs T} (h : Reached k st ops s a) (h' : Reached k st' ops' s' a') {o o' : List (T × Nat)}
    (ho : o.Perm s.ids.entries) (ho' : o'.Perm s'.ids.entries) (he : s.debug d o = s'.debug d o') :
    o = o' ∧ (∀ x, s.ids.get x = s'.ids.get x) ∧ s.dataById = s'.dataById ∧
    ∀ later : List (Op T), (∀ pre, pre <+: later → (a.run pre).card ≤ usizeMax) →
      List.Forall₂ Alike (run k later s).1 (run k later s').1 := by
  have h1 : (o, s.dataById) = (o', s'.dataById) :=
    (code_struct2 (f := "ids") (g := "data_by_id") (code_map hd code_nat) (code_list code_data) (n := "DisjointSet")
      (by decide)).injective he
  rw [Prod.mk.injEq] at h1
  obtain ⟨rfl, h2⟩ := h1
  have hg : ∀ x, s.ids.get x = s'.ids.get x := by
    intro x
    apply Option.ext
    intro n
    rw [HMap.get_eq_some h.rel.valid, HMap.get_eq_some h'.rel.valid, ← ho.mem_iff, ho'.mem_iff]
  refine ⟨rfl, hg, h2, fun later hm => c87_indistinguishable h h' (fun x => ?_) (fun x y => ?_) later hm⟩
  · simp only [DSet.contains, HMap.containsKey, hg]
    rfl
  · rw [inUnion_run, inUnion_run, hg, hg, h2]

end

open Demo in
example : Code debugNat ∧ Reached 64 (.fromIter [7, 3]) demoOps demoEnd (Start.abs (.fromIter [7, 3]) |>.run demoOps) ∧
    demoStart.debug debugNat [(7, 0), (3, 1)] = ("DisjointSet { ids: {7: 0, 3: 1}, " ++
      "data_by_id: [Data { parent: 0, rank: 0 }, Data { parent: 1, rank: 0 }] }").toList :=
  ⟨code_nat, demo_reached, by decide +kernel⟩

open Demo in
/-- C98: the converse fails. Asking a question changes the text (it compresses a path), although no later answer changes,
and the text of one partition depends on the order of the calls that made it. -/
theorem c98_disjoint_set_not_unique :
    (∃ (ops : List (Op Nat)) (s : DSet Nat) (a : Abs Nat) (o : List (Nat × Nat)) (x y : Nat),
      Reached 64 .new ops s a ∧ o.Perm s.ids.entries ∧ o.Perm (DSet.inUnion 64 x y false false s).2.ids.entries ∧
      s.debug debugNat o ≠ (DSet.inUnion 64 x y false false s).2.debug debugNat o) ∧
    (∃ (ops ops' : List (Op Nat)) (s s' : DSet Nat) (a a' : Abs Nat), Reached 64 .new ops s a ∧ Reached 64 .new ops' s' a' ∧
      (∀ x y, (DSet.inUnion 64 x y false false s).1 = (DSet.inUnion 64 x y false false s').1) ∧
      ∀ o o', o.Perm s.ids.entries → o'.Perm s'.ids.entries → s.debug debugNat o ≠ s'.debug debugNat o') := by
  refine ⟨⟨[.union 1 2 false false, .union 3 4 false false, .union 1 3 false false],
      ⟨⟨[(4, 3), (3, 2), (2, 1), (1, 0)]⟩, [⟨0, 2⟩, ⟨0, 0⟩, ⟨0, 1⟩, ⟨2, 0⟩]⟩, _, [(4, 3), (3, 2), (2, 1), (1, 0)], 4, 1,
      ⟨Nat.le_refl _, small_of_size _ _ (by decide), ⟨_, rfl, by decide⟩, rfl⟩, List.Perm.refl _, by decide, by decide +kernel⟩,
    [.makeSet 1 false, .makeSet 2 false, .union 1 2 false false],
    [.makeSet 1 false, .makeSet 2 false, .union 2 1 false false],
    ⟨⟨[(2, 1), (1, 0)]⟩, [⟨0, 1⟩, ⟨0, 0⟩]⟩, ⟨⟨[(2, 1), (1, 0)]⟩, [⟨1, 0⟩, ⟨1, 1⟩]⟩, _, _,
    ⟨Nat.le_refl _, small_of_size _ _ (by decide), ⟨_, rfl, by decide⟩, rfl⟩,
    ⟨Nat.le_refl _, small_of_size _ _ (by decide), ⟨_, rfl, by decide⟩, rfl⟩, fun x y => ?_, fun o o' _ _ he => ?_⟩
  · have key : ∀ z : Nat, z = 1 ∨ z = 2 ∨ HMap.get (⟨[(2, 1), (1, 0)]⟩ : HMap Nat Nat) z = none := by
      intro z
      by_cases h1 : z = 1
      · exact .inl h1
      · by_cases h2 : z = 2
        · exact .inr (.inl h2)
        · refine .inr (.inr ?_)
          simp only [HMap.get, HMap.lookup]
          rw [if_neg (by omega), if_neg (by omega)]
    rcases key x with rfl | rfl | hx
    · rcases key y with rfl | rfl | hy
      · decide
      · decide
      · rw [inUnion_run, inUnion_run, hy]
    · rcases key y with rfl | rfl | hy
      · decide
      · decide
      · rw [inUnion_run, inUnion_run, hy]
    · rw [inUnion_run, inUnion_run, hx]
  · have h1 := (code_struct2 (f := "ids") (g := "data_by_id") (code_map code_nat code_nat) (code_list code_data)
      (n := "DisjointSet") (by decide)).injective (x := (o, [⟨0, 1⟩, ⟨0, 0⟩])) (y := (o', [⟨1, 0⟩, ⟨1, 1⟩])) he
    simp at h1

end DS
