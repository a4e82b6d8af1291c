import Verif.DS.ModelFlags
import Verif.DS.PropsPretty
/-!
# C132 for disjoint sets
-/

open Rust Rust.Fmt
namespace DS

theorem fmt_data {fl : Flags} (hfl : fl.zero = true ∨ fl.Clear) : Code (Data.fmt fl) :=
  (fmt_struct2 (f := "parent") (g := "rank") (code_fmtNat hfl) (code_fmtNat hfl) (n := "Data") (by decide)).comp
    (f := fun x : Data => (x.parent, x.rank)) fun x y hxy => by cases x; cases y; simpa using hxy

section
variable {T : Type} [DecidableEq T] [Cfg]

/-- C132: whatever the flags, if the texts of the elements can be told apart and the fill character is neither a digit nor a
closing bracket (or `0` is asked for, or no width), disjoint sets with the same text have the same elements with the same
numbers and the same parents and ranks, and answer every later history of calls alike. -/
theorem c132_disjoint_set {fl : Flags} (hfl : fl.zero = true ∨ fl.Clear) {d : T → List Char} (hd : Code d) {k : Nat}
    {st st' : Start T} {ops ops' : List (Op T)} {s s' : DSet T} {a a' : Abs T} (h : Reached k st ops s a)
    (h' : Reached k st' ops' s' a') {o o' : List (T × Nat)} (ho : o.Perm s.ids.entries) (ho' : o'.Perm s'.ids.entries)
    (he : s.fmt fl d o = s'.fmt fl d o') :
    o = o' ∧ (∀ x, s.ids.get x = s'.ids.get x) ∧ s.dataById = s'.dataById ∧
    ∀ later : List (Op T), (∀ pre, pre <+: later → (a.run pre).card ≤ usizeMax) →
      List.Forall₂ Alike (run k later s).1 (run k later s').1 := by
  have h1 : (o, s.dataById) = (o', s'.dataById) :=
    (fmt_struct2 (f := "ids") (g := "data_by_id") (fmt_map hd (code_fmtNat hfl)) (fmt_list (fmt_data hfl))
      (n := "DisjointSet") (by decide)).injective he
  rw [Prod.mk.injEq] at h1
  exact c98_disjoint_set hd h h' ho ho' (by rw [DSet.debug, DSet.debug, h1.1, h1.2])

omit [DecidableEq T] [Cfg] in
/-- C132: without flags this is the text of C98, with `#` alone that of C102. -/
theorem c132_disjoint_set_plain (d : T → List Char) (o : List (T × Nat)) (s : DSet T) :
    s.fmt {} d o = s.debug d o ∧ s.fmt { alt := true } d o = s.pretty d o := by
  constructor
  · simp only [DSet.fmt, fmtNat_plain, funext fun x => show Data.fmt {} x = Data.debug x by simp only [Data.fmt, fmtNat_plain]; rfl]
    rfl
  · simp only [DSet.fmt, fmtNat_alt,
      funext fun x => show Data.fmt { alt := true } x = Data.pretty x by simp only [Data.fmt, fmtNat_alt]; rfl]
    rfl

end

-- `{:3?}`
open Demo in
example : Flags.Clear { width := 3 } ∧ Code (fmtNat { width := 3 }) ∧
    Reached 64 (.fromIter [7, 3]) demoOps demoEnd (Start.abs (.fromIter [7, 3]) |>.run demoOps) ∧
    demoStart.fmt { width := 3 } (fmtNat { width := 3 }) [(7, 0), (3, 1)] = ("DisjointSet { ids: {  7:   0,   3:   1}, " ++
      "data_by_id: [Data { parent:   0, rank:   0 }, Data { parent:   1, rank:   0 }] }").toList :=
  ⟨by decide, code_fmtNat (.inr (by decide)), demo_reached, by decide +kernel⟩

end DS
