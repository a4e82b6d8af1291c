import Verif.CB.SpecWorld
import Verif.CB.Props
/-!
# Lemmas for C126: one event in a program with many buffers
-/

open Rust
namespace CB
open Spec (Deque)
section
variable {α : Type} [Cfg]

theorem shown_eq {b : Buf α} {xs : List α} (h : b.contents = .ok xs) : shown b = xs := by
  unfold shown; rw [h]

theorem count_set [DecidableEq α] (x : α) (b b' : Buf α) : ∀ (bufs : List (Buf α)) (i : Nat), bufs[i]? = some b →
    ((bufs.set i b').flatMap shown).count x + (shown b).count x = (bufs.flatMap shown).count x + (shown b').count x := by
  intro bufs
  induction bufs with
  | nil => intro i h; cases h
  | cons c bufs ih =>
    intro i h
    cases i with
    | zero => cases h; simp; omega
    | succ i =>
      have := ih i h
      simp only [List.set_cons_succ, List.flatMap_cons, List.count_append]
      omega

theorem count_erase [DecidableEq α] (x : α) (b : Buf α) : ∀ (bufs : List (Buf α)) (i : Nat), bufs[i]? = some b →
    ((bufs.eraseIdx i).flatMap shown).count x + (shown b).count x = (bufs.flatMap shown).count x := by
  intro bufs
  induction bufs with
  | nil => intro i h; cases h
  | cons c bufs ih =>
    intro i h
    cases i with
    | zero => cases h; simp; omega
    | succ i =>
      have := ih i h
      simp only [List.eraseIdx_cons_succ, List.flatMap_cons, List.count_append]
      omega

variable [Elem α]

theorem dropSelf_facts {b : Buf α} (h : Reachable b) (dr : List α) :
    ∃ dropped, (dropSelf ⟨b, dr⟩).2.dropped = dr ++ dropped ∧
      (shown b).Perm (dropped ++ shown (dropSelf ⟨b, dr⟩).2.cb) ∧
      ((∀ x : α, Elem.dropPanics x = false) → shown (dropSelf ⟨b, dr⟩).2.cb = []) := by
  obtain ⟨xs, n, hx, hn, hl, r⟩ := h.shows
  obtain ⟨cb', e, r'⟩ := clear_sim (s := ⟨b, dr⟩) r
  unfold dropSelf
  rw [e]
  refine ⟨_, rfl, ?_, ?_⟩
  · rw [shown_eq hx, shown_eq r'.contents_eq]
    have h2 := dropSeq_append xs.reverse
    have h3 : xs.Perm ((Spec.dropSeq xs.reverse).1 ++ (Spec.dropSeq xs.reverse).2.1) := by
      rw [h2]; exact (List.reverse_perm _).symm
    exact h3.trans ((List.reverse_perm _).symm.append_left _)
  · intro hc
    rw [shown_eq r'.contents_eq, clear_calm (d := ⟨n, xs⟩) fun x _ => hc x]

/-- One event. -/
theorem happens_facts {w w' : World α} {e : Event α} {r : Except Fault (Out α)} (hw : ∀ b ∈ w.bufs, Reachable b)
    (h : Happens w e r w') :
    (∀ b ∈ w'.bufs, Reachable b) ∧ ∃ given dropped leaked, e.Gives r given ∧ w'.dropped = w.dropped ++ dropped ∧
      w'.leaked = w.leaked ++ leaked ∧
      (w.stored ++ given).Perm (e.gets r ++ dropped ++ leaked ++ w'.stored) ∧
      ((∀ x : α, Elem.dropPanics x = false) → leaked = []) := by
  classical
  cases h with
  | @make n b hc hb =>
    have hr := Reachable.withCapacity hc hb
    refine ⟨?_, [], [], [], rfl, by simp, by simp, ?_, fun _ => rfl⟩
    · intro c hm
      rcases List.mem_append.mp hm with hm | hm
      · exact hw c hm
      · rw [List.mem_singleton.mp hm]; exact hr
    · simp [World.stored, Event.gets, shown_eq (withCapacity_ok hc hb).contents_eq]
  | @collect items b hc hb =>
    have hr := Reachable.fromIter hc hb
    have rp := fromIter_ok hc hb
    refine ⟨?_, items, [], [], rfl, by simp, by simp, ?_, fun _ => rfl⟩
    · intro c hm
      rcases List.mem_append.mp hm with hm | hm
      · exact hw c hm
      · rw [List.mem_singleton.mp hm]; exact hr
    · simp [World.stored, Event.gets, shown_eq rp.contents_eq]
  | @call i op b s r hb hop hst =>
    have hrb := hw b (List.mem_of_getElem? hb)
    obtain ⟨xs, n, hx, hn, hl, rp⟩ := hrb.shows
    obtain ⟨cb', e', r'⟩ := step_sim (s := ⟨b, w.dropped⟩) rp op hop
    obtain ⟨given, hg, hp⟩ := step_conserves (d := ⟨n, xs⟩) hl op
    have hrs := Reachable.step op w.dropped hrb hop
    rw [hst] at e' hrs
    cases e'
    refine ⟨?_, given, (Spec.step ⟨n, xs⟩ op).dropped, [], hg, rfl, by simp, ?_, fun _ => rfl⟩
    · intro c hm
      rcases List.mem_or_eq_of_mem_set hm with hm | rfl
      · exact hw c hm
      · exact hrs
    · rw [List.perm_iff_count]
      intro x
      have h1 := count_set x b cb' w.bufs i hb
      have h2 := (List.perm_iff_count.mp hp) x
      rw [shown_eq hx, shown_eq r'.contents_eq] at h1
      simp only [World.stored, List.count_append, Event.gets, List.count_nil] at h1 h2 ⊢
      omega
  | @append i j a b s r hij ha hb hap =>
    have hra := hw a (List.mem_of_getElem? ha)
    have hrb := hw b (List.mem_of_getElem? hb)
    obtain ⟨xs, n, hx, hn, _, _⟩ := hra.shows
    obtain ⟨ys, m, hy, hm, _, _⟩ := hrb.shows
    obtain ⟨xs', ys', dropped, h1, h2, h3, _, _, hp⟩ := c09_append_keeps_buffers_sound hra hrb hx hy hn hm w.dropped
    have hs1 := Reachable.appendSelf w.dropped hra hrb
    have hs2 := Reachable.appendOther w.dropped hra hrb
    rw [hap] at h1 h2 h3 hs1 hs2
    refine ⟨?_, [], dropped, [], rfl, h3, by simp, ?_, fun _ => rfl⟩
    · intro c hm
      rcases List.mem_or_eq_of_mem_set hm with hm | rfl
      · rcases List.mem_or_eq_of_mem_set hm with hm | rfl
        · exact hw c hm
        · exact hs1
      · exact hs2
    · rw [List.perm_iff_count]
      intro x
      have g1 := count_set x a s.self w.bufs i ha
      have g2 := count_set x b s.other (w.bufs.set i s.self) j (by rw [List.getElem?_set_ne hij]; exact hb)
      have g3 := (List.perm_iff_count.mp hp) x
      rw [shown_eq hx, shown_eq h1] at g1
      rw [shown_eq hy, shown_eq h2] at g2
      simp only [World.stored, List.count_append, Event.gets, List.count_nil] at g1 g2 g3 ⊢
      omega
  | @absorb i j a b s t r d hij ha hb hap hdr =>
    have hra := hw a (List.mem_of_getElem? ha)
    have hrb := hw b (List.mem_of_getElem? hb)
    obtain ⟨xs, n, hx, hn, _, _⟩ := hra.shows
    obtain ⟨ys, m, hy, hm, _, _⟩ := hrb.shows
    obtain ⟨xs', ys', dropped, h1, h2, h3, _, _, hp⟩ := c09_append_keeps_buffers_sound hra hrb hx hy hn hm w.dropped
    have hs1 := Reachable.appendSelf w.dropped hra hrb
    have hs2 := Reachable.appendOther w.dropped hra hrb
    rw [hap] at h1 h2 h3 hs1 hs2
    obtain ⟨dropped2, k1, k2, k3⟩ := dropSelf_facts hs2 s.dropped
    unfold intoIterDrop at hdr
    rw [hdr] at k1 k2 k3
    refine ⟨?_, [], dropped ++ dropped2, shown t.cb, rfl, ?_, rfl, ?_, k3⟩
    · intro c hm
      rcases List.mem_or_eq_of_mem_set (List.mem_of_mem_eraseIdx hm) with hm | rfl
      · exact hw c hm
      · exact hs1
    · rw [← List.append_assoc, ← h3]; exact k1
    · rw [List.perm_iff_count]
      intro x
      have g1 := count_set x a s.self w.bufs i ha
      have g2 := count_erase x b (w.bufs.set i s.self) j (by rw [List.getElem?_set_ne hij]; exact hb)
      have g3 := (List.perm_iff_count.mp hp) x
      have g4 := (List.perm_iff_count.mp k2) x
      rw [shown_eq hx, shown_eq h1] at g1
      rw [shown_eq hy] at g2
      rw [shown_eq h2] at g4
      simp only [World.stored, List.count_append, Event.gets, List.count_nil] at g1 g2 g3 g4 ⊢
      omega
  | @drop i b s r hb hdr =>
    have hrb := hw b (List.mem_of_getElem? hb)
    obtain ⟨dropped, k1, k2, k3⟩ := dropSelf_facts hrb w.dropped
    rw [hdr] at k1 k2 k3
    refine ⟨fun c hm => hw c (List.mem_of_mem_eraseIdx hm), [], dropped, _, rfl, k1, rfl, ?_, k3⟩
    rw [List.perm_iff_count]
    intro x
    have g1 := count_erase x b w.bufs i hb
    have g2 := (List.perm_iff_count.mp k2) x
    simp only [World.stored, List.count_append, Event.gets, List.count_nil] at g1 g2 ⊢
    omega

end
end CB
