import Verif.Props.C46
/-!
# Guessing methods: specification and lemmas
-/
namespace Cdtb
set_option autoImplicit false
open Py

/-- A guessing method that checks some candidates, `g` being the guesser before and `g'` after: the unknown hashes of candidates are
resolved, each recorded with a candidate that has the hash, and nothing else changes. -/
structure Spec.Guesses (H : Str → Int) (g g' : Guesser) (cands : Str → Prop) : Prop where
  unknown : ∀ h, h ∈ g'.unknown ↔ h ∈ g.unknown ∧ ¬ ∃ p, cands p ∧ H p = h
  found : ∀ h ∈ g.unknown, (∃ p, cands p ∧ H p = h) → ∃ p, cands p ∧ H p = h ∧ g'.known.get? h = some p
  kept : ∀ h, (h ∉ g.unknown ∨ ¬ ∃ p, cands p ∧ H p = h) → g'.known.get? h = g.known.get? h

theorem checkIter_guesses (H : Str → Int) (g : Guesser) (hn : g.unknown.Nodup) (ps : List Str) (cands : Str → Prop)
    (hc : ∀ p, p ∈ ps ↔ cands p) : Spec.Guesses H g (g.checkIter H ps) cands := by
  obtain ⟨s1, s2, -⟩ := checkIter_spec H g hn ps
  refine ⟨fun h => ?_, fun h hu hex => ?_, fun h hh => ?_⟩
  · rw [s1]
    simp only [hc, not_exists, not_and]
  · obtain ⟨p, hp, hph⟩ := hex
    rcases hf : ps.find? (fun p => H p = h) with _ | q
    · rw [List.find?_eq_none] at hf
      exact absurd (by simpa using hph) (hf p ((hc p).2 hp))
    · refine ⟨q, (hc q).1 (List.mem_of_find?_eq_some hf), by simpa using List.find?_some hf, ?_⟩
      rw [s2, if_pos hu, hf]; rfl
  · rw [s2]
    split
    · rename_i hu
      have hnone : (ps.find? fun p => H p = h) = none := by
        rw [List.find?_eq_none]
        intro p hp hph
        rcases hh with hh | hh
        · exact hh hu
        · exact hh ⟨p, (hc p).1 hp, by simpa using hph⟩
      rw [hnone]; rfl
    · rfl

theorem foldl_checkIter (H : Str → Int) {α : Type} (f : α → List Str) (l : List α) (g : Guesser) :
    l.foldl (fun g a => g.checkIter H (f a)) g = g.checkIter H (l.flatMap f) := by
  induction l generalizing g with
  | nil => rfl
  | cons a l ih => rw [List.foldl_cons, ih, List.flatMap_cons, (C46_calls H g _ _).1]

theorem checkIter_single (H : Str → Int) (g : Guesser) (p : Str) : g.checkIter H [p] = g.check H p := by
  rw [checkIter_eq]; rfl

theorem mem_values {α β : Type} [DecidableEq α] {d : Dict α β} {v : β} : v ∈ d.values ↔ ∃ k, (k, v) ∈ d := by
  simp [Dict.values]

theorem directoryList_unknown (g : Guesser) (cached : Bool) :
    (g.directoryList cached).1.unknown = g.unknown ∧ (g.directoryList cached).1.known = g.known := by
  unfold Guesser.directoryList
  split <;> exact ⟨rfl, rfl⟩

theorem Spec.Guesses.of_eq {H : Str → Int} {g g0 g' : Guesser} {cands : Str → Prop} (h : Spec.Guesses H g0 g' cands)
    (hu : g0.unknown = g.unknown) (hk : g0.known = g.known) : Spec.Guesses H g g' cands := by
  refine ⟨?_, ?_, ?_⟩
  · rw [← hu]; exact h.unknown
  · rw [← hu]; exact h.found
  · rw [← hu, ← hk]; exact h.kept

end Cdtb
