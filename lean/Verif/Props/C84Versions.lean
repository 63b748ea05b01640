import Verif.Props.C07
import Verif.Props.C84
/-!
# C84: what `versions` prints
-/
namespace Cdtb
set_option autoImplicit false
open Py Spec

theorem named_newest (run : List Elem) (name : Str) : (∃ e ∈ newestOfEach run, e.name = name) ↔ ∃ e ∈ run, e.name = name := by
  induction run with
  | nil => simp [newestOfEach]
  | cons x run ih =>
    simp only [newestOfEach, List.mem_cons, List.mem_filter, decide_eq_true_eq]
    constructor
    · rintro ⟨e, rfl | ⟨he, -⟩, hn⟩
      · exact ⟨e, Or.inl rfl, hn⟩
      · obtain ⟨e', h1, h2⟩ := ih.1 ⟨e, he, hn⟩
        exact ⟨e', Or.inr h1, h2⟩
    · rintro ⟨e, he, hn⟩
      by_cases hx : x.name = name
      · exact ⟨x, Or.inl rfl, hx⟩
      · rcases he with rfl | he
        · exact absurd hn hx
        · obtain ⟨e', h1, h2⟩ := ih.2 ⟨e, he, hn⟩
          exact ⟨e', Or.inr ⟨h1, fun h => hx (h ▸ h2)⟩, h2⟩

/-- The versions printed: for `patch` those of all the elements, with consecutive repeats merged; for `game` and `client` those that have an element of this
name, in the same order. Listing never fails. -/
theorem C84_versions_listed (elems : List Elem) (type : Str) :
    ∃ l, commandVersions elems type = .ok l ∧ l.Sublist (mergeRepeats (elems.map fun e => e.version.s)) ∧
      (type = "patch".toList → l = mergeRepeats (elems.map fun e => e.version.s)) ∧
      (type ≠ "patch".toList → ∀ v, v ∈ l ↔ ∃ e ∈ elems, e.name = type ∧ e.version.s = v) := by
  obtain ⟨runs, ps, h1, h2, h3, h4⟩ := C07_patches elems
  have hrun : commandVersions elems type = .ok ((ps.filter fun p => type = "patch".toList || p.elements.any fun e => e.name = type).map fun p => p.version.s) := by
    unfold commandVersions
    rw [h1]
    rfl
  refine ⟨_, hrun, by rw [← h4]; exact List.filter_sublist.map _, fun ht => ?_, fun ht v => ?_⟩
  · rw [← h4, List.filter_eq_self.2]
    intro p _
    simp only [ht, decide_true, Bool.true_or]
  · have key : ∀ v, (∃ p ∈ ps, (∃ e ∈ p.elements, e.name = type) ∧ p.version.s = v) ↔ ∃ e ∈ runs.flatten, e.name = type ∧ e.version.s = v := by
      intro v
      clear h1 h2 h4 hrun
      induction h3 with
      | nil => simp
      | @cons run p runs ps hp _ ih =>
        simp only [List.mem_cons, List.flatten_cons, List.mem_append]
        constructor
        · rintro ⟨q, rfl | hq, he, hv⟩
          · rw [hp.elements, named_newest] at he
            obtain ⟨e, he, hn⟩ := he
            exact ⟨e, Or.inl he, hn, (hp.version e he).trans hv⟩
          · obtain ⟨e, he, h⟩ := ih.1 ⟨q, hq, he, hv⟩
            exact ⟨e, Or.inr he, h⟩
        · rintro ⟨e, he | he, hn, hv⟩
          · refine ⟨p, Or.inl rfl, ?_, (hp.version e he).symm.trans hv⟩
            rw [hp.elements, named_newest]
            exact ⟨e, he, hn⟩
          · obtain ⟨q, hq, h⟩ := ih.2 ⟨e, he, hn, hv⟩
            exact ⟨q, Or.inr hq, h⟩
    rw [← h2, ← key v]
    simp only [List.mem_map, List.mem_filter, Bool.or_eq_true, decide_eq_true_eq, ht, false_or, List.any_eq_true, and_assoc]

/-- Several elements of a version are printed once; a version without element of the type is not printed. -/
theorem C84_versions_met : ∃ elems : List Elem, elems.length = 4 ∧ commandVersions elems "game".toList = .ok ["14.3".toList, "14.1".toList] ∧
    commandVersions elems "patch".toList = .ok ["14.3".toList, "14.2".toList, "14.1".toList] := by
  let v (b : Int) : Version := ⟨join ['.'] ([14, b].map showInt), .nums [14, b]⟩
  refine ⟨[⟨"game".toList, v 3, 0⟩, ⟨"game".toList, v 3, 1⟩, ⟨"client".toList, v 2, 2⟩, ⟨"game".toList, v 1, 3⟩], rfl, ?_, ?_⟩
  · decide +kernel
  · decide +kernel

end Cdtb
