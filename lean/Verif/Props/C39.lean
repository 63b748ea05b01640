import Verif.Model.Manifest
import Verif.Lemmas.Dict
import Verif.Props.C49
/-!
# C39 Language filters select exactly the right files
-/
namespace Cdtb
set_option autoImplicit false
open Py

/-- A locale flag: five characters, one of them being `_` -/
def IsLocale (flag : Str) : Prop := flag.length = 5 ∧ '_' ∈ flag

/-- The flags of a file (none when there is no list) -/
def PFile.flagList (f : PFile) : List Str := f.flags.getD []

/-- What is to be selected -/
def Selected : Langs → PFile → Prop
  | .all, _ => True
  | .none, f => ∀ x ∈ f.flagList, ¬ IsLocale x
  | .lang l, f => ∃ x ∈ f.flagList, lower x = lower l
  | .other, _ => False

/-- The files of the manifest that are to be selected, in the same order; a list of languages raises `AttributeError`. -/
theorem C39_select (m : Manifest) (langs : Langs) :
    (langs ≠ .other → ∃ p : PFile → Bool, (∀ f, p f = true ↔ Selected langs f) ∧ m.filterFiles langs = .ok (m.files.values.filter p)) ∧
    m.filterFiles .other = .error .attribute := by
  refine ⟨fun h => ?_, rfl⟩
  cases langs with
  | other => exact absurd rfl h
  | all => exact ⟨fun _ => true, fun f => by simp [Selected], rfl⟩
  | none =>
    refine ⟨_, fun f => ?_, rfl⟩
    unfold Selected PFile.flagList IsLocale
    obtain ⟨nm, sz, lk, flags, cs⟩ := f
    cases flags with
    | none => simp
    | some l =>
      simp only [Option.getD_some, Bool.not_eq_true', ← Bool.not_eq_true, List.any_eq_true, not_exists, not_and, Bool.and_eq_true, beq_iff_eq, List.contains_iff_mem]
      constructor
      · intro h x hx hl hm; exact h x hx hm hl
      · intro h x hx hm hl; exact h x hx hl hm
  | lang l =>
    refine ⟨_, fun f => ?_, rfl⟩
    unfold Selected PFile.flagList
    obtain ⟨nm, sz, lk, flags, cs⟩ := f
    cases flags with
    | none => simp
    | some fl => simp [List.any_eq_true]

/-- Every file is selected without languages or by one of its own flags, which is a locale. -/
theorem C39_cover (f : PFile) : Selected .none f ∨ ∃ x ∈ f.flagList, IsLocale x ∧ Selected (.lang x) f := by
  by_cases h : Selected .none f
  · exact Or.inl h
  · unfold Selected at h
    simp only [not_forall, not_not] at h
    obtain ⟨x, hx, hl⟩ := h
    exact Or.inr ⟨x, hx, hl, x, hx, rfl⟩

/-- A file selected for a locale is not selected without languages. -/
theorem C39_exclusive (f : PFile) (l : Str) (hl : IsLocale l) (h : Selected (.lang l) f) : ¬ Selected .none f := by
  obtain ⟨x, hx, he⟩ := h
  intro hn
  refine hn x hx ⟨?_, ?_⟩
  · have := congrArg List.length he
    unfold lower at this
    rw [List.length_map, List.length_map] at this
    rw [this]; exact hl.1
  · rw [← mem_lower_iff (by decide) (by decide), he, mem_lower_iff (by decide) (by decide)]
    exact hl.2

/-- Files selected for two languages are those that have both flags. -/
theorem C39_overlap (f : PFile) (a b : Str) (ha : Selected (.lang a) f) (hb : Selected (.lang b) f) (hab : lower a ≠ lower b) :
    ∃ x ∈ f.flagList, ∃ y ∈ f.flagList, x ≠ y ∧ lower x = lower a ∧ lower y = lower b := by
  obtain ⟨x, hx, hxa⟩ := ha
  obtain ⟨y, hy, hyb⟩ := hb
  refine ⟨x, hx, y, hy, ?_, hxa, hyb⟩
  rintro rfl
  exact hab (hxa.symm.trans hyb)

/-! Non-vacuity -/
def exMan : Manifest := ⟨[], [], [], [(some "a".toList, ⟨some "a".toList, none, none, some ["en_US".toList], []⟩),
  (some "b".toList, ⟨some "b".toList, none, none, some ["windows".toList], []⟩), (some "c".toList, ⟨some "c".toList, none, none, none, []⟩)]⟩
example : (exMan.filterFiles .none).map (fun l => l.map PFile.name) = .ok [some "b".toList, some "c".toList] := by decide +kernel
example : (exMan.filterFiles (.lang "EN_us".toList)).map (fun l => l.map PFile.name) = .ok [some "a".toList] := by decide +kernel

end Cdtb
