import Verif.Spec.PyData
import Verif.Lemmas.Str
import Verif.Lemmas.Dict
/-! # Reading fields and finding string tables -/
namespace Cdtb
set_option autoImplicit false
open Py Spec

theorem designates_name {name : Str} (ha : Ascii name) : Designates (.str name) (Spec.nameHash name) := .str name ha

theorem fieldV_some {fields : List BinField} {name : Str} (ha : Ascii name) (p : BinPy) : fieldV fields name = some p ↔ Spec.Gives fields name p := by
  have hd := designates_name ha
  obtain ⟨h1, h2⟩ := C23_get fields (.str name) _ hd
  rcases hg : getField fields (.str name) with e | f
  · have hk : e = .key := by
      unfold getField at hg
      rw [hd.hash] at hg
      simp only [bind, Except.bind] at hg
      split at hg <;> cases hg
      rfl
    subst hk
    have hv : getv fields (.str name) = .ok .default := by unfold getv; rw [hg]
    have hn := h2.1 hg
    simp only [fieldV, hv]
    refine ⟨fun h => (nomatch h), ?_⟩
    rintro ⟨f, ⟨a, b, rfl, hf, -⟩, -⟩
    exact absurd hf (hn f (by simp))
  · have hf : FirstField fields (Spec.nameHash name) f := (h1 f).1 hg
    have hv := C23_getv fields (.str name) _ hd f hf
    have hp : getv fields (.str name) = .ok (toPython f.value) := by unfold getv; rw [hg]
    have hne : toPython f.value ≠ .default := by
      cases f with | mk n t v => cases v <;> simp [toPython, BinField.value] <;> rename_i o <;> cases o <;> simp
    have hfv : fieldV fields name = some (toPython f.value) := by
      unfold fieldV
      rw [hp]
      generalize toPython f.value = q at hne
      cases q <;> first | rfl | exact absurd rfl hne
    rw [hfv, Option.some.injEq]
    constructor
    · rintro rfl
      exact ⟨f, hf, (hv _).1 hp⟩
    · rintro ⟨f', hf', hu⟩
      have : f' = f := by
        have := (h1 f').2 hf'
        rw [hg] at this
        cases this; rfl
      subst this
      have := (hv p).2 hu
      rw [hp] at this
      cases this; rfl

theorem fieldV_none {fields : List BinField} {name : Str} (ha : Ascii name) : fieldV fields name = none ↔ Spec.Lacks fields name := by
  have hd := designates_name ha
  obtain ⟨h1, h2⟩ := C23_get fields (.str name) _ hd
  constructor
  · intro h
    rcases hg : getField fields (.str name) with e | f
    · have hk : e = .key := by
        unfold getField at hg
        rw [hd.hash] at hg
        simp only [bind, Except.bind] at hg
        split at hg <;> cases hg
        rfl
      subst hk
      exact h2.1 hg
    · have hv := (fieldV_some (fields := fields) ha (toPython f.value)).2 ⟨f, (h1 f).1 hg, by
        rw [← C23_getv fields (.str name) _ hd f ((h1 f).1 hg)]; unfold getv; rw [hg]⟩
      rw [h] at hv; cases hv
  · intro h
    have hg := h2.2 h
    simp only [fieldV, getv, hg]

theorem fieldD_iff {fields : List BinField} {name : Str} (ha : Ascii name) (d p : BinPy) : fieldD fields name d = p ↔ Spec.GivesOr fields name d p := by
  unfold fieldD Spec.GivesOr
  rcases h : fieldV fields name with _ | q
  · have hl := (fieldV_none ha).1 h
    rw [Option.getD_none]
    constructor
    · rintro rfl; exact .inr ⟨hl, rfl⟩
    · rintro (hg | ⟨-, rfl⟩)
      · rw [← fieldV_some ha, h] at hg; cases hg
      · rfl
  · rw [Option.getD_some, ← fieldV_some ha, h, Option.some.injEq, ← fieldV_none ha, h]
    simp

theorem fieldD_either {fields : List BinField} {name other : Str} (ha : Ascii name) (hb : Ascii other) (d p : BinPy) :
    fieldD fields name (fieldD fields other d) = p ↔ Spec.GivesEither fields name other d p := by
  rw [fieldD_iff ha]
  unfold Spec.GivesEither Spec.GivesOr
  rw [eq_comm, fieldD_iff hb]
  rfl

theorem isType_iff {env : BinEnv} {e : BinEntry} {name : Str} (ha : Ascii name) : isType env e name = true ↔ Spec.HasType env e name := by
  unfold isType Spec.HasType BinEnv.mk' BinHash.eq BinEnv.computeHash
  rcases h : (env.known .type).get? e.type with _ | s
  · simp only [C20_fnv name ha, bind, Except.bind, pure, Except.pure]
    simp [Spec.nameHash]
  · simp

theorem fieldsOf_iff (p : BinPy) (fields : List BinField) : fieldsOf p = .ok fields ↔ Spec.IsObject p fields := by
  constructor
  · intro h
    unfold fieldsOf at h
    split at h <;> cases h <;> constructor
  · rintro (_ | _) <;> rfl

end Cdtb
