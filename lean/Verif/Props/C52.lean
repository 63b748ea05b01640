import Verif.Model.Cli
import Verif.Props.C08
/-!
# C52  The export command

`commandExport elems stored dirs args` gives the exporters the command runs: `elems` are the elements of the storage, `stored` those
already stored, `dirs` the subdirectories of the output directory.
-/
namespace Cdtb
set_option autoImplicit false
open Py

namespace Spec

/-- An argument that was given, with a text that is not empty -/
def Given (o : Option Str) : Prop := ∃ s, o = some s ∧ s ≠ []

/-- `p` is the first patch with a version -/
def FirstWith (l : List Patch) (version : Str) (p : Patch) : Prop :=
  ∃ a b, l = a ++ p :: b ∧ p.version.s = version ∧ ∀ x ∈ a, x.version.s ≠ version

/-- The patch asked for, in the patches of the storage (newest first) -/
def Requested (l : List Patch) (v : Str) (p : Patch) : Prop :=
  (v = "latest".toList ∧ l.head? = some p) ∨ (v ≠ "latest".toList ∧ FirstWith l v p)

/-- The previous patch: none with `--full` (or `--previous none`), the stored one with the version given with `--previous`, or the one
that follows in the list of stored patches (newest first) -/
inductive Previous (stored : List Patch) (version : Str) : Option Str → Option Patch → Prop where
  | full : Previous stored version (some "none".toList) none
  | requested (v : Str) (p : Patch) (hv : v ≠ [] ∧ v ≠ "none".toList) (h : FirstWith stored v p) :
      Previous stored version (some v) (some p)
  | guessed (o : Option Str) (ho : ¬ Given o) (a b : List Patch) (q p : Patch) (h : stored = a ++ q :: p :: b)
      (hq : q.version.s = version) (ha : ∀ x ∈ a, x.version.s ≠ version) : Previous stored version o (some p)

end Spec

open Spec

theorem given_none {o : Option Str} : given o = none ↔ ¬ Given o := by
  cases o with
  | none => simp [given, Given]
  | some s => cases s <;> simp [given, Given]

theorem given_some {o : Option Str} {s : Str} : given o = some s ↔ o = some s ∧ s ≠ [] := by
  cases o with
  | none => simp [given]
  | some t => cases t with
    | nil => simp only [given, Option.some.injEq]; constructor
             · simp
             · rintro ⟨rfl, h⟩; exact absurd rfl h
    | cons c t =>
      simp only [given, Option.some.injEq]
      constructor
      · rintro rfl; exact ⟨rfl, by simp⟩
      · exact fun h => h.1

theorem firstWith_iff {l : List Patch} {v : Str} {p : Patch} :
    l.find? (fun p => p.version.eq (.str v)) = some p ↔ FirstWith l v p := by
  rw [List.find?_eq_some_iff_append]
  constructor
  · rintro ⟨h, a, b, h1, h2⟩
    exact ⟨a, b, h1, by simpa [Version.eq] using h, fun x hx => by simpa [Version.eq] using h2 x hx⟩
  · rintro ⟨a, b, h1, h2, h3⟩
    exact ⟨by simpa [Version.eq] using h2, a, b, h1, fun x hx => by simpa [Version.eq] using h3 x hx⟩

theorem nextPatch_spec (version : Version) (l : List Patch) :
    (∀ p, nextPatch version l = .ok p ↔ ∃ a q b, l = a ++ q :: p :: b ∧ q.version.s = version.s ∧ ∀ x ∈ a, x.version.s ≠ version.s) ∧
    (nextPatch version l = .error .usage ↔ ∀ x ∈ l, x.version.s ≠ version.s) ∧
    (nextPatch version l = .error .stopIteration ↔ ∃ a q, l = a ++ [q] ∧ q.version.s = version.s ∧ ∀ x ∈ a, x.version.s ≠ version.s) := by
  induction l with
  | nil => simp [nextPatch]
  | cons v rest ih =>
    by_cases hv : v.version.s = version.s
    · clear ih
      have he : nextPatch version (v :: rest) = match rest with
          | [] => .error .stopIteration
          | p :: _ => .ok p := by cases rest <;> simp [nextPatch, Version.eq, hv]
      rw [he]
      have key : ∀ a q c, v :: rest = a ++ q :: c → (∀ x ∈ a, x.version.s ≠ version.s) → a = [] ∧ v = q ∧ rest = c := by
        intro a q c h ha
        cases a with
        | nil => simpa using h
        | cons x a => simp only [List.cons_append, List.cons.injEq] at h; exact absurd (h.1 ▸ hv) (ha x (by simp))
      refine ⟨fun p => ⟨fun h => ?_, ?_⟩, ⟨fun h => ?_, fun h => absurd hv (h v (by simp))⟩, ⟨fun h => ?_, ?_⟩⟩
      · cases rest with
        | nil => simp at h
        | cons p' b => simp only [Except.ok.injEq] at h; subst h; exact ⟨[], v, b, rfl, hv, by simp⟩
      · rintro ⟨a, q, b, h, -, ha⟩
        obtain ⟨rfl, rfl, rfl⟩ := key a q _ h ha
        rfl
      · cases rest <;> simp at h
      · cases rest with
        | nil => exact ⟨[], v, rfl, hv, by simp⟩
        | cons p b => simp at h
      · rintro ⟨a, q, h, -, ha⟩
        obtain ⟨rfl, rfl, rfl⟩ := key a q _ h ha
        rfl
    · have he : nextPatch version (v :: rest) = nextPatch version rest := by simp [nextPatch, Version.eq, hv]
      rw [he]
      obtain ⟨i1, i2, i3⟩ := ih
      refine ⟨fun p => ?_, ?_, ?_⟩
      · rw [i1]
        constructor
        · rintro ⟨a, q, b, rfl, hq, ha⟩
          exact ⟨v :: a, q, b, rfl, hq, by simpa using ⟨hv, ha⟩⟩
        · rintro ⟨a, q, b, h, hq, ha⟩
          cases a with
          | nil => simp only [List.nil_append, List.cons.injEq] at h; exact absurd (h.1 ▸ hq) hv
          | cons x a =>
            simp only [List.cons_append, List.cons.injEq] at h
            exact ⟨a, q, b, h.2, hq, fun y hy => ha y (by simp [hy])⟩
      · rw [i2]; simp [hv]
      · rw [i3]
        constructor
        · rintro ⟨a, q, rfl, hq, ha⟩
          exact ⟨v :: a, q, rfl, hq, by simpa using ⟨hv, ha⟩⟩
        · rintro ⟨a, q, h, hq, ha⟩
          cases a with
          | nil => simp only [List.nil_append, List.cons.injEq] at h; exact absurd (h.1 ▸ hq) hv
          | cons x a =>
            simp only [List.cons_append, List.cons.injEq] at h
            exact ⟨a, q, h.2, hq, fun y hy => ha y (by simp [hy])⟩

theorem previousPatch_ok {stored : List Elem} {st : List Patch} (hs : patches stored = .ok st) (patch : Patch) (o : Option Str)
    (prev : Option Patch) : previousPatch stored patch o = .ok prev ↔ Previous st patch.version.s o prev := by
  unfold previousPatch
  cases hg : given o with
  | none =>
    have hn := given_none.1 hg
    simp only [hs, bind, Except.bind]
    constructor
    · intro h
      cases hp : nextPatch patch.version st with
      | error e => rw [hp] at h; simp at h
      | ok p =>
        rw [hp] at h
        simp only [Except.ok.injEq] at h
        subst h
        obtain ⟨a, q, b, h1, h2, h3⟩ := ((nextPatch_spec _ _).1 p).1 hp
        exact .guessed o hn a b q p h1 h2 h3
    · intro h
      cases h with
      | full => exact absurd ⟨_, rfl, by decide⟩ hn
      | requested v p hv h => exact absurd ⟨_, rfl, hv.1⟩ hn
      | guessed _ ho a b q p h1 h2 h3 => rw [((nextPatch_spec _ _).1 p).2 ⟨a, q, b, h1, h2, h3⟩]
  | some v =>
    obtain ⟨rfl, hv⟩ := given_some.1 hg
    by_cases hn : v = "none".toList
    · subst hn
      simp only [if_pos, Except.ok.injEq]
      constructor
      · rintro rfl; exact .full
      · intro h
        cases h with
        | full => rfl
        | requested v p hv h => exact absurd rfl hv.2
        | guessed _ ho => exact absurd ⟨_, rfl, by decide⟩ ho
    · simp only [if_neg hn, storagePatch, hs, bind, Except.bind]
      constructor
      · intro h
        cases hf : st.find? (fun p => p.version.eq (.str v)) with
        | none => rw [hf] at h; simp at h
        | some p =>
          rw [hf] at h
          simp only [Except.ok.injEq] at h
          subst h
          exact .requested v p ⟨hv, hn⟩ (firstWith_iff.1 hf)
      · intro h
        cases h with
        | full => exact absurd rfl hn
        | requested v p hv h => rw [firstWith_iff.2 h]
        | guessed _ ho => exact absurd ⟨_, rfl, hv⟩ ho

theorem storagePatch_requested {elems : List Elem} {all : List Patch} (ha : patches elems = .ok all) (v : Str) (p : Patch) :
    storagePatch elems (if v = "latest".toList then none else some (.str v)) = .ok (some p) ↔ Requested all v p := by
  by_cases hv : v = "latest".toList
  · simp only [if_pos hv, storagePatch, ha, bind, Except.bind, Requested]
    cases all <;> simp [hv]
  · simp only [if_neg hv, storagePatch, ha, bind, Except.bind, Requested, Except.ok.injEq, firstWith_iff]
    exact ⟨fun h => .inr ⟨hv, h⟩, fun h => h.elim (fun h => absurd h.1 hv) (fun h => h.2)⟩

/-- Without a patch nothing is ever exported, whatever the storage and the output: a usage error when `--previous`, `--full` or `--from`
are given, and `ValueError` otherwise. -/
theorem C52_no_patch (elems stored : List Elem) (dirs : List Str) (args : ExportArgs) (h : ¬ Given args.patch) :
    ((Given args.previous ∨ Given args.first) → commandExport elems stored dirs args = .error .usage) ∧
    (¬ (Given args.previous ∨ Given args.first) → commandExport elems stored dirs args = .error .value) := by
  rw [← not_not (a := Given args.previous), ← not_not (a := Given args.first), ← given_none, ← given_none]
  rw [← given_none] at h
  constructor
  · intro hg
    simp only [commandExport, h]
    cases hp : given args.previous with
    | some s => simp
    | none =>
      cases hf : given args.first with
      | some s => simp
      | none => rcases hg with hg | hg <;> contradiction
  · intro hg
    simp only [not_or, not_not] at hg
    have hf : args.first.getD [] = [] := by
      have := hg.2
      cases hff : args.first with
      | none => rfl
      | some s => cases s with
        | nil => rfl
        | cons c s => rw [hff] at this; simp [given] at this
    simp only [commandExport, h, hg.1, hg.2, hf]
    rfl

/-- With a patch, `--from` is refused. -/
theorem C52_from (elems stored : List Elem) (dirs : List Str) (args : ExportArgs) (h : Given args.patch) (hf : Given args.first) :
    commandExport elems stored dirs args = .error .usage := by
  obtain ⟨v, hv, hv'⟩ := h
  obtain ⟨f, hf, hf'⟩ := hf
  simp [commandExport, given_some.2 ⟨hv, hv'⟩, given_some.2 ⟨hf, hf'⟩]

/-- With a patch, the command exports exactly one patch: the one requested, to the subdirectory of its version, with the previous patch
`Spec.Previous` gives; and it does whenever there is such a previous patch (a missing one being refused with symlinks). -/
theorem C52_patch (elems stored : List Elem) (dirs : List Str) (args : ExportArgs) (v : Str) (hv : args.patch = some v) (hv' : v ≠ [])
    (hf : ¬ Given args.first) (all st : List Patch) (ha : patches elems = .ok all) (hs : patches stored = .ok st) (es : List PatchExporter) :
    commandExport elems stored dirs args = .ok es ↔
      ∃ p prev, Requested all v p ∧ Previous st p.version.s args.previous prev ∧ ¬ (args.symlinks = true ∧ prev = none) ∧
        es = [⟨pjoin args.output p.version.s, p, prev, args.symlinks⟩] := by
  simp only [commandExport, given_some.2 ⟨hv, hv'⟩, given_none.2 hf, Option.isSome_none, Bool.false_eq_true, if_false]
  constructor
  · intro h
    cases hp : storagePatch elems (if v = "latest".toList then none else some (.str v)) with
    | error e => rw [hp] at h; simp [bind, Except.bind] at h
    | ok o => cases o with
      | none => rw [hp] at h; simp [bind, Except.bind] at h
      | some p =>
        rw [hp] at h
        simp only [bind, Except.bind] at h
        cases hq : previousPatch stored p args.previous with
        | error e => rw [hq] at h; simp at h
        | ok prev =>
          rw [hq] at h
          simp only [mkPatchExporter] at h
          refine ⟨p, prev, (storagePatch_requested ha v p).1 hp, (previousPatch_ok hs _ _ _).1 hq, ?_, ?_⟩
          · rintro ⟨h1, rfl⟩; simp [h1] at h
          · by_cases hc : (args.symlinks && prev.isNone) = true
            · rw [if_pos hc] at h; simp at h
            · rw [if_neg hc] at h
              simpa using h.symm
  · rintro ⟨p, prev, h1, h2, h3, rfl⟩
    rw [(storagePatch_requested ha v p).2 h1]
    simp only [bind, Except.bind, (previousPatch_ok hs _ _ _).2 h2, mkPatchExporter]
    rw [if_neg]
    simpa using h3

/-- A patch that is not in the storage is a usage error. -/
theorem C52_not_found (elems stored : List Elem) (dirs : List Str) (args : ExportArgs) (v : Str) (hv : args.patch = some v) (hv' : v ≠ [])
    (hl : v ≠ "latest".toList) (h : ∀ e ∈ elems, e.version.s ≠ v) : commandExport elems stored dirs args = .error .usage := by
  by_cases hf : Given args.first
  · exact C52_from _ _ _ _ ⟨v, hv, hv'⟩ hf
  · simp only [commandExport, given_some.2 ⟨hv, hv'⟩, given_none.2 hf, Option.isSome_none, Bool.false_eq_true, if_false, if_neg hl]
    have hnone : storagePatch elems (some (.str v)) = .ok none := by
      obtain ⟨_, ps, hps, -, -, -⟩ := C07_patches elems
      cases hc : storagePatch elems (some (.str v)) with
      | error e => exact absurd hc ((C08_patch elems _ ps hps).2.2 e)
      | ok o => cases o with
        | none => rfl
        | some p =>
          obtain ⟨e, he, hes⟩ := (C08_patch_found elems v).1 ⟨p, hc⟩
          exact absurd hes (h e he)
    rw [hnone]; rfl

/-- When the previous patch has to be guessed: a patch that is not stored is a usage error, and the oldest stored one raises
`StopIteration` (no message). -/
theorem C52_guess_failures (elems stored : List Elem) (dirs : List Str) (args : ExportArgs) (v : Str) (hv : args.patch = some v)
    (hv' : v ≠ []) (hf : ¬ Given args.first) (hn : ¬ Given args.previous) (all st : List Patch) (ha : patches elems = .ok all)
    (hs : patches stored = .ok st) (p : Patch) (hp : Requested all v p) :
    (commandExport elems stored dirs args = .error .usage ↔ ∀ q ∈ st, q.version.s ≠ p.version.s) ∧
    ((∃ a q, st = a ++ [q] ∧ q.version.s = p.version.s ∧ ∀ x ∈ a, x.version.s ≠ p.version.s) →
      commandExport elems stored dirs args = .error .stopIteration) := by
  have he : commandExport elems stored dirs args = (nextPatch p.version st).bind fun q =>
      .ok [⟨pjoin args.output p.version.s, p, some q, args.symlinks⟩] := by
    simp only [commandExport, given_some.2 ⟨hv, hv'⟩, given_none.2 hf, Option.isSome_none, Bool.false_eq_true, if_false]
    rw [(storagePatch_requested ha v p).2 hp]
    simp only [bind, Except.bind, previousPatch, given_none.2 hn, hs]
    cases nextPatch p.version st with
    | error e => rfl
    | ok q => simp [mkPatchExporter]
  rw [he]
  obtain ⟨-, h2, h3⟩ := nextPatch_spec p.version st
  constructor
  · rw [← h2]
    cases nextPatch p.version st <;> simp [Except.bind]
  · intro h
    rw [h3.2 h]; rfl

/-- Sample storage: three patches -/
def exExportElems : List Elem := [⟨"game".toList, ⟨"9.3".toList, .nums [9, 3]⟩, 0⟩, ⟨"client".toList, ⟨"9.3".toList, .nums [9, 3]⟩, 1⟩,
  ⟨"game".toList, ⟨"9.2".toList, .nums [9, 2]⟩, 2⟩, ⟨"game".toList, ⟨"9.1".toList, .nums [9, 1]⟩, 3⟩]

/-- The hypotheses of the theorems are met: the previous patch is guessed, requested, absent; the oldest patch cannot be exported
without `--full`; and nothing is exported without a patch. -/
example :
    ((commandExport exExportElems exExportElems [] ⟨some "latest".toList, none, none, "out".toList, true⟩).toOption.getD []).map
        (fun e => (e.output, e.patch.version.s, e.prev.map (fun q => q.version.s), e.symlinks)) =
      [("out/9.3".toList, "9.3".toList, some "9.2".toList, true)] ∧
    ((commandExport exExportElems exExportElems [] ⟨some "9.3".toList, some "9.1".toList, none, "out".toList, false⟩).toOption.getD []).map
        (fun e => (e.output, e.patch.version.s, e.prev.map (fun q => q.version.s), e.symlinks)) =
      [("out/9.3".toList, "9.3".toList, some "9.1".toList, false)] ∧
    ((commandExport exExportElems exExportElems [] ⟨some "9.1".toList, some "none".toList, none, "out".toList, false⟩).toOption.getD []).map
        (fun e => (e.output, e.patch.version.s, e.prev.map (fun q => q.version.s), e.symlinks)) =
      [("out/9.1".toList, "9.1".toList, none, false)] ∧
    commandExport exExportElems exExportElems [] ⟨some "9.1".toList, none, none, "out".toList, false⟩ = .error .stopIteration ∧
    commandExport exExportElems exExportElems ["9.1".toList] ⟨none, none, none, "out".toList, false⟩ = .error .value ∧
    commandExport exExportElems exExportElems ["9.1".toList] ⟨none, none, some "9.1".toList, "out".toList, false⟩ = .error .usage := by
  refine ⟨by decide +kernel, by decide +kernel, by decide +kernel, by rfl, by rfl, by rfl⟩

/-! ## Cases that meet the hypotheses -/

/-- `C52_patch`: the request and the previous patch, in a list of patches -/
example : ∀ (p q r : Patch), p.version.s = "9.3".toList → q.version.s = "9.2".toList → r.version.s = "9.1".toList →
    Spec.Requested [p, q, r] "latest".toList p ∧ Spec.Requested [p, q, r] "9.2".toList q ∧
    Spec.Previous [p, q, r] "9.2".toList none (some r) ∧ Spec.Previous [p, q, r] "9.3".toList (some "none".toList) none := by
  intro p q r hp hq hr
  refine ⟨.inl ⟨rfl, rfl⟩, .inr ⟨by decide +kernel, [p], [r], rfl, hq, ?_⟩, .guessed none (by simp [Spec.Given]) [p] [] q r rfl hq ?_, .full⟩
  all_goals
    intro x hx
    rw [List.mem_singleton.1 hx, hp]
    decide +kernel

end Cdtb
