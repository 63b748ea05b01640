import Verif.Model.Export
import Verif.Lemmas.Dict
/-!
# C27 Filtering against a previous export drops exactly the identical files
-/
namespace Cdtb
set_option autoImplicit false
open Py

theorem filterPlain_wf (self : Dict Str Str) (hs : self.WF) (other : List (Str × Str)) : (filterPlain self other).WF := by
  induction other generalizing self with
  | nil => exact hs
  | cons x other ih =>
    obtain ⟨p, s⟩ := x
    rw [filterPlain]
    split
    · exact ih _ (hs.erase p)
    · exact ih _ hs

theorem get?_filterPlain (self : Dict Str Str) (hs : self.WF) (other : List (Str × Str)) (p s : Str) :
    (filterPlain self other).get? p = some s ↔ self.get? p = some s ∧ (p, s) ∉ other := by
  induction other generalizing self with
  | nil => simp [filterPlain]
  | cons x other ih =>
    obtain ⟨p', s'⟩ := x
    rw [filterPlain]
    by_cases h : self.get? p' = some s'
    · rw [if_pos h, ih _ (hs.erase p'), Dict.get?_erase hs, List.mem_cons, not_or]
      by_cases hp : p = p'
      · subst hp
        rw [if_pos rfl, h]
        constructor
        · rintro ⟨h, _⟩; cases h
        · rintro ⟨h1, h2, _⟩; cases h1; exact absurd rfl h2
      · rw [if_neg hp]
        constructor
        · rintro ⟨h1, h2⟩; exact ⟨h1, by rintro ⟨⟩; exact hp rfl, h2⟩
        · rintro ⟨h1, _, h2⟩; exact ⟨h1, h2⟩
    · rw [if_neg h, ih _ hs, List.mem_cons, not_or]
      constructor
      · rintro ⟨h1, h2⟩; exact ⟨h1, by rintro ⟨⟩; exact h h1, h2⟩
      · rintro ⟨h1, _, h2⟩; exact ⟨h1, h2⟩

/-- A plain file remains unless the other exporter exports the same path from the same source. -/
theorem C27_plain (self other : Exporter) (hs : self.plain.WF) (ho : other.plain.WF) (p s : Str) :
    (self.filterExporter other).plain.get? p = some s ↔
      self.plain.get? p = some s ∧ other.plain.get? p ≠ some s := by
  unfold Exporter.filterExporter
  simp only
  rw [get?_filterPlain _ hs, Dict.mem_iff_get? ho]

/-- What is left of a WAD -/
def remaining (w other : ExpWad) : Option ExpWad :=
  if w.path = other.path then none
  else
    let files := w.files.filter (fun f => decide (f.sha256 ≠ ((otherSha other.files).get? f.pathHash).join))
    if files.isEmpty then none else some { w with files := files }

theorem filterWads_step (self : Dict Str ExpWad) (hs : self.WF) (path : Str) (other : ExpWad) (rest : List (Str × ExpWad)) :
    ∃ d : Dict Str ExpWad, d.WF ∧ filterWads self ((path, other) :: rest) = filterWads d rest ∧
      (∀ q, d.get? q = if q = path then (self.get? path).bind (fun w => remaining w other) else self.get? q) := by
  rw [filterWads]
  rcases hg : self.get? path with _ | w
  · refine ⟨self, hs, rfl, fun q => ?_⟩
    by_cases hq : q = path
    · rw [if_pos hq, hq, hg]; rfl
    · rw [if_neg hq]
  · simp only [Option.bind_some, remaining]
    by_cases h1 : w.path = other.path
    · rw [if_pos h1]
      refine ⟨_, hs.erase path, rfl, fun q => ?_⟩
      rw [Dict.get?_erase hs, if_pos h1]
    · rw [if_neg h1, if_neg h1]
      generalize w.files.filter (fun f => decide (f.sha256 ≠ ((otherSha other.files).get? f.pathHash).join)) = files
      by_cases h2 : files.isEmpty = true
      · rw [if_pos h2, if_pos h2]
        refine ⟨_, hs.erase path, rfl, fun q => ?_⟩
        rw [Dict.get?_erase hs]
      · rw [if_neg h2, if_neg h2]
        refine ⟨_, hs.set path _, rfl, fun q => ?_⟩
        rw [Dict.get?_set]

theorem get?_filterWads (self : Dict Str ExpWad) (hs : self.WF) (other : List (Str × ExpWad)) (ho : Dict.WF other) (p : Str) :
    (filterWads self other).get? p = match Dict.get? other p with
      | none => self.get? p
      | some o => (self.get? p).bind (fun w => remaining w o) := by
  induction other generalizing self with
  | nil => simp [filterWads, Dict.get?]
  | cons x other ih =>
    obtain ⟨path, o⟩ := x
    obtain ⟨d, hd, e, hg⟩ := filterWads_step self hs path o other
    have ho' : path ∉ Dict.keys other ∧ Dict.WF other := by
      unfold Dict.WF at ho ⊢; rw [Dict.keys_cons] at ho; exact List.nodup_cons.1 ho
    rw [e, ih d hd ho'.2, Dict.get?, hg]
    by_cases hp : path = p
    · subst hp
      rw [if_pos rfl, if_pos rfl]
      rw [Dict.get?_eq_none.2 ho'.1]
    · rw [if_neg hp, if_neg (Ne.symm hp)]

/-- A WAD that the other exporter does not export is left as it is. -/
theorem C27_new_wad (self other : Exporter) (hs : self.wads.WF) (ho : other.wads.WF) (p : Str)
    (hp : other.wads.get? p = none) : (self.filterExporter other).wads.get? p = self.wads.get? p := by
  unfold Exporter.filterExporter
  simp only
  rw [get?_filterWads _ hs _ ho, hp]

/-- A WAD exported by both from the same source file is dropped. -/
theorem C27_same_wad (self other : Exporter) (hs : self.wads.WF) (ho : other.wads.WF) (p : Str) (w o : ExpWad)
    (hw : self.wads.get? p = some w) (hp : other.wads.get? p = some o) (h : w.path = o.path) :
    (self.filterExporter other).wads.get? p = none := by
  unfold Exporter.filterExporter
  simp only
  rw [get?_filterWads _ hs _ ho, hp, hw]
  simp [remaining, h]

theorem otherSha_get? (files : List WadEntry) (hn : (files.map (·.pathHash)).Nodup) (h : Nat) (s : Option Nat) :
    (otherSha files).get? h = some s ↔ ∃ g ∈ files, g.pathHash = h ∧ g.sha256 = s := by
  unfold otherSha
  have hn' : ((files.map (fun f => (f.pathHash, f.sha256))).map (·.1)).Nodup := by
    rw [List.map_map]; exact hn
  rw [Dict.ofList_of_nodup hn', ← Dict.mem_iff_get? hn', List.mem_map]
  constructor
  · rintro ⟨g, hg, e⟩; cases e; exact ⟨g, hg, rfl, rfl⟩
  · rintro ⟨g, hg, rfl, rfl⟩; exact ⟨g, hg, rfl⟩

/-- Inside a WAD exported by both from different sources: the entries that remain are, in order, those for which the other
WAD has no entry with the same path hash and the same checksum (entries have a checksum, and the other WAD has one entry
per path hash); the WAD is dropped when there is none. -/
theorem C27_wad_files (self other : Exporter) (hs : self.wads.WF) (ho : other.wads.WF) (p : Str) (w o : ExpWad)
    (hw : self.wads.get? p = some w) (hp : other.wads.get? p = some o) (h : w.path ≠ o.path)
    (hn : (o.files.map (·.pathHash)).Nodup) (hsum : ∀ f ∈ w.files, f.sha256 ≠ none) :
    ∃ files, files.Sublist w.files ∧
      (∀ f ∈ w.files, f ∈ files ↔ ¬ ∃ g ∈ o.files, g.pathHash = f.pathHash ∧ g.sha256 = f.sha256) ∧
      (self.filterExporter other).wads.get? p = if files = [] then none else some ⟨w.path, files⟩ := by
  refine ⟨w.files.filter (fun f => decide (f.sha256 ≠ ((otherSha o.files).get? f.pathHash).join)), List.filter_sublist, ?_, ?_⟩
  · intro f hf
    rw [List.mem_filter, decide_eq_true_eq]
    constructor
    · rintro ⟨_, hne⟩ ⟨g, hg, e1, e2⟩
      apply hne
      rw [(otherSha_get? o.files hn f.pathHash f.sha256).2 ⟨g, hg, e1, e2⟩]
      rfl
    · intro hno
      refine ⟨hf, fun e => hno ?_⟩
      rcases hg : (otherSha o.files).get? f.pathHash with _ | s
      · rw [hg] at e; exact absurd e (hsum f hf)
      · rw [hg] at e
        have e : f.sha256 = s := e
        obtain ⟨g, hg1, hg2, hg3⟩ := (otherSha_get? o.files hn f.pathHash s).1 hg
        exact ⟨g, hg1, hg2, by rw [hg3, e]⟩
  · unfold Exporter.filterExporter
    simp only
    rw [get?_filterWads _ hs _ ho, hp, hw]
    simp only [Option.bind_some, remaining, if_neg h, List.isEmpty_iff]

/-- Boundary: entries without checksum (version 1 WADs) are all dropped when the other exporter has a WAD of this path whose
entries have none either, even if they are new or changed. -/
theorem C27_no_checksum (self other : Exporter) (hs : self.wads.WF) (ho : other.wads.WF) (p : Str) (w o : ExpWad)
    (hw : self.wads.get? p = some w) (hp : other.wads.get? p = some o)
    (h1 : ∀ f ∈ w.files, f.sha256 = none) (h2 : ∀ g ∈ o.files, g.sha256 = none) :
    (self.filterExporter other).wads.get? p = none := by
  unfold Exporter.filterExporter
  simp only
  rw [get?_filterWads _ hs _ ho, hp, hw]
  simp only [Option.bind_some, remaining]
  by_cases h : w.path = o.path
  · rw [if_pos h]
  · rw [if_neg h]
    have : w.files.filter (fun f => decide (f.sha256 ≠ ((otherSha o.files).get? f.pathHash).join)) = [] := by
      rw [List.filter_eq_nil_iff]
      intro f hf hd
      rw [decide_eq_true_eq] at hd
      apply hd
      rw [h1 f hf]
      rcases hg : (otherSha o.files).get? f.pathHash with _ | s
      · rfl
      · have hm := Dict.mem_of_get? hg
        have hk : (f.pathHash, s) ∈ o.files.map (fun f => (f.pathHash, f.sha256)) := by
          have := hg
          unfold otherSha at this
          rw [Dict.get?_ofList] at this
          rcases hf' : List.find? (fun kv : Nat × Option Nat => decide (kv.1 = f.pathHash))
              (o.files.map (fun f => (f.pathHash, f.sha256))).reverse with _ | kv
          · rw [hf'] at this; cases this
          · rw [hf'] at this
            have e1 := List.find?_some hf'
            have e2 := List.mem_of_find?_eq_some hf'
            rw [decide_eq_true_eq] at e1
            simp only [Option.map_some, Option.some.injEq] at this
            rw [← e1, ← this]
            exact List.mem_reverse.1 e2
        obtain ⟨g, hg1, hg2⟩ := List.mem_map.1 hk
        rw [← (Prod.mk.inj hg2).2, h2 g hg1]
        rfl
    rw [this]
    rfl

/-- Nothing else changes: no path and no WAD is added, and the converters are the same. -/
theorem C27_only_removes (self other : Exporter) (hs : self.wads.WF) (ho : other.wads.WF) (hp : self.plain.WF) (p : Str) :
    (∀ s, (self.filterExporter other).plain.get? p = some s → self.plain.get? p = some s) ∧
    (∀ w', (self.filterExporter other).wads.get? p = some w' → ∃ w, self.wads.get? p = some w ∧ w'.path = w.path ∧
      w'.files.Sublist w.files) ∧
    (self.filterExporter other).converters = self.converters := by
  refine ⟨?_, ?_, rfl⟩
  · intro s h
    unfold Exporter.filterExporter at h
    simp only at h
    exact ((get?_filterPlain _ hp _ p s).1 h).1
  · intro w' h
    unfold Exporter.filterExporter at h
    simp only at h
    rw [get?_filterWads _ hs _ ho] at h
    rcases hg : other.wads.get? p with _ | o
    · rw [hg] at h
      exact ⟨w', h, rfl, List.Sublist.refl _⟩
    · rw [hg] at h
      rcases hw : self.wads.get? p with _ | w
      · rw [hw] at h; cases h
      · rw [hw] at h
        simp only [Option.bind_some, remaining] at h
        refine ⟨w, rfl, ?_⟩
        split at h
        · cases h
        · split at h
          · cases h
          · cases h
            exact ⟨rfl, List.filter_sublist⟩

/-- Non-vacuity: of three entries, the one with the same checksum is dropped, the changed one and the new one remain. -/
example :
    let f (h s : Nat) : WadEntry := { pathHash := h, offset := 0, compressedSize := 0, size := 0, type := 0, subchunkCount := 0, duplicate := false, firstSubchunk := none, sha256 := some s }
    (filterWads [("a.wad".toList, ⟨"s2".toList, [f 1 1, f 2 2, f 3 3]⟩)] [("a.wad".toList, ⟨"s1".toList, [f 1 1, f 2 9]⟩)])
      = [("a.wad".toList, ⟨"s2".toList, [f 2 2, f 3 3]⟩)] := by decide +kernel

/-! ## Cases that meet the hypotheses -/

/-- `C27_same_wad`, `C27_new_wad`, `C27_no_checksum` -/
example :
    let f (h : Nat) (s : Option Nat) : WadEntry := { pathHash := h, offset := 0, compressedSize := 0, size := 0, type := 0, subchunkCount := 0, duplicate := false, firstSubchunk := none, sha256 := s }
    filterWads [("a.wad".toList, ⟨"s".toList, [f 1 (some 1)]⟩), ("b.wad".toList, ⟨"t".toList, [f 1 (some 1)]⟩), ("c.wad".toList, ⟨"s2".toList, [f 1 none]⟩)]
        [("a.wad".toList, ⟨"s".toList, [f 1 (some 2)]⟩), ("c.wad".toList, ⟨"s1".toList, [f 2 none]⟩)]
      = [("b.wad".toList, ⟨"t".toList, [f 1 (some 1)]⟩)] := by decide +kernel

end Cdtb
