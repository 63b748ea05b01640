import Verif.Lemmas.ExportEntry
/-!
# C65 Content of a patch export
-/
namespace Cdtb
set_option autoImplicit false
open Py Spec

/-- The conversion of each path -/
theorem C65_converter (path : Str) (c : Converter) : getConverter patchConverters path = c ↔ HandledBy path c := getConverter_iff

/-- There is exactly one, whatever the order of conversions. -/
theorem C65_one (path : Str) : ∃! c, HandledBy path c :=
  ⟨_, getConverter_iff.1 rfl, fun _ h => (getConverter_iff.2 h).symm⟩

/-- Paths of converted files -/
theorem C65_names (path q : Str) : q ∈ convertedPaths patchConverters path ↔ ExportedAs path q := exportedAs_iff.symm

/-- Game files that are kept -/
theorem C65_kept (path : Str) : filterPath patchConverters path = true ↔ KeptInGame path := filterPath_iff

theorem get_flatMap {wads : Dict Str ExpWad} (hw : wads.WF) {w : ExpWad} : w ∈ wads.values ↔ ∃ wp, wads.get? wp = some w := by
  unfold Dict.values
  rw [List.mem_map]
  constructor
  · rintro ⟨⟨wp, w'⟩, h, rfl⟩
    exact ⟨wp, (Dict.mem_iff_get? hw).1 h⟩
  · rintro ⟨wp, h⟩
    exact ⟨(wp, w), (Dict.mem_iff_get? hw).2 h, rfl⟩

/-- What is extracted: the plain files, and the entries of WADs under their new paths. -/
theorem C65_contents (raw : Exporter) (v : Version) (h : Collected raw v) :
    ∃ e, transform raw v = .ok e ∧
      (∀ k src, e.plain.get? k = some src ↔ raw.plain.get? k = some src ∧ PlainExported k) ∧
      (∀ wp src f', (∃ w', e.wads.get? wp = some w' ∧ w'.path = src ∧ f' ∈ w'.files) ↔
        ∃ w f path, raw.wads.get? wp = some w ∧ w.path = src ∧ f ∈ w.files ∧ f' = { f with path := some path } ∧
          EntryExported (LangDirs v) wp f path) := by
  obtain ⟨b, hb, hbi⟩ := langSubdirs_iff h.version
  obtain ⟨e, ht, -, -, hp, hw⟩ := transform_spec raw v b h.plain h.wads hb
  refine ⟨e, ht, ?_, ?_⟩
  · intro k src
    have hd : endsWith k "/description.json".toList = false ↔ ¬ ∃ s, k = s ++ "/description.json".toList := by
      rw [Bool.eq_false_iff]
      exact not_congr endsWith_iff
    rw [hp, notExecutable_iff, hd]
    unfold PlainExported
    exact and_congr_right fun _ => and_assoc
  · intro wp src f'
    rw [h.converters] at hw
    constructor
    · rintro ⟨w', hw', rfl, hf⟩
      obtain ⟨w, h1, h2, h3, -⟩ := (hw wp w').1 hw'
      rw [h3] at hf
      obtain ⟨f, hf, he⟩ := List.mem_filterMap.1 hf
      obtain ⟨path, h4, h5⟩ := (entryT_iff hbi (h.hashes wp w h1 f hf)).1 he
      exact ⟨w, f, path, h1, h2.symm, hf, h4, h5⟩
    · rintro ⟨w, f, path, h1, rfl, hf, h4, h5⟩
      have hm : f' ∈ w.files.filterMap (entryT patchConverters b wp) :=
        List.mem_filterMap.2 ⟨f, hf, (entryT_iff hbi (h.hashes wp w h1 f hf)).2 ⟨path, h4, h5⟩⟩
      exact ⟨⟨w.path, w.files.filterMap (entryT patchConverters b wp)⟩, (hw wp _).2 ⟨w, h1, rfl, rfl, List.ne_nil_of_mem hm⟩, rfl, hm⟩

theorem exports_exportPath {raw e : Exporter} {v : Version} (h : Collected raw v) (he : transform raw v = .ok e) (q : Str) :
    e.Exports q ↔ ExportPath raw v q := by
  obtain ⟨e', he', hp, hw⟩ := C65_contents raw v h
  rw [he] at he'; cases he'
  obtain ⟨b, hb, -⟩ := langSubdirs_iff h.version
  obtain ⟨e', ht, hc, -⟩ := transform_spec raw v b h.plain h.wads hb
  rw [he] at ht; cases ht
  rw [h.converters] at hc
  unfold Exporter.Exports ExportPath Exporter.PlainGives Exporter.WadGives
  rw [hc]
  constructor
  · rintro (⟨k, s, h1, h2⟩ | ⟨wp, src, f', w', h1, h2, h3, path, h4, h5⟩)
    · obtain ⟨h1, h3⟩ := (hp k s).1 h1
      exact Or.inl ⟨k, s, h1, h3, exportedAs_iff.2 h2⟩
    · obtain ⟨w, f, path', g1, g2, g3, g4, g5⟩ := (hw wp src f').1 ⟨w', h1, h2, h3⟩
      rw [g4] at h4
      cases h4
      exact Or.inr ⟨wp, w, f, path, g1, g3, g5, exportedAs_iff.2 h5⟩
  · rintro (⟨k, s, h1, h2, h3⟩ | ⟨wp, w, f, path, g1, g3, g5, h5⟩)
    · exact Or.inl ⟨k, s, (hp k s).2 ⟨h1, h2⟩, exportedAs_iff.1 h3⟩
    · obtain ⟨w', h1, h2, h3⟩ := (hw wp w.path { f with path := some path }).2 ⟨w, f, path, g1, rfl, g3, rfl, g5⟩
      exact Or.inr ⟨wp, w.path, _, w', h1, h2, h3, path, rfl, exportedAs_iff.1 h5⟩

/-- The lists written by an export: `files.exported.txt` has the paths of all the files, changed or not since the previous
patch, and `files.unknown.txt` has the hashes of the entries without path, exported or not. -/
theorem C65_lists (iter : List Str → List Str) (hiter : ∀ l x, x ∈ iter l ↔ x ∈ l) (sortN : List Nat → List Nat) (hsortN : ∀ l x, x ∈ sortN l ↔ x ∈ l)
    (sortS : List Str → List Str) (hsort : ∀ l x, x ∈ sortS l ↔ x ∈ l) (raw : Exporter) (v : Version) (h : Collected raw v)
    (prev : Option (Exporter × Version)) (symlinks : Bool) (plan : Plan) (hplan : exportPlan iter sortN sortS raw v prev symlinks = .ok plan) :
    (∀ q, q ∈ plan.exported ↔ ExportPath raw v q ∨ q = "cdragon".toList ∧ (prev = none ∨ symlinks = false)) ∧
    (∀ n, n ∈ plan.unknown ↔ ∃ wp w f, raw.wads.get? wp = some w ∧ f ∈ w.files ∧ f.pathHash = n ∧ (f.path = none ∨ f.path = some [])) := by
  obtain ⟨b, hb, -⟩ := langSubdirs_iff h.version
  obtain ⟨e, ht, -, hr, -⟩ := transform_spec raw v b h.plain h.wads hb
  obtain ⟨new, hnew, hmem⟩ := allConverted_spec e hr
  have hmem' : ∀ q, q ∈ new ↔ ExportPath raw v q := fun q => (hmem q).trans (exports_exportPath h ht q)
  have hu : ∀ n, n ∈ sortN raw.unknownHashes ↔
      ∃ wp w f, raw.wads.get? wp = some w ∧ f ∈ w.files ∧ f.pathHash = n ∧ (f.path = none ∨ f.path = some []) := by
    intro n
    rw [hsortN]
    unfold Exporter.unknownHashes
    rw [List.mem_flatMap]
    constructor
    · rintro ⟨w, hw, hn⟩
      obtain ⟨wp, hw⟩ := (get_flatMap h.wads).1 hw
      obtain ⟨f, hf, rfl⟩ := List.mem_map.1 hn
      obtain ⟨hf, hn⟩ := List.mem_filter.1 hf
      exact ⟨wp, w, f, hw, hf, rfl, noPath_iff.1 hn⟩
    · rintro ⟨wp, w, f, hw, hf, rfl, hn⟩
      exact ⟨w, (get_flatMap h.wads).2 ⟨wp, hw⟩, List.mem_map.2 ⟨f, List.mem_filter.2 ⟨hf, noPath_iff.2 hn⟩, rfl⟩⟩
  unfold exportPlan at hplan
  rcases prev with _ | ⟨p, v'⟩
  · simp only [ht, bind, Except.bind, pure, Except.pure, hnew, Except.ok.injEq] at hplan
    subst hplan
    refine ⟨?_, hu⟩
    intro q
    rw [hsort, hiter, List.mem_append, hmem', List.mem_singleton]
    simp
  · simp only [ht, bind, Except.bind, pure, Except.pure] at hplan
    cases hp' : transform p v' with
    | error x => rw [hp'] at hplan; exact nomatch hplan
    | ok p' =>
      simp only [hp', hnew] at hplan
      cases hpc : p'.allConverted with
      | error x => rw [hpc] at hplan; exact nomatch hplan
      | ok pc =>
        simp only [hpc] at hplan
        cases symlinks with
        | false =>
          simp only [Bool.false_eq_true, if_false, Except.ok.injEq] at hplan
          subst hplan
          refine ⟨?_, hu⟩
          intro q
          rw [hsort, hiter, List.mem_append, hmem', List.mem_singleton]
          simp
        | true =>
          simp only [if_true] at hplan
          cases hch : (e.filterExporter p').allConverted with
          | error x => rw [hch] at hplan; exact nomatch hplan
          | ok ch =>
            simp only [hch] at hplan
            cases hlk : reduceCommonPaths (setDiff (iter new) ch) (iter pc) (iter ch) with
            | error x => rw [hlk] at hplan; exact nomatch hplan
            | ok lk =>
              simp only [hlk, Except.ok.injEq] at hplan
              subst hplan
              refine ⟨?_, hu⟩
              intro q
              rw [hsort, hiter, hmem']
              simp

/-! ## A concrete export -/

namespace C65ex

/-- An entry with a path, or an extension -/
def entry (h : Nat) (path ext : Option String) : WadEntry :=
  { exEntry h h "" with path := path.map String.toList, ext := ext.map String.toList }

def raw : Exporter where
  plain := [("plugins/a/description.json".toList, "s1".toList), ("client/a.exe".toList, "s2".toList), ("client/a.dds".toList, "s3".toList)]
  wads := [("plugins/rcp-BE-x/Default-assets12.wad".toList, ⟨"w1".toList, [entry 1 none (some "json"), entry 2 (some "plugins/x.tga") none]⟩),
    ("DATA/Aatrox.en_US.wad.client".toList, ⟨"w2".toList, [entry 3 (some "data/menu/a.stringtable") none, entry 4 (some "a_skins_b.bin") none,
      entry 5 none (some "bin"), entry 6 (some "assets/a.skn") none, entry 7 (some "a.dll") none, entry 8 (some "a.bnk") none, entry 9 none none]⟩)]
  converters := patchConverters

def v : Version := ⟨"14.10".toList, .nums [14, 10]⟩

theorem collected : Collected raw v where
  plain := by unfold Dict.WF; decide +kernel
  wads := by unfold Dict.WF; decide +kernel
  hashes := by
    intro wp w hw f hf
    have hm := (Dict.mem_iff_get? (by unfold Dict.WF; decide +kernel : raw.wads.WF)).2 hw
    have key : ∀ x ∈ raw.wads, ∀ f ∈ x.2.files, f.pathHash < 2 ^ 64 := by decide +kernel
    exact key _ hm f hf
  converters := rfl
  version := Or.inr ⟨_, rfl⟩

/-- All the paths of the export -/
theorem paths : ((transform raw v).toOption.bind fun e => e.allConverted.toOption) = some (["client/a.png",
    "plugins/rcp-be-x/unknown/0000000000000001.json", "plugins/x.png",
    "game/en_us/data/menu/a.stringtable", "game/en_us/data/menu/a.stringtable.json",
    "game/en_us/unknown/0000000000000005.bin", "game/en_us/unknown/0000000000000005.bin.json",
    "game/en_us/assets/a.skn", "game/en_us/assets/a"].map String.toList) := by decide +kernel

/-- The specification has the same ones. -/
example (q : Str) : ExportPath raw v q ↔ q ∈ ["client/a.png",
    "plugins/rcp-be-x/unknown/0000000000000001.json", "plugins/x.png",
    "game/en_us/data/menu/a.stringtable", "game/en_us/data/menu/a.stringtable.json",
    "game/en_us/unknown/0000000000000005.bin", "game/en_us/unknown/0000000000000005.bin.json",
    "game/en_us/assets/a.skn", "game/en_us/assets/a"].map String.toList := by
  obtain ⟨b, hb, -⟩ := langSubdirs_iff collected.version
  obtain ⟨e, ht, -, hr, -⟩ := transform_spec raw v b collected.plain collected.wads hb
  obtain ⟨new, hnew, hmem⟩ := allConverted_spec e hr
  have hp := paths
  rw [ht] at hp
  have hp : e.allConverted.toOption = _ := hp
  rw [hnew] at hp
  have hp := Option.some.inj hp
  rw [← exports_exportPath collected ht, ← hmem, hp]

/-- The hashes without path are listed. -/
example : raw.unknownHashes = [1, 5, 9] := by decide +kernel

/-- An atlas is not converted as a bin file. -/
example : HandledBy "game/assets/items/icons2d/autoatlas/a/atlas_info.bin".toList .atlas := getConverter_iff.1 (by decide +kernel)
example : HandledBy "game/a.bin".toList .bin := getConverter_iff.1 (by decide +kernel)

end C65ex

end Cdtb
