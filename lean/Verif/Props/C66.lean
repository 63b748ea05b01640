import Verif.Lemmas.Collect
import Verif.Props.C65
import Verif.Props.C62
import Verif.Spec.ExportFiles
/-!
# C66 Collecting the files of a patch from disk
-/
namespace Cdtb
set_option autoImplicit false
open Py Spec

/-- The exporter of a patch before any file is added (cdtb/export.py:405-417) -/
def emptyExporter : Exporter := ⟨[], [], patchConverters⟩

/-- The exporter after the collection -/
theorem collect_raw {cx : Codecs} {dir : Str} {fs : FS} {ext : Nat → Option Str} {cache : Dict Nat (Option Str)} {l : List (Str × Str)}
    (hc : RightCache ext cache) (h : ∀ x ∈ l, IsWadFile x.1 → ReadableWad cx dir fs ext x.1) :
    ∃ c raw, emptyExporter.addPaths cx dir fs cache l = .ok (c, raw) ∧ RightCache ext c ∧
      (∀ dst src, raw.plain.get? dst = some src ↔ LastPlain l src dst) ∧
      (∀ dst w, raw.wads.get? dst = some w ↔ ∃ src, LastWad l src dst ∧ w = collectedWad cx dir fs src) ∧
      raw.plain.WF ∧ raw.wads.WF ∧ raw.converters = patchConverters := by
  obtain ⟨c, h1, h2⟩ := addPaths_spec l cache emptyExporter hc h
  refine ⟨c, _, h1, h2, ?_, ?_, setAll_WF (fun s => ¬ IsWadFile s) id l [] .nil, setAll_WF IsWadFile (collectedWad cx dir fs) l [] .nil, rfl⟩
  · intro dst src
    show (setAll (fun s => ¬ IsWadFile s) id l ([] : Dict Str Str)).get? dst = some src ↔ _
    rw [setAll_get]
    constructor
    · rintro (⟨s, a, b, rfl, h3, h4, rfl⟩ | ⟨-, h3⟩)
      · exact ⟨a, b, rfl, h3, fun x hx hd => not_not.1 (h4 x hx hd)⟩
      · cases h3
    · rintro ⟨a, b, rfl, h3, h4⟩
      exact Or.inl ⟨src, a, b, rfl, h3, fun x hx hd => not_not.2 (h4 x hx hd), rfl⟩
  · intro dst w
    show (setAll IsWadFile (collectedWad cx dir fs) l ([] : Dict Str ExpWad)).get? dst = some w ↔ _
    rw [setAll_get]
    constructor
    · rintro (⟨s, a, b, rfl, h3, h4, rfl⟩ | ⟨-, h3⟩)
      · exact ⟨s, ⟨a, b, rfl, h3, h4⟩, rfl⟩
      · cases h3
    · rintro ⟨s, ⟨a, b, rfl, h3, h4⟩, rfl⟩
      exact Or.inl ⟨s, a, b, rfl, h3, h4, rfl⟩

theorem collectedWad_path (cx : Codecs) (dir : Str) (fs : FS) (src : Str) : (collectedWad cx dir fs src).path = src := by
  unfold collectedWad
  split <;> rfl

/-- The list of files is collected without error when archives can be read. Each export path gets its last source, and the files of archives are
their records, in order, besides redirections. Guessed extensions remain right. -/
theorem C66_collect (cx : Codecs) (dir : Str) (fs : FS) (ext : Nat → Option Str) (cache : Dict Nat (Option Str)) (l : List (Str × Str))
    (hc : RightCache ext cache) (h : ∀ x ∈ l, IsWadFile x.1 → ReadableWad cx dir fs ext x.1) :
    ∃ c raw, emptyExporter.addPaths cx dir fs cache l = .ok (c, raw) ∧ RightCache ext c ∧
      (∀ dst src, raw.plain.get? dst = some src ↔ LastPlain l src dst) ∧
      (∀ dst src, (∃ w, raw.wads.get? dst = some w ∧ w.path = src) ↔ LastWad l src dst) ∧
      (∀ dst w hashes file f version rs toc, raw.wads.get? dst = some w → Opens cx dir fs w.path none hashes file f version rs toc →
        List.Forall₂ (fun r e => ∃ path ext, e = { WadRecord.entry f r with path, ext }) (rs.filter fun r => r.type ≠ 2) w.files) ∧
      (∀ v, v.s = "main".toList ∨ (∃ t, v.t = .nums t) → Collected raw v) := by
  obtain ⟨c, raw, h1, h2, hpl, hwd, hp, hw, hcv⟩ := collect_raw hc h
  refine ⟨c, raw, h1, h2, hpl, ?_, ?_, ?_⟩
  · intro dst src
    constructor
    · rintro ⟨w, h3, rfl⟩
      obtain ⟨s, h4, rfl⟩ := (hwd dst w).1 h3
      rwa [collectedWad_path]
    · intro h3
      exact ⟨_, (hwd dst _).2 ⟨src, h3, rfl⟩, collectedWad_path cx dir fs src⟩
  · intro dst w hashes file f version rs toc h3 ho
    obtain ⟨s, h4, rfl⟩ := (hwd dst w).1 h3
    rw [collectedWad_path] at ho
    rw [collectedWad_opens ho]
    simp only
    rw [List.forall₂_map_right_iff]
    exact List.forall₂_same.2 fun r _ => collectedEntry_isEntry cx hashes file toc f r
  · intro v hv
    refine ⟨hp, hw, ?_, hcv, hv⟩
    intro wp w hw e he
    obtain ⟨s, h4, rfl⟩ := (hwd wp w).1 hw
    obtain ⟨a, b, rfl, h5, -⟩ := h4
    obtain ⟨hashes, file, f, version, rs, toc, ho, -⟩ := h (s, wp) (by simp) h5
    rw [collectedWad_opens ho] at he
    obtain ⟨r, hr, rfl⟩ := List.mem_map.1 he
    rw [isEntry_hash (collectedEntry_isEntry cx hashes file toc f r)]
    have := (ho.archive.fits r (List.mem_filter.1 hr).1).hash
    omega

theorem guessOf_exists {cx : Codecs} {hashes : Dict Int Str} {file : Bytes} {toc : Option Bytes} {f : WadFormat} {r : WadRecord}
    (h : WithoutExt hashes r → ∃ c, Contains cx file toc f r c) : ∃ g, GuessOf cx hashes file toc f r g ∧ g.length ≤ 228 := by
  by_cases hw : WithoutExt hashes r
  · obtain ⟨c, hc⟩ := h hw
    have := (dotGuess_plain cx (c.getD [])).2
    exact ⟨_, fun _ => ⟨c, hc, rfl⟩, by omega⟩
  · exact ⟨[], fun h => absurd h hw, by simp⟩

/-- The files of the export, from the archives -/
theorem C66_export (cx : Codecs) (dir : Str) (fs : FS) (ext : Nat → Option Str) (cache : Dict Nat (Option Str)) (l : List (Str × Str))
    (hc : RightCache ext cache) (h : ∀ x ∈ l, IsWadFile x.1 → ReadableWad cx dir fs ext x.1) (c : Dict Nat (Option Str)) (raw : Exporter)
    (hraw : emptyExporter.addPaths cx dir fs cache l = .ok (c, raw)) (v : Version) :
    (∀ q, ExportPath raw v q ↔ PatchExports cx dir fs l v q) ∧
    ∀ n, (∃ wp w f, raw.wads.get? wp = some w ∧ f ∈ w.files ∧ f.pathHash = n ∧ (f.path = none ∨ f.path = some [])) ↔ PatchUnknown cx dir fs l n := by
  obtain ⟨c', raw', h1, -, hpl, hwd, -⟩ := collect_raw hc h
  rw [hraw] at h1
  cases h1
  refine ⟨fun q => ⟨?_, ?_⟩, fun n => ⟨?_, ?_⟩⟩
  · rintro (⟨k, src, h1, h2⟩ | ⟨wp, w, e, path, h1, h2, ⟨name, h3, h4, h5⟩, h6⟩)
    · exact Or.inl ⟨src, k, (hpl k src).1 h1, h2⟩
    · obtain ⟨src, hl, rfl⟩ := (hwd wp w).1 h1
      obtain ⟨a, b, hab, hwf, -⟩ := id hl
      obtain ⟨hashes, file, f, version, rs, toc, ho, hr, hx⟩ := h (src, wp) (by simp [hab]) hwf
      rw [collectedWad_opens ho] at h2
      obtain ⟨r, hm, rfl⟩ := List.mem_map.1 h2
      obtain ⟨hm, ht⟩ := List.mem_filter.1 hm
      have ht : r.type ≠ 2 := by simpa using ht
      obtain ⟨g, hg, hgl⟩ := guessOf_exists fun hn => (hr r hm ht hn).imp fun _ h => h.1
      exact Or.inr ⟨src, wp, hashes, file, f, version, rs, toc, r, g, name, path, hl, ho, hm, ht, hg,
        entryName_exportName (ho.archive.fits r hm).hash (hx r hm) hg h3 hgl, h4, h5, h6⟩
  · rintro (⟨src, k, h1, h2⟩ | ⟨src, wp, hashes, file, f, version, rs, toc, r, g, name, path, hl, ho, hm, ht, hg, h3, h4, h5, h6⟩)
    · exact Or.inl ⟨k, src, (hpl k src).2 h1, h2⟩
    · refine Or.inr ⟨wp, _, collectedEntry cx hashes file toc f r, path, (hwd wp _).2 ⟨src, hl, rfl⟩, ?_,
        ⟨name, exportName_entryName (ho.archive.fits r hm).hash hg h3, h4, h5⟩, h6⟩
      rw [collectedWad_opens ho]
      exact List.mem_map_of_mem (List.mem_filter.2 ⟨hm, by simpa using ht⟩)
  · rintro ⟨wp, w, e, h1, h2, rfl, h3⟩
    obtain ⟨src, hl, rfl⟩ := (hwd wp w).1 h1
    obtain ⟨a, b, hab, hwf, -⟩ := id hl
    obtain ⟨hashes, file, f, version, rs, toc, ho, hr, hx⟩ := h (src, wp) (by simp [hab]) hwf
    rw [collectedWad_opens ho] at h2
    obtain ⟨r, hm, rfl⟩ := List.mem_map.1 h2
    obtain ⟨hm, ht⟩ := List.mem_filter.1 hm
    exact ⟨src, wp, hashes, file, f, version, rs, toc, r, hl, ho, hm, by simpa using ht,
      (isEntry_hash (collectedEntry_isEntry cx hashes file toc f r)).symm, collectedEntry_noPath.1 h3⟩
  · rintro ⟨src, wp, hashes, file, f, version, rs, toc, r, hl, ho, hm, ht, rfl, h3⟩
    refine ⟨wp, _, collectedEntry cx hashes file toc f r, (hwd wp _).2 ⟨src, hl, rfl⟩, ?_,
      isEntry_hash (collectedEntry_isEntry cx hashes file toc f r), collectedEntry_noPath.2 h3⟩
    rw [collectedWad_opens ho]
    exact List.mem_map_of_mem (List.mem_filter.2 ⟨hm, by simpa using ht⟩)

/-- Sources on disk (cdtb/export.py:277, 286). They do not change between the collection and the export. -/
def diskSources (cx : Codecs) (dir : Str) (fs : FS) : ExportSources where
  plain := fs.readFile
  wad p := (commandOpen cx dir fs p none).map fun w => (w.file, w.toc)
  codecs := cx

theorem readFile_iff {fs : FS} {p : Str} {d : Bytes} : fs.readFile p = .ok d ↔ fs p = some (.file d) := by
  unfold FS.readFile
  cases fs p with
  | none => simp
  | some n => cases n <;> simp

theorem isEntry_contains {cx : Codecs} {file : Bytes} {toc : Option Bytes} {f : WadFormat} {r : WadRecord} {w : WadEntry} {d : Bytes}
    (hw : IsEntry f r w) : readFileData cx w file toc = .ok (some d) ↔ Contains cx file toc f r (some d) :=
  ⟨fun h => read_contains hw (((C11_read_file_data cx _ file toc d).1).1 h), fun h => contains_readFile h hw⟩

/-- What is exported, before conversion: the files of the export and their contents are those of the archives. `C59` tells what is then left in the
output directory. -/
theorem C66_data (cx : Codecs) (dir : Str) (fs : FS) (ext : Nat → Option Str) (cache : Dict Nat (Option Str)) (l : List (Str × Str))
    (hc : RightCache ext cache) (h : ∀ x ∈ l, IsWadFile x.1 → ReadableWad cx dir fs ext x.1) (c : Dict Nat (Option Str)) (raw : Exporter)
    (hraw : emptyExporter.addPaths cx dir fs cache l = .ok (c, raw)) (v : Version) (hv : v.s = "main".toList ∨ ∃ t, v.t = .nums t) :
    ∃ e, transform raw v = .ok e ∧ ∀ p d, Spec.Exports e (diskSources cx dir fs) p d ↔ ExportedFile cx dir fs l v p d := by
  obtain ⟨c', raw', h1, -, -, -, -, hcol⟩ := C66_collect cx dir fs ext cache l hc h
  rw [hraw] at h1
  cases h1
  have hcol := hcol v hv
  obtain ⟨c', raw', h1, -, hpl, hwd, -⟩ := collect_raw hc h
  rw [hraw] at h1
  cases h1
  obtain ⟨e, he, hep, hew⟩ := C65_contents raw v hcol
  obtain ⟨b, hb, -⟩ := langSubdirs_iff hcol.version
  obtain ⟨e', ht, -, ⟨hWFp, hWFw, -⟩, -, -⟩ := transform_spec raw v b hcol.plain hcol.wads hb
  rw [he] at ht; cases ht
  refine ⟨e, he, fun p d => ⟨?_, ?_⟩⟩
  · rintro (⟨src, hm, hd⟩ | ⟨w, hw, wf, hwf, hp, content, toc, hopen, hread⟩)
    · obtain ⟨h2, h3⟩ := (hep p src).1 ((Dict.mem_iff_get? hWFp).1 hm)
      exact Or.inl ⟨src, (hpl p src).1 h2, h3, readFile_iff.1 hd⟩
    · obtain ⟨wp, hw⟩ := (get_flatMap hWFw).1 hw
      obtain ⟨w0, f0, path, g1, g2, g3, g4, ⟨name, g5, g6, g7⟩⟩ := (hew wp w.path wf).1 ⟨w, hw, rfl, hwf⟩
      rw [g4] at hp
      cases hp
      obtain ⟨src, hl, rfl⟩ := (hwd wp w0).1 g1
      rw [collectedWad_path] at g2
      obtain ⟨a, b, hab, hwf', -⟩ := id hl
      obtain ⟨hashes, file, f, version, rs, toc', ho, hr, hx⟩ := h (src, wp) (by simp [hab]) hwf'
      rw [collectedWad_opens ho] at g3
      obtain ⟨r, hm, rfl⟩ := List.mem_map.1 g3
      obtain ⟨hm, ht⟩ := List.mem_filter.1 hm
      have ht : r.type ≠ 2 := by simpa using ht
      obtain ⟨g, hg, hgl⟩ := guessOf_exists fun hn => (hr r hm ht hn).imp fun _ h => h.1
      have hop : (commandOpen cx dir fs src none).map (fun w => (w.file, w.toc)) = .ok (content, toc) := by rw [g2]; exact hopen
      rw [commandOpen_opens ho] at hop
      cases hop
      rw [g4] at hread
      exact Or.inr ⟨src, wp, hashes, file, f, version, rs, toc', r, g, name, hl, ho, hm, ht, hg,
        entryName_exportName (ho.archive.fits r hm).hash (hx r hm) hg g5 hgl, g6, g7,
        (isEntry_contains (collectedEntry_isEntry cx hashes file toc' f r)).1 hread⟩
  · rintro (⟨src, h2, h3, h4⟩ | ⟨src, wp, hashes, file, f, version, rs, toc, r, g, name, hl, ho, hm, ht, hg, h3, h4, h5, h6⟩)
    · exact Or.inl ⟨src, (Dict.mem_iff_get? hWFp).2 ((hep p src).2 ⟨(hpl p src).2 h2, h3⟩), readFile_iff.2 h4⟩
    · have hme : collectedEntry cx hashes file toc f r ∈ (collectedWad cx dir fs src).files := by
        rw [collectedWad_opens ho]
        exact List.mem_map_of_mem (List.mem_filter.2 ⟨hm, by simpa using ht⟩)
      obtain ⟨w', g1, g2, g3⟩ := (hew wp src { collectedEntry cx hashes file toc f r with path := some p }).2
        ⟨_, _, p, (hwd wp _).2 ⟨src, hl, rfl⟩, collectedWad_path cx dir fs src, hme, rfl,
          ⟨name, exportName_entryName (ho.archive.fits r hm).hash hg h3, h4, h5⟩⟩
      refine Or.inr ⟨w', (get_flatMap hWFw).2 ⟨wp, g1⟩, _, g3, rfl, file, toc, ?_, ?_⟩
      · show (commandOpen cx dir fs w'.path none).map _ = _
        rw [g2, commandOpen_opens ho]; rfl
      · exact (isEntry_contains (collectedEntry_isEntry cx hashes file toc f r)).2 h6

/-- The lists written by an export, from the archives on disk -/
theorem C66_lists (iter : List Str → List Str) (hiter : ∀ l x, x ∈ iter l ↔ x ∈ l) (sortN : List Nat → List Nat) (hsortN : ∀ l x, x ∈ sortN l ↔ x ∈ l)
    (sortS : List Str → List Str) (hsort : ∀ l x, x ∈ sortS l ↔ x ∈ l)
    (cx : Codecs) (dir : Str) (fs : FS) (ext : Nat → Option Str) (cache : Dict Nat (Option Str)) (l : List (Str × Str))
    (hc : RightCache ext cache) (h : ∀ x ∈ l, IsWadFile x.1 → ReadableWad cx dir fs ext x.1) (c : Dict Nat (Option Str)) (raw : Exporter)
    (hraw : emptyExporter.addPaths cx dir fs cache l = .ok (c, raw)) (v : Version) (hv : v.s = "main".toList ∨ ∃ t, v.t = .nums t)
    (prev : Option (Exporter × Version)) (symlinks : Bool) (plan : Plan) (hplan : exportPlan iter sortN sortS raw v prev symlinks = .ok plan) :
    (∀ q, q ∈ plan.exported ↔ PatchExports cx dir fs l v q ∨ q = "cdragon".toList ∧ (prev = none ∨ symlinks = false)) ∧
    (∀ n, n ∈ plan.unknown ↔ PatchUnknown cx dir fs l n) := by
  obtain ⟨c', raw', h1, -, -, -, -, h2⟩ := C66_collect cx dir fs ext cache l hc h
  rw [hraw] at h1
  cases h1
  obtain ⟨h3, h4⟩ := C65_lists iter hiter sortN hsortN sortS hsort raw v (h2 v hv) prev symlinks plan hplan
  obtain ⟨h5, h6⟩ := C66_export cx dir fs ext cache l hc h c raw hraw v
  exact ⟨fun q => (h3 q).trans (or_congr_left (h5 q)), fun n => (h4 n).trans (h6 n)⟩

/-- The collection of a patch fails when an archive is missing. -/
theorem C66_missing (cx : Codecs) (dir : Str) (fs : FS) (src dst : Str) (hw : IsWadFile src) (hm : ∀ b, fs src ≠ some (.file b)) :
    ∀ (l : List (Str × Str)) (cache : Dict Nat (Option Str)) (e : Exporter), (src, dst) ∈ l → ∃ x, e.addPaths cx dir fs cache l = .error x
  | [], _, _, h => by cases h
  | (s, d) :: l, cache, e, h => by
    unfold Exporter.addPaths
    cases ha : e.addPath cx dir fs cache s d with
    | error x => exact ⟨x, rfl⟩
    | ok r =>
      obtain ⟨c, e'⟩ := r
      simp only
      rcases List.mem_cons.1 h with h | h
      · cases h
        exfalso
        unfold Exporter.addPath at ha
        rw [if_pos (isWadFile_iff.2 hw)] at ha
        have : ∃ x, commandOpen cx dir fs src none = .error x := by
          unfold commandOpen
          cases hashFilePath dir src none with
          | error x => exact ⟨x, rfl⟩
          | ok p =>
            simp only [bind, Except.bind]
            cases loadHashFile fs p with
            | error x => exact ⟨x, rfl⟩
            | ok t =>
              simp only
              have : ∃ x, fs.readFile src = .error x := by
                unfold FS.readFile
                cases hf : fs src with
                | none => exact ⟨_, rfl⟩
                | some n =>
                  cases n with
                  | file b => exact absurd hf (hm b)
                  | dir => exact ⟨_, rfl⟩
              obtain ⟨x, hx⟩ := this
              exact ⟨x, by rw [hx]⟩
        obtain ⟨x, hx⟩ := this
        rw [hx] at ha
        cases ha
      · exact C66_missing cx dir fs src dst hw hm l c e' h

/-- So does it when the data of a file without extension, which is not guessed yet, cannot be decompressed: one broken file prevents the export. -/
theorem C66_broken (cx : Codecs) (dir : Str) (fs : FS) (src dst : Str) (hw : IsWadFile src) (hashes : Dict Int Str) (file : Bytes) (f : WadFormat)
    (version : Nat × Nat) (rs : List WadRecord) (toc : Option Bytes) (ho : Opens cx dir fs src none hashes file f version rs toc)
    (cache : Dict Nat (Option Str)) (e : Exporter) (r : WadRecord) (hr : r ∈ rs) (hn : WithoutExt hashes r) (hc : cache.get? r.hash = none)
    (x : Err) (hx : x ≠ .malformedSubchunk)
    (hb : (r.type = 1 ∧ cx.gunzip (packed file r) = .error x) ∨ (r.type = 3 ∧ cx.unzstd (packed file r) = .error x)) :
    ∃ y, e.addPath cx dir fs cache src dst = .error y := by
  have ht : r.type ≠ 2 := by rcases hb with ⟨h, -⟩ | ⟨h, -⟩ <;> omega
  have hrd : readFileData cx (resolvedEntry hashes f r) file toc = .error x := by
    obtain ⟨p, ex, he⟩ := resolvedEntry_isEntry hashes f r
    have hpk : (file.drop r.offset).take r.compressedSize = packed file r := by
      unfold packed slice
      rw [List.take_drop]
    have : readData cx (resolvedEntry hashes f r) file toc = .error x := by
      rw [he]
      unfold readData
      show (if r.type = 0 then _ else _) = _
      rcases hb with ⟨h, h'⟩ | ⟨h, h'⟩
      · rw [if_neg (by omega)]
        show (if r.type = 1 then _ else _) = _
        rw [if_pos h]
        show (cx.gunzip ((file.drop r.offset).take r.compressedSize)).map some = _
        rw [hpk, h']; rfl
      · rw [if_neg (by omega)]
        show (if r.type = 1 then _ else if r.type = 2 then _ else if r.type = 3 then _ else _) = _
        rw [if_neg (by omega), if_neg (by omega), if_pos h]
        show (cx.unzstd ((file.drop r.offset).take r.compressedSize)).map some = _
        rw [hpk, h']; rfl
    unfold readFileData
    rw [this]
    cases x <;> first | rfl | exact absurd rfl hx
  unfold Exporter.addPath
  rw [if_pos (isWadFile_iff.2 hw), commandOpen_opens ho]
  simp only
  rw [filter_resolved]
  rcases hg : guessExtensions cx file toc cache ((rs.filter fun r => decide (r.type ≠ 2)).map (resolvedEntry hashes f)) with ⟨c, ws, y | u⟩
  · exact ⟨y, by rw [hg]⟩
  · exfalso
    have hmem : extsFromCache cache (resolvedEntry hashes f r) ∈
        ((rs.filter fun r => decide (r.type ≠ 2)).map (resolvedEntry hashes f)).map (extsFromCache cache) :=
      List.mem_map_of_mem (List.mem_map_of_mem (List.mem_filter.2 ⟨hr, by simpa using ht⟩))
    have hex : extsFromCache cache (resolvedEntry hashes f r) = { resolvedEntry hashes f r with ext := none } := by
      have h1 : (cache.get? (resolvedEntry hashes f r).pathHash).join = none := by rw [resolvedEntry_hash, hc]; rfl
      unfold extsFromCache
      rw [if_pos (withoutExt_iff.2 hn), h1]
    unfold guessExtensions at hg
    simp only at hg
    split at hg
    · rename_i hall
      rw [List.all_eq_true] at hall
      have := hall _ hmem
      rw [hex] at this
      cases this
    · have hok := guessLoop_readable cx file toc _ cache (by rw [hg]) _ hmem (by rw [hex]; rfl)
      rw [hex, readFileData_ext, hrd] at hok
      obtain ⟨c, hc⟩ := hok
      cases hc

/-! ### Elements of the patch -/

/-- The disk after some elements have been downloaded -/
def afterDownloads (fs : FS) (els : List DiskElem) : FS := els.foldl (fun fs el => (el.download fs).1) fs

theorem downloadElems_iff : ∀ (els : List DiskElem) (fs fs' : FS), downloadElems fs els = (fs', .ok ()) ↔
    fs' = afterDownloads fs els ∧ ∀ before el after, els = before ++ el :: after → (el.download (afterDownloads fs before)).2 = .ok ()
  | [], fs, fs' => by
    constructor
    · intro h
      cases h
      exact ⟨rfl, fun b el a h => by simp at h⟩
    · rintro ⟨rfl, -⟩; rfl
  | el :: els, fs, fs' => by
    rw [downloadElems]
    rcases hd : el.download fs with ⟨fs1, e | u⟩
    · simp only
      constructor
      · intro h; cases h
      · rintro ⟨-, h⟩
        have := h [] el els rfl
        rw [show afterDownloads fs [] = fs from rfl, hd] at this
        cases this
    · simp only
      rw [downloadElems_iff els fs1 fs']
      have h1 : ∀ l, afterDownloads fs (el :: l) = afterDownloads fs1 l := by
        intro l
        unfold afterDownloads
        rw [List.foldl_cons, hd]
      rw [h1]
      refine and_congr_right fun _ => ⟨?_, ?_⟩
      · intro h b x a hb
        cases b with
        | nil => cases hb; rw [show afterDownloads fs [] = fs from rfl, hd]
        | cons y b => cases hb; rw [h1]; exact h b x a rfl
      · intro h b x a hb
        rw [← h1]
        exact h (el :: b) x a (by rw [hb]; rfl)

theorem addPaths_append (cx : Codecs) (dir : Str) (fs : FS) : ∀ (l l' : List (Str × Str)) (cache : Dict Nat (Option Str)) (e : Exporter),
    e.addPaths cx dir fs cache (l ++ l') = match e.addPaths cx dir fs cache l with
      | .error x => .error x
      | .ok (c, e') => e'.addPaths cx dir fs c l'
  | [], _, _, _ => rfl
  | (s, d) :: l, l', cache, e => by
    rw [List.cons_append, Exporter.addPaths, Exporter.addPaths]
    cases e.addPath cx dir fs cache s d with
    | error x => rfl
    | ok r => exact addPaths_append cx dir fs l l' r.1 r.2

theorem addElems_iff (cx : Codecs) (dir : Str) (fs : FS) (c : Dict Nat (Option Str)) (raw : Exporter) :
    ∀ (els : List DiskElem) (cache : Dict Nat (Option Str)) (e : Exporter), e.addElems cx dir fs cache els = .ok (c, raw) ↔
    ∃ ls, List.Forall₂ (fun el l => el.paths fs = .ok l) els ls ∧ e.addPaths cx dir fs cache ls.flatten = .ok (c, raw)
  | [], cache, e => by
    rw [Exporter.addElems]
    constructor
    · intro h; exact ⟨[], .nil, h⟩
    · rintro ⟨ls, h, h'⟩
      cases h
      exact h'
  | el :: els, cache, e => by
    rw [Exporter.addElems]
    cases hp : el.paths fs with
    | error x =>
      constructor
      · intro h; cases h
      · rintro ⟨ls, h, -⟩
        cases h with
        | cons h _ => rw [hp] at h; cases h
    | ok l =>
      simp only
      cases ha : e.addPaths cx dir fs cache l with
      | error x =>
        constructor
        · intro h; cases h
        · rintro ⟨ls, h, h'⟩
          cases h with
          | @cons _ l1 _ ls h1 h2 =>
            rw [hp] at h1
            cases h1
            rw [List.flatten_cons, addPaths_append, ha] at h'
            cases h'
      | ok r =>
        obtain ⟨c1, e1⟩ := r
        simp only
        rw [addElems_iff cx dir fs c raw els c1 e1]
        constructor
        · rintro ⟨ls, h, h'⟩
          refine ⟨l :: ls, .cons hp h, ?_⟩
          rw [List.flatten_cons, addPaths_append, ha]
          exact h'
        · rintro ⟨ls, h, h'⟩
          cases h with
          | @cons _ l1 _ ls h1 h2 =>
            rw [hp] at h1
            cases h1
            rw [List.flatten_cons, addPaths_append, ha] at h'
            exact ⟨ls, h2, h'⟩

/-- The files of a patch are collected exactly when all its elements are downloaded, in order, then have their files listed and collected, on the
resulting disk. -/
theorem C66_patch (cx : Codecs) (dir : Str) (fs fs' : FS) (cache c : Dict Nat (Option Str)) (e raw : Exporter) (els : List DiskElem) :
    e.addPatchFiles cx dir fs cache els = (fs', .ok (c, raw)) ↔
    fs' = afterDownloads fs els ∧ (∀ before el after, els = before ++ el :: after → (el.download (afterDownloads fs before)).2 = .ok ()) ∧
    ∃ ls, List.Forall₂ (fun el l => el.paths fs' = .ok l) els ls ∧ e.addPaths cx dir fs' cache ls.flatten = .ok (c, raw) := by
  rw [← and_assoc, ← downloadElems_iff]
  unfold Exporter.addPatchFiles
  rcases hd : downloadElems fs els with ⟨fs1, x | u⟩
  · simp only
    constructor
    · intro h; cases h
    · rintro ⟨h, -⟩; cases h
  · simp only
    rw [← addElems_iff]
    constructor
    · intro h
      simp only [Prod.mk.injEq] at h
      obtain ⟨rfl, h⟩ := h
      exact ⟨rfl, h⟩
    · rintro ⟨h, h'⟩
      cases h
      rw [h']

/-- An element that cannot be downloaded: the ones after it are not downloaded, and nothing is collected. -/
theorem C66_patch_stops (cx : Codecs) (dir : Str) (fs fs' : FS) (cache : Dict Nat (Option Str)) (e : Exporter) (before after : List DiskElem) (el : DiskElem)
    (x : Err) (hb : ∀ b y a, before = b ++ y :: a → (y.download (afterDownloads fs b)).2 = .ok ())
    (he : el.download (afterDownloads fs before) = (fs', .error x)) :
    e.addPatchFiles cx dir fs cache (before ++ el :: after) = (fs', .error x) := by
  have key : ∀ (l : List DiskElem) (fs0 : FS), (∀ b y a, l = b ++ y :: a → (y.download (afterDownloads fs0 b)).2 = .ok ()) →
      el.download (afterDownloads fs0 l) = (fs', .error x) → downloadElems fs0 (l ++ el :: after) = (fs', .error x) := by
    intro l
    induction l with
    | nil =>
      intro fs0 _ h
      rw [List.nil_append, downloadElems]
      rw [show afterDownloads fs0 [] = fs0 from rfl] at h
      rw [h]
    | cons y l ih =>
      intro fs0 h1 h2
      rw [List.cons_append, downloadElems]
      have h3 := h1 [] y l rfl
      rw [show afterDownloads fs0 [] = fs0 from rfl] at h3
      rcases hd : y.download fs0 with ⟨fs1, r⟩
      rw [hd] at h3
      simp only at h3
      subst h3
      simp only
      have h4 : ∀ l, afterDownloads fs0 (y :: l) = afterDownloads fs1 l := by
        intro l
        unfold afterDownloads
        rw [List.foldl_cons, hd]
      apply ih
      · intro b z a hl
        rw [← h4]
        exact h1 (y :: b) z a (by rw [hl]; rfl)
      · rw [← h4]; exact h2
  unfold Exporter.addPatchFiles
  rw [key before fs hb he]

/-! ### A concrete patch -/

namespace C66ex

/-- An archive with a known file and an unknown one, and a plain file with two sources -/
def l : List (Str × Str) := [("dir/w.wad".toList, "plugins/rcp-x/assets.wad".toList), ("dir/a.dds".toList, "a.dds".toList),
  ("dir/b.dds".toList, "a.dds".toList)]

def ext (h : Nat) : Option Str := if h = 0xcd then some "ogg".toList else none

theorem readable : ReadableWad C62ex.cx "h".toList C62ex.fs ext "dir/w.wad".toList := by
  refine ⟨_, _, _, _, _, _, C62ex.opens, ?_, ?_⟩
  · intro r hr _ hn
    simp only [List.mem_cons, List.not_mem_nil, or_false] at hr
    rcases hr with rfl | rfl
    · have := hn "a/x.bin".toList (show C62ex.hashes.get? _ = _ by decide +kernel) "bin".toList (hasExt_iff.2 (by decide))
      cases this
    · exact ⟨_, C62ex.contains.2, by decide +kernel⟩
  · intro r hr p e hp he
    simp only [List.mem_cons, List.not_mem_nil, or_false] at hr
    rcases hr with rfl | rfl
    · have h1 : (some "a/x.bin".toList : Option Str) = some p := hp
      cases h1
      have h1 := hasExt_iff.1 he
      have h2 : (splitext "a/x.bin".toList).2 = '.' :: "bin".toList := by decide
      rw [h2] at h1
      cases h1
      decide
    · cases hp

theorem all_readable : ∀ x ∈ l, IsWadFile x.1 → ReadableWad C62ex.cx "h".toList C62ex.fs ext x.1 := by
  intro x hx hw
  unfold l at hx
  simp only [List.mem_cons, List.not_mem_nil, or_false] at hx
  rcases hx with rfl | rfl | rfl
  · exact readable
  · exact absurd (isWadFile_iff.2 hw) (by decide)
  · exact absurd (isWadFile_iff.2 hw) (by decide)

def v : Version := ⟨"14.10".toList, .nums [14, 10]⟩

/-- What is exported -/
example (q : Str) : PatchExports C62ex.cx "h".toList C62ex.fs l v q ↔
    q = "a.png".toList ∨ q = "a/x.bin".toList ∨ q = "plugins/rcp-x/unknown/00000000000000cd.ogg".toList := by
  have hc : RightCache ext [] := fun h e he => by cases he
  obtain ⟨c, raw, h1, -, -, -, -, h2⟩ := C66_collect C62ex.cx "h".toList C62ex.fs ext [] l hc all_readable
  have hcol := h2 v (Or.inr ⟨_, rfl⟩)
  obtain ⟨b, hb, -⟩ := langSubdirs_iff hcol.version
  obtain ⟨e, ht, -, hr, -⟩ := transform_spec raw v b hcol.plain hcol.wads hb
  obtain ⟨new, hnew, hmem⟩ := allConverted_spec e hr
  have key : ((emptyExporter.addPaths C62ex.cx "h".toList C62ex.fs [] l).toOption.bind fun x => (transform x.2 v).toOption.bind fun e => e.allConverted.toOption) =
      some (["a.png", "a/x.bin", "plugins/rcp-x/unknown/00000000000000cd.ogg"].map String.toList) := by decide +kernel
  rw [h1] at key
  have key : ((transform raw v).toOption.bind fun e => e.allConverted.toOption) = _ := key
  rw [ht] at key
  have key : e.allConverted.toOption = _ := key
  rw [hnew] at key
  have key := Option.some.inj key
  rw [← (C66_export C62ex.cx "h".toList C62ex.fs ext [] l hc all_readable c raw h1 v).1 q, ← exports_exportPath hcol ht, ← hmem, key]
  simp only [List.map_cons, List.map_nil, List.mem_cons, List.not_mem_nil, or_false]

/-- The last source is the one of the plain file. -/
example : LastPlain l "dir/b.dds".toList "a.dds".toList :=
  ⟨[_, _], [], rfl, fun h => absurd (isWadFile_iff.2 h) (by decide), by simp⟩

/-- An archive that is not there -/
example : ∃ x, emptyExporter.addPaths C62ex.cx "h".toList C62ex.fs [] (l ++ [("none.wad".toList, "n.wad".toList)]) = .error x :=
  C66_missing C62ex.cx "h".toList C62ex.fs "none.wad".toList "n.wad".toList (Or.inl ⟨"none".toList, by decide⟩)
    (fun b h => by
      have : C62ex.fs "none.wad".toList = none := by decide +kernel
      rw [this] at h
      cases h) _ [] emptyExporter (by simp)

end C66ex

end Cdtb
