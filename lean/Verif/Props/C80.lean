import Verif.Props.C76rads
import Verif.Props.C66
import Verif.Props.C59
import Verif.Spec.PatchExport
/-!
# C80: the export of a patch depends on the CDN only, not on the history of the storage
-/
namespace Cdtb
set_option autoImplicit false
open Py Spec

/-! ### Disks which agree on what is read -/

/-- Both disks are the same for the files of the list and for hash files. -/
def Agrees (dir : Str) (fs fs' : FS) (l : List (Str × Str)) : Prop := SameHashFiles dir fs fs' ∧ ∀ x ∈ l, fs x.1 = fs' x.1

theorem Agrees.symm {dir : Str} {fs fs' : FS} {l : List (Str × Str)} (h : Agrees dir fs fs' l) : Agrees dir fs' fs l :=
  ⟨⟨h.1.1.symm, h.1.2.symm⟩, fun x hx => (h.2 x hx).symm⟩

theorem readFile_congr {fs fs' : FS} {p : Str} (h : fs p = fs' p) : fs.readFile p = fs'.readFile p := by unfold FS.readFile; rw [h]

theorem commandOpen_congr (cx : Codecs) {dir : Str} {fs fs' : FS} {p : Str} (hh : SameHashFiles dir fs fs') (hp : fs p = fs' p) :
    commandOpen cx dir fs p none = commandOpen cx dir fs' p none := by
  unfold commandOpen hashFilePath
  cases hd : defaultHashfile dir p with
  | error x => rfl
  | ok q =>
    have hq : fs q = fs' q := by
      unfold defaultHashfile at hd
      split at hd
      · cases hd; exact hh.1
      · split at hd
        · cases hd; exact hh.2
        · cases hd
    simp only [bind, Except.bind]
    unfold loadHashFile
    rw [readFile_congr hq, readFile_congr hp]

theorem addPaths_congr (cx : Codecs) {dir : Str} {fs fs' : FS} : ∀ (l : List (Str × Str)) (cache : Dict Nat (Option Str)) (e : Exporter),
    Agrees dir fs fs' l → e.addPaths cx dir fs cache l = e.addPaths cx dir fs' cache l
  | [], _, _, _ => rfl
  | (s, t) :: l, cache, e, h => by
    have ih := fun c e => addPaths_congr cx l c e ⟨h.1, fun x hx => h.2 x (by simp [hx])⟩
    have ha : e.addPath cx dir fs cache s t = e.addPath cx dir fs' cache s t := by
      unfold Exporter.addPath
      rw [commandOpen_congr cx h.1 (h.2 (s, t) (by simp))]
    unfold Exporter.addPaths
    rw [ha]
    split
    · rfl
    · exact ih _ _

theorem opens_congr {cx : Codecs} {dir : Str} {fs fs' : FS} {p : Str} (hh : SameHashFiles dir fs fs') (hp : fs p = fs' p) {hashes : Dict Int Str}
    {file : Bytes} {f : WadFormat} {version : Nat × Nat} {rs : List WadRecord} {toc : Option Bytes} (h : Spec.Opens cx dir fs p none hashes file f version rs toc) :
    Spec.Opens cx dir fs' p none hashes file f version rs toc := by
  refine ⟨by rw [← hp]; exact h.wad, ?_, h.archive⟩
  obtain ⟨hpath, text, h1, h2, h3⟩ := h.known
  refine ⟨hpath, text, h1, ?_, h3⟩
  rcases h1 with h1 | ⟨-, -, rfl⟩ | ⟨-, -, rfl⟩
  · cases h1
  · rw [← hh.1]; exact h2
  · rw [← hh.2]; exact h2

theorem readableWad_congr {cx : Codecs} {dir : Str} {fs fs' : FS} {ext : Nat → Option Str} {p : Str} (hh : SameHashFiles dir fs fs') (hp : fs p = fs' p)
    (h : ReadableWad cx dir fs ext p) : ReadableWad cx dir fs' ext p := by
  obtain ⟨hashes, file, f, version, rs, toc, ho, h1, h2⟩ := h
  exact ⟨hashes, file, f, version, rs, toc, opens_congr hh hp ho, h1, h2⟩

theorem lastPlain_mem {l : List (Str × Str)} {src dst : Str} (h : LastPlain l src dst) : (src, dst) ∈ l := by
  obtain ⟨a, b, rfl, -⟩ := h; simp

theorem lastWad_mem {l : List (Str × Str)} {src dst : Str} (h : LastWad l src dst) : (src, dst) ∈ l := by
  obtain ⟨a, b, rfl, -⟩ := h; simp

theorem exportedFile_congr {cx : Codecs} {dir : Str} {fs fs' : FS} {l : List (Str × Str)} (h : Agrees dir fs fs' l) {v : Version} {p : Str} {d : Bytes}
    (hx : ExportedFile cx dir fs l v p d) : ExportedFile cx dir fs' l v p d := by
  rcases hx with ⟨src, h1, h2, h3⟩ | ⟨src, dst, hashes, file, f, version, rs, toc, r, g, name, h1, h2, h3⟩
  · exact Or.inl ⟨src, h1, h2, by rw [← h.2 _ (lastPlain_mem h1)]; exact h3⟩
  · exact Or.inr ⟨src, dst, hashes, file, f, version, rs, toc, r, g, name, h1, opens_congr h.1 (h.2 _ (lastWad_mem h1)) h2, h3⟩

/-! ### Files of the storage -/

theorem filterFiles_true (m : Manifest) : m.filterFiles .all = .ok m.files.values := by
  simp only [Manifest.filterFiles, langsPredicate, bind, Except.bind, pure, Except.pure]
  rw [List.filter_eq_self.2 (fun _ _ => rfl)]

theorem elemPaths_eq (cfg : PCfg) (e : PElem) (h : ∀ f ∈ e.manif.files.values, f.name ≠ none) : cfg.elemPaths e = .ok (storedPaths cfg [e]) := by
  unfold PCfg.elemPaths storedPaths
  rw [filterFiles_true]
  simp only [bind, Except.bind, List.flatMap_cons, List.flatMap_nil, List.append_nil]
  generalize e.manif.files.values = l at h
  induction l with
  | nil => rfl
  | cons f l ih =>
    rw [List.mapM_cons, ih (fun f hf => h f (by simp [hf]))]
    cases hn : f.name with
    | none => exact absurd hn (h f (by simp))
    | some n =>
      have : relName f = .ok (lower n) := by unfold relName; rw [hn]
      simp only [this, hn, bind, Except.bind, pure, Except.pure, List.map_cons, fmtOpt, PCfg.extractPath, Option.getD_some]

theorem addElems_listed (cfg : PCfg) (cx : Codecs) (dir : Str) (fs : FS) : ∀ (es : List PElem) (cache : Dict Nat (Option Str)) (x : Exporter),
    (∀ e ∈ es, ∀ f ∈ e.manif.files.values, f.name ≠ none) →
    x.addElems cx dir fs cache (es.map cfg.listed) = x.addPaths cx dir fs cache (storedPaths cfg es)
  | [], _, _, _ => rfl
  | e :: es, cache, x, h => by
    rw [List.map_cons, Exporter.addElems]
    have h1 : (cfg.listed e).paths fs = .ok (storedPaths cfg [e]) := elemPaths_eq cfg e (h e (by simp))
    have h2 : storedPaths cfg (e :: es) = storedPaths cfg [e] ++ storedPaths cfg es := by simp [storedPaths]
    rw [h1, h2, addPaths_append]
    simp only
    cases hx : x.addPaths cx dir fs cache (storedPaths cfg [e]) with
    | error y => rfl
    | ok r => exact addElems_listed cfg cx dir fs es r.1 r.2 (fun e he => h e (by simp [he]))

theorem view_of_content {d : Disk} {p : Str} {b : Bytes} (h : d.content p = some b) : d.view p = some (.file b) := by
  unfold Disk.content at h
  unfold Disk.view
  split at h
  · rename_i h'; cases h; exact h'
  · cases h

section
variable {cfg : PCfg} {w : Cdn} {catalog : Int → Str → List Nat}

theorem history_good (hsha : NoCollision cfg.sha1 catalog) : ∀ (l : List (Langs × (Nat → PRun) × List PElem)) (d : Disk),
    (∀ r ∈ l, (∀ i, FairRun cfg w (r.2.1 i)) ∧ ∀ e ∈ r.2.2, TrueManifest cfg w catalog e) → GoodDisk cfg w catalog d →
    GoodDisk cfg w catalog (cfg.history l d)
  | [], _, _, hg => hg
  | (langs, ws, es) :: l, d, h, hg => history_good hsha l _ (fun r hr => h r (by simp [hr]))
      (downloadElems_spec hsha langs ws (h (langs, ws, es) (by simp)).1 es (h (langs, ws, es) (by simp)).2 d hg).1

/-- **C80, sources.** When the downloads succeed, every file that the export will read has the content of the CDN. -/
theorem C80_sources (hsha : NoCollision cfg.sha1 catalog) (ws : Nat → PRun) (hws : ∀ i, FairRun cfg w (ws i)) (es : List PElem)
    (hm : ∀ e ∈ es, TrueManifest cfg w catalog e) (hf : OnlyFiles es) (d d' : Disk) (hg : GoodDisk cfg w catalog d)
    (h : cfg.downloadElems .all ws d es = (d', .ok ())) : CdnFiles cfg w catalog es d'.view := by
  obtain ⟨-, -, done, rest, h1, h2, h3, -⟩ := downloadElems_spec hsha .all ws hws es hm d hg
  rw [h] at h2 h3
  have hr := h3 rfl
  subst hr
  rw [List.append_nil] at h1
  subst h1
  exact fun e he f hf' => view_of_content (h2 e he f hf' trivial (hf e he f hf').2)

theorem cdnFiles_agrees {es : List PElem} {dir : Str} {fs fs' : FS} (h : CdnFiles cfg w catalog es fs) (h' : CdnFiles cfg w catalog es fs')
    (hh : SameHashFiles dir fs fs') : Agrees dir fs fs' (storedPaths cfg es) := by
  refine ⟨hh, fun x hx => ?_⟩
  simp only [storedPaths, List.mem_flatMap, List.mem_map] at hx
  obtain ⟨e, he, f, hf, rfl⟩ := hx
  rw [h e he f hf, h' e he f hf]

/-- **C80, collection.** `ideal` is any disk with the files of the CDN and the same hash files. Once the elements are downloaded, what the export collects
(or the error it raises) is what it would collect from `ideal`. -/
theorem C80_collect (hsha : NoCollision cfg.sha1 catalog) (cx : Codecs) (dir : Str) (cache : Dict Nat (Option Str)) (ws : Nat → PRun)
    (hws : ∀ i, FairRun cfg w (ws i)) (es : List PElem) (hm : ∀ e ∈ es, TrueManifest cfg w catalog e) (hf : OnlyFiles es) (d d' : Disk)
    (hg : GoodDisk cfg w catalog d) (hd : cfg.downloadElems .all ws d es = (d', .ok ())) (ideal : FS) (hi : CdnFiles cfg w catalog es ideal)
    (hh : SameHashFiles dir d'.view ideal) :
    cfg.addPatchFiles cx dir cache emptyExporter ws d es = (d', emptyExporter.addPaths cx dir ideal cache (storedPaths cfg es)) := by
  unfold PCfg.addPatchFiles
  rw [hd]
  simp only
  rw [addElems_listed cfg cx dir _ es _ _ (fun e he f hf' => (hf e he f hf').1),
    addPaths_congr cx _ _ _ (cdnFiles_agrees (C80_sources hsha ws hws es hm hf d d' hg hd) hi hh)]

/-- **C80, export.** When archives of the CDN can be read: the collection succeeds, and the files which are exported, with their contents, are those of the
archives and files of the CDN. -/
theorem C80_export (hsha : NoCollision cfg.sha1 catalog) (cx : Codecs) (dir : Str) (ext : Nat → Option Str) (cache : Dict Nat (Option Str))
    (hc : RightCache ext cache) (ws : Nat → PRun) (hws : ∀ i, FairRun cfg w (ws i)) (es : List PElem) (hm : ∀ e ∈ es, TrueManifest cfg w catalog e)
    (hf : OnlyFiles es) (d d' : Disk) (hg : GoodDisk cfg w catalog d) (hd : cfg.downloadElems .all ws d es = (d', .ok ())) (ideal : FS)
    (hi : CdnFiles cfg w catalog es ideal) (hh : SameHashFiles dir d'.view ideal)
    (hr : ∀ x ∈ storedPaths cfg es, IsWadFile x.1 → ReadableWad cx dir ideal ext x.1) (v : Version) (hv : v.s = "main".toList ∨ ∃ t, v.t = .nums t) :
    ∃ c raw e, cfg.addPatchFiles cx dir cache emptyExporter ws d es = (d', .ok (c, raw)) ∧ RightCache ext c ∧ transform raw v = .ok e ∧
      ∀ p b, Spec.Exports e (diskSources cx dir d'.view) p b ↔ ExportedFile cx dir ideal (storedPaths cfg es) v p b := by
  have hag := cdnFiles_agrees (C80_sources hsha ws hws es hm hf d d' hg hd) hi hh
  have hr' : ∀ x ∈ storedPaths cfg es, IsWadFile x.1 → ReadableWad cx dir d'.view ext x.1 :=
    fun x hx hw => readableWad_congr hag.symm.1 (hag.symm.2 x hx) (hr x hx hw)
  have hcol := C80_collect hsha cx dir cache ws hws es hm hf d d' hg hd ideal hi hh
  obtain ⟨c, raw, h1, h2, -⟩ := C66_collect cx dir d'.view ext cache _ hc hr'
  obtain ⟨e, h3, h4⟩ := C66_data cx dir d'.view ext cache _ hc hr' c raw h1 v hv
  rw [addPaths_congr cx _ _ _ hag] at h1
  rw [h1] at hcol
  refine ⟨c, raw, e, hcol, h2, h3, fun p b => ?_⟩
  rw [h4]
  exact ⟨exportedFile_congr hag, exportedFile_congr hag.symm⟩

/-- **C80, output.** Then, when the export succeeds: each of these files is in the output directory, converted, with its content from the CDN. -/
theorem C80_output (hsha : NoCollision cfg.sha1 catalog) (cx : Codecs) (dir : Str) (ext : Nat → Option Str) (cache : Dict Nat (Option Str))
    (hc : RightCache ext cache) (ws : Nat → PRun) (hws : ∀ i, FairRun cfg w (ws i)) (es : List PElem) (hm : ∀ e ∈ es, TrueManifest cfg w catalog e)
    (hf : OnlyFiles es) (d d' : Disk) (hg : GoodDisk cfg w catalog d) (hd : cfg.downloadElems .all ws d es = (d', .ok ())) (ideal : FS)
    (hi : CdnFiles cfg w catalog es ideal) (hh : SameHashFiles dir d'.view ideal)
    (hr : ∀ x ∈ storedPaths cfg es, IsWadFile x.1 → ReadableWad cx dir ideal ext x.1) (v : Version) (hv : v.s = "main".toList ∨ ∃ t, v.t = .nums t)
    (c : Dict Nat (Option Str)) (raw e : Exporter) (hraw : (cfg.addPatchFiles cx dir cache emptyExporter ws d es).2 = .ok (c, raw)) (he : transform raw v = .ok e)
    (lib : ConvLib) (output : Str) (hreg : Spec.Regular e (diskSources cx dir d'.view) output) (hs : Spec.Separate e output) (overwrite : Bool)
    (flt : Nat → Nat → WriteFaults) (hflt : Spec.NoFaults flt) (out : FS)
    (hclean : ∀ p b, ExportedFile cx dir ideal (storedPaths cfg es) v p b → Spec.CleanFile lib output out (getConverter e.converters p) p b)
    (hreach : ∀ p, some p ∈ e.paths → Spec.Reachable output out (getConverter e.converters p) p)
    (hok : (e.export lib output overwrite flt (diskSources cx dir d'.view) out).2 = .ok ()) :
    ∀ p b, ExportedFile cx dir ideal (storedPaths cfg es) v p b →
      Spec.Complete lib output (e.export lib output overwrite flt (diskSources cx dir d'.view) out).1 (getConverter e.converters p) p b := by
  obtain ⟨c', raw', e', h1, -, h2, h3⟩ := C80_export hsha cx dir ext cache hc ws hws es hm hf d d' hg hd ideal hi hh hr v hv
  rw [h1] at hraw
  cases hraw
  rw [he] at h2
  cases h2
  exact fun p b hx => C59_complete lib e _ output hreg hs overwrite flt hflt out (fun p b h => hclean p b ((h3 p b).1 h)) hreach hok p b ((h3 p b).2 hx)

/-- **C80, history.** Two storages of the same name, one with links and one without for instance, after any downloads, some of which failed: once the elements
are downloaded, the same files are collected (or the same error is raised), as long as hash files are the same. -/
theorem C80_history {cfg' : PCfg} (hb : cfg'.base = cfg.base) (hl : cfg'.patchline = cfg.patchline) (hsha : NoCollision cfg.sha1 catalog)
    (hsha' : NoCollision cfg'.sha1 catalog) (cx : Codecs) (dir : Str) (cache : Dict Nat (Option Str)) (es : List PElem) (hf : OnlyFiles es)
    (past past' : List (Langs × (Nat → PRun) × List PElem))
    (hpast : ∀ r ∈ past, (∀ i, FairRun cfg w (r.2.1 i)) ∧ ∀ e ∈ r.2.2, TrueManifest cfg w catalog e)
    (hpast' : ∀ r ∈ past', (∀ i, FairRun cfg' w (r.2.1 i)) ∧ ∀ e ∈ r.2.2, TrueManifest cfg' w catalog e)
    (ws ws' : Nat → PRun) (hws : ∀ i, FairRun cfg w (ws i)) (hws' : ∀ i, FairRun cfg' w (ws' i))
    (hm : ∀ e ∈ es, TrueManifest cfg w catalog e) (hm' : ∀ e ∈ es, TrueManifest cfg' w catalog e)
    (d0 d0' d d' : Disk) (hg : GoodDisk cfg w catalog d0) (hg' : GoodDisk cfg' w catalog d0')
    (hd : cfg.downloadElems .all ws (cfg.history past d0) es = (d, .ok ())) (hd' : cfg'.downloadElems .all ws' (cfg'.history past' d0') es = (d', .ok ()))
    (hh : SameHashFiles dir d.view d'.view) :
    (cfg.addPatchFiles cx dir cache emptyExporter ws (cfg.history past d0) es).2 = (cfg'.addPatchFiles cx dir cache emptyExporter ws' (cfg'.history past' d0') es).2 := by
  have hp : ∀ v, cfg'.storageDir v = cfg.storageDir v := by
    intro v
    simp only [PCfg.storageDir, PCfg.releasePath, hb, hl]
  have h1 := C80_sources hsha ws hws es hm hf _ d (history_good hsha past d0 hpast hg) hd
  have h2 := C80_sources hsha' ws' hws' es hm' hf _ d' (history_good hsha' past' d0' hpast' hg') hd'
  have h1' : CdnFiles cfg' w catalog es d.view := by
    intro e he f hf'
    rw [hp]
    exact h1 e he f hf'
  have hst : storedPaths cfg' es = storedPaths cfg es := by simp only [storedPaths, hp]
  rw [C80_collect hsha cx dir cache ws hws es hm hf _ d (history_good hsha past d0 hpast hg) hd d.view h1 ⟨rfl, rfl⟩,
    C80_collect hsha' cx dir cache ws' hws' es hm' hf _ d' (history_good hsha' past' d0' hpast' hg') hd' d.view h1' ⟨hh.1.symm, hh.2.symm⟩, hst]

/-- **C80, failure.** A download that fails: nothing is collected, and files which the storage had are still there. -/
theorem C80_failure (hsha : NoCollision cfg.sha1 catalog) (cx : Codecs) (dir : Str) (cache : Dict Nat (Option Str)) (ws : Nat → PRun)
    (hws : ∀ i, FairRun cfg w (ws i)) (es : List PElem) (hm : ∀ e ∈ es, TrueManifest cfg w catalog e) (d d' : Disk) (hg : GoodDisk cfg w catalog d)
    (x : Err) (hd : cfg.downloadElems .all ws d es = (d', .error x)) :
    cfg.addPatchFiles cx dir cache emptyExporter ws d es = (d', .error x) ∧ GoodDisk cfg w catalog d' ∧
    ∀ v f, d.content (cfg.extractPath v f) = some (rightContent w catalog v f) → d'.content (cfg.extractPath v f) = some (rightContent w catalog v f) := by
  obtain ⟨h1, h2, -⟩ := downloadElems_spec hsha .all ws hws es hm d hg
  rw [hd] at h1 h2
  refine ⟨?_, h1, fun v f h => h2 (v, f) h⟩
  unfold PCfg.addPatchFiles; rw [hd]

/-- **C80, links (finding).** Links of manifests are listed but not extracted: when one is named as an archive, and is not in the storage, no patch with it can be
exported, although its download succeeds. -/
theorem C80_link (cx : Codecs) (dir : Str) (cache : Dict Nat (Option Str)) (ws : Nat → PRun) (es : List PElem)
    (hn : ∀ e ∈ es, ∀ f ∈ e.manif.files.values, f.name ≠ none) (d d' : Disk) (hd : cfg.downloadElems .all ws d es = (d', .ok ()))
    (e : PElem) (he : e ∈ es) (f : PFile) (hf : f ∈ e.manif.files.values) (hw : IsWadFile (cfg.extractPath e.release f))
    (hc : d'.content (cfg.extractPath e.release f) = none) :
    ∃ x, cfg.addPatchFiles cx dir cache emptyExporter ws d es = (d', .error x) := by
  unfold PCfg.addPatchFiles
  rw [hd]
  simp only
  rw [addElems_listed cfg cx dir _ es _ _ hn]
  obtain ⟨x, hx⟩ := C66_missing cx dir d'.view (cfg.extractPath e.release f) (lower (fmtOpt f.name)) hw
    (fun b hb => by rw [content_eq_some.2 hb] at hc; cases hc) (storedPaths cfg es) cache emptyExporter
    (List.mem_flatMap.2 ⟨e, he, List.mem_map.2 ⟨f, hf, rfl⟩⟩)
  exact ⟨x, by rw [hx]⟩

end

/-! ### Cases that meet the hypotheses: an archive and a plain file, in storages with and without links -/

namespace C80ex

theorem pair_ok {α β : Type} {x : α × β} {y : β} (h : x.2 = y) : x = (x.1, y) := by rw [← h]

def cfg (b : Bool) : PCfg := ⟨"/s".toList, "live".toList, b, .ok, id⟩
def cdn : Cdn := ⟨fun i => if i = 5 then C62ex.file else [9], fun _ => C62ex.file ++ [9]⟩
def catalog (_ : Int) (n : Str) : List Nat := if n = "a.dds".toList then [6] else [5]
def wad : PFile := ⟨some "Plugins/rcp-x/assets.wad".toList, some C62ex.file.length, none, none, [⟨some 5, some 11, 0, some C62ex.file.length, some C62ex.file.length⟩]⟩
def dds : PFile := ⟨some "a.dds".toList, some 1, none, none, [⟨some 6, some 11, C62ex.file.length, some 1, some 1⟩]⟩
def elem : PElem := ⟨12, ⟨[], [], [], [(wad.name, wad), (dds.name, dds)]⟩⟩
def hash : FS := fun p => if p = "h/hashes.lcu.txt".toList then some (.file (utf8Bytes "00000000000000ab a/x.bin\n".toList)) else none
def disk : Disk := ⟨hash, fun _ => none⟩
def run (b : Bool) : PRun := ⟨fun i => .ok (cdn.bundle i), fun _ => {}, fun ids =>
  (List.replicate (7 + (ids.map fun i => (dirPrefixes (dirname ((cfg b).bundlePath i))).length).sum) ids.attach).flatten, fun _ => {}⟩
def wadPath : Str := "/s/cdtb/releases/live/12/files/Plugins/rcp-x/assets.wad".toList
def ddsPath : Str := "/s/cdtb/releases/live/12/files/a.dds".toList
def ideal : FS := fun p => if p = wadPath then some (.file C62ex.file) else if p = ddsPath then some (.file [9]) else hash p

theorem noCollision (b : Bool) : NoCollision (cfg b).sha1 catalog := fun _ _ _ _ _ _ _ _ h => h

theorem files {f : PFile} (h : f ∈ elem.manif.files.values) : f = wad ∨ f = dds := by
  simpa [elem, Dict.values] using h

theorem fair (b : Bool) : FairRun (cfg b) cdn (run b) := by
  refine ⟨?_, fun _ => rfl, fun _ => rfl, ?_⟩
  · intro i x h; cases h; rfl
  · intro ids i
    refine le_trans ?_ (count_attach ids i _)
    have := le_sum_mem (ids.map fun i => (dirPrefixes (dirname ((cfg b).bundlePath i))).length) _ (List.mem_map.2 ⟨i.1, i.2, rfl⟩)
    omega

theorem manifest (b : Bool) : TrueManifest (cfg b) cdn catalog elem := by
  refine ⟨?_, ?_, ?_⟩
  · intro f hf
    rcases files hf with rfl | rfl
    · exact .cons ⟨rfl, by decide, 11, _, rfl, rfl, by cases b <;> decide +kernel⟩ .nil
    · exact .cons ⟨rfl, by decide, 11, _, rfl, rfl, by cases b <;> decide +kernel⟩ .nil
  · intro f hf; rcases files hf with rfl | rfl <;> decide +kernel
  · intro f hf c hc i hi
    rcases files hf with rfl | rfl
    · simp only [wad, List.mem_singleton] at hc; subst hc; cases hi; decide
    · simp only [dds, List.mem_singleton] at hc; subst hc; cases hi; decide

theorem only : OnlyFiles [elem] := by
  intro e he f hf
  rw [List.mem_singleton] at he
  subst he
  rcases files hf with rfl | rfl <;> decide +kernel

theorem hash_root {p : Str} (hp : p.head? = some '/') : hash p = none := by
  unfold hash
  rw [if_neg]
  intro h
  rw [h] at hp
  exact absurd hp (by decide)

theorem good (b : Bool) : GoodDisk (cfg b) cdn catalog disk := by
  have hb : ∀ i, disk.fs ((cfg b).bundlePath i) = none := fun i => hash_root (p := (cfg b).bundlePath i) rfl
  have hs : ∀ t, disk.fs ((cfg b).storePath t) = none := fun t => hash_root (p := (cfg b).storePath t) rfl
  have hx : ∀ v f, disk.fs ((cfg b).extractPath v f) = none := fun v f => hash_root (p := (cfg b).extractPath v f) rfl
  refine ⟨?_, ?_, ?_, ?_⟩
  · intro i x h; rw [hb] at h; cases h
  · intro v n t x _ h; rw [hs] at h; cases h
  · intro _ v f; exact ⟨fun c h => (by rw [hx] at h; cases h), fun t h => (by cases h)⟩
  · intro _ v f; exact ⟨rfl, fun c h => by rw [hx] at h; cases h⟩

theorem downloaded (b : Bool) : ((cfg b).downloadElems .all (fun _ => run b) disk [elem]).2 = .ok () := by cases b <;> decide +kernel

theorem hashes (b : Bool) : SameHashFiles "h".toList ((cfg b).downloadElems .all (fun _ => run b) disk [elem]).1.view ideal := by
  cases b <;> exact ⟨by decide +kernel, by decide +kernel⟩

theorem cdnFiles (b : Bool) : CdnFiles (cfg b) cdn catalog [elem] ideal := by
  intro e he f hf
  rw [List.mem_singleton] at he
  subst he
  rcases files hf with rfl | rfl <;> cases b <;> decide +kernel

theorem readable (b : Bool) : ∀ x ∈ storedPaths (cfg b) [elem], IsWadFile x.1 → ReadableWad C62ex.cx "h".toList ideal C66ex.ext x.1 := by
  have hl : storedPaths (cfg b) [elem] = [(wadPath, "plugins/rcp-x/assets.wad".toList), (ddsPath, "a.dds".toList)] := by cases b <;> decide +kernel
  rw [hl]
  intro x hx hw
  simp only [List.mem_cons, List.not_mem_nil, or_false] at hx
  rcases hx with rfl | rfl
  · obtain ⟨h1, h2, h3, h4, h5, h6, ho, hr⟩ := C66ex.readable
    refine ⟨h1, h2, h3, h4, h5, h6, ⟨?_, ?_, ho.archive⟩, hr⟩
    · rw [← ho.wad]; decide +kernel
    · obtain ⟨hp, text, h1, h2, h3⟩ := ho.known
      have hp' : hp = "h/hashes.lcu.txt".toList := by
        rcases h1 with h1 | ⟨-, h1, -⟩ | ⟨-, -, rfl⟩
        · cases h1
        · exact absurd (endsWith_iff.2 h1) (by decide)
        · decide
      subst hp'
      refine ⟨"h/hashes.lcu.txt".toList, text, Or.inr (Or.inr ⟨rfl, ⟨"/s/cdtb/releases/live/12/files/Plugins/rcp-x/assets".toList, by decide⟩, by decide⟩), ?_, h3⟩
      rw [← h2]; decide +kernel
  · exact absurd (isWadFile_iff.2 hw) (by decide)

/-- What is exported, with or without links in the storage: three files, with their contents -/
example (b : Bool) : ∃ d' c raw e, (cfg b).addPatchFiles C62ex.cx "h".toList [] emptyExporter (fun _ => run b) disk [elem] = (d', .ok (c, raw)) ∧
    transform raw C66ex.v = .ok e ∧
      ∀ p x, Spec.Exports e (diskSources C62ex.cx "h".toList d'.view) p x ↔ ExportedFile C62ex.cx "h".toList ideal (storedPaths (cfg b) [elem]) C66ex.v p x := by
  obtain ⟨c, raw, e, h1, -, h2, h3⟩ := C80_export (cfg := cfg b) (w := cdn) (noCollision b) C62ex.cx "h".toList C66ex.ext [] (fun h e he => by cases he) (fun _ => run b) (fun _ => fair b)
    [elem] (fun e he => by rw [List.mem_singleton] at he; subst he; exact manifest b) only disk ((cfg b).downloadElems .all (fun _ => run b) disk [elem]).1
    (good b) (pair_ok (downloaded b)) ideal (cdnFiles b)
    (hashes b) (readable b) C66ex.v (Or.inr ⟨_, rfl⟩)
  exact ⟨_, c, raw, e, h1, h2, h3⟩

/-- What is collected -/
example (b : Bool) : let r := ((cfg b).addPatchFiles C62ex.cx "h".toList [] emptyExporter (fun _ => run b) disk [elem]).2.toOption
    r.map (fun r => r.2.plain.values) = some [ddsPath] ∧ r.map (fun r => r.2.wads.values.map (·.path)) = some [wadPath] ∧
    r.map (fun r => r.2.wads.values.flatMap fun w => w.files.map fun f => f.path) = some [some "a/x.bin".toList, none] := by
  cases b <;> exact ⟨by decide +kernel, by decide +kernel, by decide +kernel⟩

/-- The export to a directory succeeds, and gives what the CDN has. -/
example (b : Bool) : let d := ((cfg b).downloadElems .all (fun _ => run b) disk [elem]).1
    ((((cfg b).addPatchFiles C62ex.cx "h".toList [] emptyExporter (fun _ => run b) disk [elem]).2.toOption.bind fun r => (transform r.2 C66ex.v).toOption).map fun e =>
      let r := e.export demoConv "/out".toList true (fun _ _ => {}) (diskSources C62ex.cx "h".toList d.view) (fun _ => none)
      (r.2.toOption, r.1 "/out/a/x.bin".toList, r.1 "/out/plugins/rcp-x/unknown/00000000000000cd.ogg".toList)) =
    some (some (), some (.file [1, 2]), some (.file [0x4f, 0x67, 0x67, 0x53])) := by cases b <;> decide +kernel

/-- A failed download, then a second one: the same files -/
example (b : Bool) : let bad : PRun := { run b with response := fun _ => .error (.http 404) }
    let d := (cfg b).history [(.all, fun _ => bad, [elem])] disk
    ((cfg b).addPatchFiles C62ex.cx "h".toList [] emptyExporter (fun _ => bad) disk [elem]).2.toOption.isNone = true ∧
    ((cfg b).addPatchFiles C62ex.cx "h".toList [] emptyExporter (fun _ => run b) d [elem]).2.toOption.map (fun r => r.2.plain.values) =
      some [ddsPath] := by cases b <;> exact ⟨by decide +kernel, by decide +kernel⟩

/-- A link to an archive: the download succeeds, but the files cannot be collected. -/
def link : PFile := ⟨some "l.wad".toList, some 0, some "w.wad".toList, none, []⟩
def elem' : PElem := ⟨12, ⟨[], [], [], [(dds.name, dds), (link.name, link)]⟩⟩
example (b : Bool) : ((cfg b).downloadElems .all (fun _ => run b) disk [elem']).2 = .ok () ∧
    (match ((cfg b).addPatchFiles C62ex.cx "h".toList [] emptyExporter (fun _ => run b) disk [elem']).2 with | .error x => some x | .ok _ => none) =
      some .fileNotFound := by cases b <;> exact ⟨by decide +kernel, by decide +kernel⟩

end C80ex

end Cdtb
