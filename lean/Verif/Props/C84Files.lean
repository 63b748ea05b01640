import Verif.Props.C84Download
import Verif.Props.C84Versions
/-!
# C84: `files` and `versions`, from the command line to the output
-/
namespace Cdtb
set_option autoImplicit false
open Py Spec

section
variable (T : ToolLib) (conf : ConfLib) (env dir : Option Str) (fs : FS)

/-- `files` from the command line, on a storage of the patcher: the paths printed are those of the files of the elements designated, in the languages
given: their places in the storage, or with `--relative` their names in lowercase. Nothing is written. -/
theorem C84_files_printed {p : ParserDef} (hc : ("files".toList, p) ∈ commandParsers dir) {gs : List GivenOpt} {c : Str} {argv : List Str}
    (hline : LineOf "files" p.opts gs [c] argv) {path patchline : Option Str} (hpath : TextGiven gs "storage" path)
    (hpatchline : TextGiven gs "patchline" patchline) {langs : LangArg} (hlangs : LangsGiven gs langs) {relative : Bool}
    (hrel : FlagGiven gs "relative" true relative) {cfg : PCfg} {client : CVal}
    (hst : parseStorageArgs fs conf env path patchline = .ok (.patcher (.str cfg.base) (.str cfg.patchline) cfg.symlinks client))
    {parse : Str → Res Component} {src : Elem → PElem}
    (hT : ∀ c langs relative, T.files (.patcher (.str cfg.base) (.str cfg.patchline) cfg.symlinks client) c langs relative fs =
      (fs, cfg.commandFiles parse src c langs relative))
    {es : List Elem} (hes : parseComponentArg parse c = .ok es) (hl : ∀ l, langs ≠ .given l)
    (hn : ∀ e ∈ es, ∀ f ∈ (src e).manif.files.values, f.name ≠ none) :
    (∀ e, e ∈ es ↔ ArgDesignates parse c e) ∧ ∃ sel : PFile → Bool, (∀ f, sel f = true ↔ Selected (argLangs langs) f) ∧
      T.main conf env dir fs argv = ⟨fs, es.flatMap fun e => ((src e).manif.files.values.filter sel).map fun f =>
        if relative then lower (fmtOpt f.name) else cfg.storageDir (src e).release ++ "/files/".toList ++ fmtOpt f.name, .ok ()⟩ := by
  obtain ⟨path', patchline', langs', rel', h1, h2, h3, h4, h5⟩ := C84_files T conf env dir fs hc hline
  obtain ⟨k1, sel, k2, k3⟩ := C76_files cfg parse src c es hes langs hl
  refine ⟨k1, ?_⟩
  rw [h5, textGiven_unique h1 hpath, textGiven_unique h2 hpatchline, langsGiven_unique h3 hlangs, flagGiven_unique h4 hrel]
  simp only [withStorage, hst, hT]
  cases relative with
  | false => exact ⟨sel, k2, by rw [k3]; rfl⟩
  | true =>
    obtain ⟨sel, k2, k3⟩ := C76_files_relative cfg parse src c es hes langs hl hn
    exact ⟨sel, k2, by rw [k3]; rfl⟩

/-- `files` after `download`: on a storage that has the files of the elements designated, as after `download` with the same languages (`C84_downloads`), each path
printed without `--relative` is the path of a file with its content, or the path of a link. -/
theorem C84_files_stored {p : ParserDef} (hc : ("files".toList, p) ∈ commandParsers dir) {gs : List GivenOpt} {c : Str} {argv : List Str}
    (hline : LineOf "files" p.opts gs [c] argv) {path patchline : Option Str} (hpath : TextGiven gs "storage" path)
    (hpatchline : TextGiven gs "patchline" patchline) {langs : LangArg} (hlangs : LangsGiven gs langs) (hrel : FlagGiven gs "relative" true false)
    {cfg : PCfg} {client : CVal} {d : Disk}
    (hst : parseStorageArgs d.fs conf env path patchline = .ok (.patcher (.str cfg.base) (.str cfg.patchline) cfg.symlinks client))
    {parse : Str → Res Component} {src : Elem → PElem}
    (hT : ∀ c langs relative, T.files (.patcher (.str cfg.base) (.str cfg.patchline) cfg.symlinks client) c langs relative d.fs =
      (d.fs, cfg.commandFiles parse src c langs relative))
    {es : List Elem} (hes : parseComponentArg parse c = .ok es) (hl : ∀ l, langs ≠ .given l)
    {w : Cdn} {catalog : Int → Str → List Nat} (hd : ∀ e, ArgDesignates parse c e → ElemStored cfg w catalog (argLangs langs) d (src e)) :
    ∃ lines, T.main conf env dir d.fs argv = ⟨d.fs, lines, .ok ()⟩ ∧
      (∀ q ∈ lines, ∃ e f, ArgDesignates parse c e ∧ f ∈ (src e).manif.files.values ∧ q = cfg.extractPath (src e).release f ∧
        (f.isLink = true ∨ d.content q = some (rightContent w catalog (src e).release f))) ∧
      ∀ e, ArgDesignates parse c e → ∀ f ∈ (src e).manif.files.values, Selected (argLangs langs) f → cfg.extractPath (src e).release f ∈ lines := by
  obtain ⟨path', patchline', langs', rel', h1, h2, h3, h4, h5⟩ := C84_files T conf env dir d.fs hc hline
  obtain ⟨k1, sel, k2, k3⟩ := C76_files cfg parse src c es hes langs hl
  refine ⟨_, by
    rw [h5, textGiven_unique h1 hpath, textGiven_unique h2 hpatchline, langsGiven_unique h3 hlangs, flagGiven_unique h4 hrel]
    simp only [withStorage, hst, hT]
    rw [k3], ?_, ?_⟩
  · intro q hq
    obtain ⟨e, he, hq⟩ := List.mem_flatMap.1 hq
    obtain ⟨f, hf, rfl⟩ := List.mem_map.1 hq
    obtain ⟨hf1, hf2⟩ := List.mem_filter.1 hf
    refine ⟨e, f, (k1 e).1 he, hf1, rfl, ?_⟩
    cases hlk : f.isLink with
    | true => exact .inl rfl
    | false => exact .inr (hd e ((k1 e).1 he) f hf1 ((k2 f).1 hf2) hlk)
  · intro e he f hf hs
    exact List.mem_flatMap.2 ⟨e, (k1 e).2 he, List.mem_map.2 ⟨f, List.mem_filter.2 ⟨hf, (k2 f).2 hs⟩, rfl⟩⟩

/-- `versions` from the command line: the versions printed are those of the elements that the storage lists, without consecutive repeats for `patch`; those of
the elements of this name for `game` and `client`. Nothing is written. -/
theorem C84_versions_printed {p : ParserDef} (hc : ("versions".toList, p) ∈ commandParsers dir) {gs : List GivenOpt} {type : Str} {argv : List Str}
    (hline : LineOf "versions" p.opts gs [type] argv) (hty : type ∈ ["patch".toList, "game".toList, "client".toList]) {path patchline : Option Str}
    (hpath : TextGiven gs "storage" path) (hpatchline : TextGiven gs "patchline" patchline) {stored : Bool} (hstored : FlagGiven gs "stored" false stored)
    {st : StorageObj} (hst : parseStorageArgs fs conf env path patchline = .ok st) :
    ∃ l, T.main conf env dir fs argv = ⟨fs, l, .ok ()⟩ ∧
      (type = "patch".toList → l = mergeRepeats ((T.elems st stored fs).map fun e => e.version.s)) ∧
      (type ≠ "patch".toList → (∀ v, v ∈ l ↔ ∃ e ∈ T.elems st stored fs, e.name = type ∧ e.version.s = v) ∧
        l.Sublist (mergeRepeats ((T.elems st stored fs).map fun e => e.version.s))) := by
  obtain ⟨path', patchline', stored', h1, h2, h3, h4⟩ := C84_versions T conf env dir fs hc hline hty
  obtain ⟨l, k1, k2, k3, k4⟩ := C84_versions_listed (T.elems st stored fs) type
  refine ⟨l, ?_, k3, fun h => ⟨k4 h, k2⟩⟩
  rw [h4, textGiven_unique h1 hpath, textGiven_unique h2 hpatchline, flagGiven_unique h3 hstored]
  simp only [withStorage, hst, k1, prints]

end

/-! ## Cases -/

namespace C84files

theorem line : LineOf "files" (optHelp :: componentOpts ++ [optTrue ["-r", "--relative"] "relative"]) [] ["patch".toList] ["files".toList, "patch".toList] :=
  LineOf.plain (opts := optHelp :: componentOpts ++ [optTrue ["-r", "--relative"] "relative"]) 0 [] [] ["patch".toList] (by simp) (by simp [PlainWord])
    (by rintro - ⟨g, hg, -⟩; simp at hg)

/-- The tool, with the storage of the examples of C76 -/
def tool (T0 : ToolLib) : ToolLib := { T0 with
  files := fun _ c langs rel fs => (fs, shaCfg.commandFiles oneParse (fun _ => shaElem) c langs rel)
  elems := fun _ _ _ => [⟨"game".toList, ⟨"14.3".toList, .nums [14, 3]⟩, 0⟩, ⟨"client".toList, ⟨"14.3".toList, .nums [14, 3]⟩, 0⟩,
    ⟨"client".toList, ⟨"14.2".toList, .nums [14, 2]⟩, 1⟩] }

/-- A disk with the two files of the element -/
def storedDisk : Disk := ⟨fun q =>
  if q = shaCfg.extractPath 12 demoFile then some (.file (rightContent demoCdn2 demoCatalog2 12 demoFile))
  else if q = shaCfg.extractPath 12 demoFile2 then some (.file (rightContent demoCdn2 demoCatalog2 12 demoFile2)) else none, fun _ => none⟩

theorem stored_elem : ElemStored shaCfg demoCdn2 demoCatalog2 .all storedDisk shaElem := by
  have h : ∀ f ∈ shaElem.manif.files.values, storedDisk.content (shaCfg.extractPath 12 f) = some (rightContent demoCdn2 demoCatalog2 12 f) := by decide +kernel
  intro f hf _ _
  exact h f hf

/-- `CDTB_STORAGE=patcher:/s cdtb files patch`, when the files are stored -/
example (T0 : ToolLib) (conf : ConfLib) : ∃ lines,
    (tool T0).main conf (some "patcher:/s".toList) none storedDisk.fs ["files".toList, "patch".toList] = ⟨storedDisk.fs, lines, .ok ()⟩ ∧ lines ≠ [] ∧
      ∀ q ∈ lines, ∃ f ∈ shaElem.manif.files.values, f.isLink = true ∨ storedDisk.content q = some (rightContent demoCdn2 demoCatalog2 shaElem.release f) := by
  have hst : parseStorageArgs storedDisk.fs conf (some "patcher:/s".toList) none none = .ok (.patcher (.str shaCfg.base) (.str shaCfg.patchline) shaCfg.symlinks .null) := by
    have := (C53_missing_path storedDisk.fs conf "patcher:/s".toList (by decide +kernel)).1 "patcher".toList "/s".toList (by decide +kernel) (by decide +kernel)
    rw [C53_path _ _ _ _ "patcher:/s".toList (Or.inr ⟨rfl, rfl⟩)]
    unfold storageFromPath
    rw [this]
    rfl
  obtain ⟨lines, h1, h2, h3⟩ := C84_files_stored (tool T0) conf (some "patcher:/s".toList) none
    (by unfold commandParsers; exact List.mem_of_getElem? (i := 1) rfl) line (path := none) (patchline := none) (langs := .all)
    (.default (by simp)) (.default (by simp)) (.default (by simp)) (.default (by simp)) (cfg := shaCfg) (client := .null) (d := storedDisk) hst (parse := oneParse)
    (src := fun _ => shaElem) (fun _ _ _ => rfl) (es := [patchElem]) rfl (by simp) (w := demoCdn2) (catalog := demoCatalog2) (fun _ _ => stored_elem)
  obtain ⟨f, hf, hs⟩ : ∃ f, f ∈ shaElem.manif.files.values ∧ Selected (argLangs .all) f :=
    ⟨_, List.mem_of_getElem? (i := 0) rfl, by simp [argLangs, Selected]⟩
  have := h3 patchElem (.patch (p := ⟨⟨"8.1".toList, .nums [8, 1]⟩, [patchElem]⟩) rfl (List.mem_singleton.2 rfl)) f hf hs
  refine ⟨lines, h1, List.ne_nil_of_mem this, fun q hq => ?_⟩
  obtain ⟨_, f, -, hf, -, h⟩ := h2 q hq
  exact ⟨f, hf, h⟩

/-- `CDTB_STORAGE=/s cdtb files patch`, on an empty disk: paths are printed all the same -/
example (T0 : ToolLib) (conf : ConfLib) : ∃ lines,
    (tool T0).main conf (some "/s".toList) none emptyDisk.fs ["files".toList, "patch".toList] = ⟨emptyDisk.fs, lines, .ok ()⟩ := by
  obtain ⟨-, sel, -, h⟩ := C84_files_printed (tool T0) conf (some "/s".toList) none emptyDisk.fs
    (by unfold commandParsers; exact List.mem_of_getElem? (i := 1) rfl) line (path := none) (patchline := none) (langs := .all)
    (.default (by simp)) (.default (by simp)) (.default (by simp)) (relative := false) (.default (by simp)) (cfg := shaCfg) (client := .null) rfl (parse := oneParse)
    (src := fun _ => shaElem) (fun _ _ _ => rfl) (es := [patchElem]) rfl (by simp) (fun _ _ => by decide +kernel)
  exact ⟨_, h⟩

/-- `CDTB_STORAGE=/s cdtb versions client` -/
example (T0 : ToolLib) (conf : ConfLib) : ∃ l,
    (tool T0).main conf (some "/s".toList) none emptyDisk.fs ["versions".toList, "client".toList] = ⟨emptyDisk.fs, l, .ok ()⟩ ∧ "14.2".toList ∈ l := by
  have hline : LineOf "versions" _ [] ["client".toList] ["versions".toList, "client".toList] :=
    LineOf.plain (opts := optHelp :: storageOpts ++ [⟨["-a".toList, "--all".toList], "stored".toList, .flag (.bool false), .bool true⟩]) 0 [] [] ["client".toList] (by simp) (by simp [PlainWord]) (by rintro - ⟨g, hg, -⟩; simp at hg)
  obtain ⟨l, h1, -, h2⟩ := C84_versions_printed (tool T0) conf (some "/s".toList) none emptyDisk.fs
    (by unfold commandParsers; exact List.mem_of_getElem? (i := 2) rfl) hline (by simp) (path := none) (patchline := none)
    (.default (by simp)) (.default (by simp)) (stored := true) (.default (by simp)) rfl
  exact ⟨l, h1, ((h2 (by decide +kernel)).1 _).2 ⟨_, List.mem_of_getElem? (l := (tool T0).elems _ _ _) (i := 2) rfl, rfl, rfl⟩⟩

end C84files

end Cdtb
