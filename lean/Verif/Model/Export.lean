import Verif.Model.Wad
import Verif.Model.Tree
import Verif.Model.Patches
/-!
# Exporters (cdtb/export.py)

Regexes are modelled on ASCII letters and digits.
-/
namespace Cdtb
set_option autoImplicit false
open Py

/-! ## Converted paths -/

/-- The file converters (cdtb/export.py:588-874) -/
inductive Converter where
  | copy | image | tex | atlas | bin | skn | rst | championSkin
deriving DecidableEq, Repr

/-- Removes a final newline: `$` matches before it. -/
def chopNl (s : Str) : Str := if endsWith s ['\n'] then s.dropLast else s

/-- `re.match(r'.*' + suffix + '$', s)`, for a suffix without special characters -/
def anyThen (suffix s : Str) : Bool :=
  let s := chopNl s
  endsWith s suffix && (s.take (s.length - suffix.length)).all (· ≠ '\n')

/-- `re.search(pre + rest, s)`: some occurrence of `pre` is followed by a match of `rest`. -/
def searchAfter (pre : Str) (rest : Str → Bool) : Str → Bool
  | [] => pre.isEmpty && rest []
  | c :: s => (startsWith (c :: s) pre && rest ((c :: s).drop pre.length)) || searchAfter pre rest s

/-- `re.match(r'(?:.*/)?' + pre + rest, s)` -/
def optionalDirs (pre : Str) (rest : Str → Bool) (s : Str) : Bool :=
  (startsWith s pre && rest (s.drop pre.length)) ||
    searchAfter ('/' :: pre) (fun r => (s.take (s.length - r.length - pre.length - 1)).all (· ≠ '\n') && rest r) s

/-- `re.search(r'game/.*\.cdtb$|game/assets/items/icons2d/autoatlas/.*/atlas_info\.bin$', path)` (cdtb/export.py:411) -/
def isAtlas (path : Str) : Bool :=
  searchAfter "game/".toList (anyThen ".cdtb".toList) path ||
    searchAfter "game/assets/items/icons2d/autoatlas/".toList (anyThen "/atlas_info.bin".toList) path

/-- `re.search(r'game/.*\.bin$', path)` (cdtb/export.py:412) -/
def isGameBin (path : Str) : Bool := searchAfter "game/".toList (anyThen ".bin".toList) path

/-- `re.search(r'game/(?:.*/)?data/menu/.*\.(txt|stringtable)$', path)` (cdtb/export.py:414) -/
def isMenuText (path : Str) : Bool :=
  searchAfter "game/".toList (optionalDirs "data/menu/".toList
    (fun s => anyThen ".txt".toList s || anyThen ".stringtable".toList s)) path

/-- `is_handled` (cdtb/export.py:591-592, 609-610, 629-630, 714-715, 736-737, 762-763, 791-792, 836-837) -/
def Converter.isHandled (c : Converter) (path : Str) : Bool :=
  match c with
  | .copy => true
  | .image => [".dds".toList, ".tga".toList].contains (splitext path).2
  | .tex => endsWith path ".tex".toList
  | .atlas => isAtlas path
  | .bin => isGameBin path
  | .skn => endsWith path ".skn".toList
  | .rst => isMenuText path
  | .championSkin => decide (path = "game/global/champions/championskins.info".toList)

/-- `converted_paths` (cdtb/export.py:594-595, 612-613, 632-633, 717-719, 739-741, 765-767, 794-795, 839-840) -/
def Converter.convertedPaths (c : Converter) (path : Str) : List Str :=
  match c with
  | .copy => [path]
  | .image => [(splitext path).1 ++ ".png".toList]
  | .tex => [(splitext path).1 ++ ".png".toList]
  | .atlas => [path ++ ".json".toList]
  | .bin => [path, path ++ ".json".toList]
  | .skn => [path, (splitext path).1]
  | .rst => [path, path ++ ".json".toList]
  | .championSkin => [path ++ ".json".toList]

/-- The converters of `_create_exporter`, in order (cdtb/export.py:408-416) -/
def patchConverters : List Converter := [.image, .tex, .atlas, .bin, .skn, .rst, .championSkin]

/-- `Exporter._get_converter` (cdtb/export.py:262-267) -/
def getConverter (cs : List Converter) (path : Str) : Converter := (cs.find? (·.isHandled path)).getD .copy

/-- `Exporter.converted_exported_paths` (cdtb/export.py:105-108) -/
def convertedPaths (cs : List Converter) (path : Str) : List Str := (getConverter cs path).convertedPaths path

/-! ## Exporters -/

/-- A WAD to export: its source file and its entries -/
structure ExpWad where
  path : Str
  files : List WadEntry
deriving DecidableEq, Repr

/-- `Exporter` (cdtb/export.py:82-86) -/
structure Exporter where
  plain : Dict Str Str
  wads : Dict Str ExpWad
  converters : List Converter

/-- `Exporter._exported_paths` (cdtb/export.py:89-93) -/
def Exporter.paths (e : Exporter) : List (Option Str) :=
  e.plain.keys.map some ++ e.wads.values.flatMap (fun w => w.files.map (·.path))

/-- `Exporter.unknown_hashes` (cdtb/export.py:95-98) -/
def Exporter.unknownHashes (e : Exporter) : List Nat :=
  e.wads.values.flatMap (fun w => (w.files.filter (fun f => noPath f.path)).map (·.pathHash))

/-- `Exporter.all_converted_exported_paths` (cdtb/export.py:100-103); the converters raise `TypeError` on `None`. -/
def Exporter.allConverted (e : Exporter) : Res (List Str) := do
  let l ← e.paths.mapM (fun p => match p with
    | some p => .ok (convertedPaths e.converters p)
    | none => .error .type)
  pure l.flatten

/-- `Exporter.filter_export_paths` (cdtb/export.py:166-179) -/
def Exporter.filterPaths (e : Exporter) (predicate : Option Str → Bool) : Exporter :=
  { e with
    plain := e.plain.filter (fun kv => predicate (some kv.1))
    wads := (e.wads.map (fun kw => (kw.1, { kw.2 with files := kw.2.files.filter (fun f => predicate f.path) }))).filter
      (fun kw => !kw.2.files.isEmpty) }

/-- The loop on plain files of `filter_exporter` (cdtb/export.py:184-188) -/
def filterPlain (self : Dict Str Str) : List (Str × Str) → Dict Str Str
  | [] => self
  | (path, source) :: other =>
    filterPlain (if self.get? path = some source then self.erase path else self) other

/-- `{wf.path_hash: wf.sha256 for wf in other_wad.files}` (cdtb/export.py:202) -/
def otherSha (files : List WadEntry) : Dict Nat (Option Nat) := Dict.ofList (files.map (fun f => (f.pathHash, f.sha256)))

/-- The loop on WADs of `filter_exporter` (cdtb/export.py:190-206) -/
def filterWads (self : Dict Str ExpWad) : List (Str × ExpWad) → Dict Str ExpWad
  | [] => self
  | (path, other) :: rest =>
    filterWads (match self.get? path with
      | none => self
      | some w =>
        if w.path = other.path then self.erase path
        else
          let files := w.files.filter (fun f => decide (f.sha256 ≠ ((otherSha other.files).get? f.pathHash).join))
          if files.isEmpty then self.erase path else self.set path { w with files := files }) rest

/-- `Exporter.filter_exporter` (cdtb/export.py:181-206) -/
def Exporter.filterExporter (self other : Exporter) : Exporter :=
  { self with plain := filterPlain self.plain other.plain, wads := filterWads self.wads other.wads }

/-! ## Patch exporters -/

/-- `re.search(r'^(plugins/rcp-.+?)/[^/]*assets\d*\.wad$', path, re.I)`: the lowercased directory (cdtb/export.py:428-430) -/
def pluginDir (path : Str) : Option Str :=
  match rsplit1 '/' path with
  | none => none
  | some (dir, base) =>
    let d := lower dir
    let b := chopNl (lower base)
    let stem := ((b.take (b.length - 4)).reverse.dropWhile (fun c => decide ('0'.toNat ≤ c.toNat ∧ c.toNat ≤ '9'.toNat))).reverse
    if startsWith d "plugins/rcp-".toList && decide (12 < d.length) && d.all (· ≠ '\n') &&
        endsWith b ".wad".toList && endsWith stem "assets".toList then some d else none

/-- cdtb/export.py:425-431 -/
def setUnknowns (wads : Dict Str ExpWad) : Dict Str ExpWad :=
  wads.map fun kw =>
    let dir := match pluginDir kw.1 with
      | some d => d ++ "/unknown".toList
      | none => "unknown".toList
    (kw.1, { kw.2 with files := kw.2.files.map (setUnknownPath dir) })

/-- `lambda p: p and not p.endswith('.exe') and not p.endswith('.dll')` (cdtb/export.py:434) -/
def notExecutable (p : Option Str) : Bool :=
  match p with
  | none => false
  | some p => !p.isEmpty && !endsWith p ".exe".toList && !endsWith p ".dll".toList

/-- `filter_path` (cdtb/export.py:449-457); `keep` is the accumulator -/
def filterPathGo (keep : Bool) : List Str → Bool
  | [] => keep
  | p :: ps =>
    let ext := (splitext p).2
    if ext = ".bin".toList then !containsSub p "_skins_".toList
    else filterPathGo (keep || [".png".toList, ".skn".toList, ".txt".toList, ".stringtable".toList, ".json".toList,
      ".ttf".toList, ".otf".toList].contains ext) ps
def filterPath (cs : List Converter) (path : Str) : Bool := filterPathGo false (convertedPaths cs path)

/-- `re.search(r"\.(.._..)\.wad\.client$", path)`, on a path that ends with `.wad.client`: the lowercased language
(cdtb/export.py:465-466) -/
def wadLang (path : Str) : Option Str :=
  let stem := path.take (path.length - 11)
  let tail := stem.drop (stem.length - 6)
  match tail with
  | ['.', a, b, '_', c, d] => if [a, b, c, d].all (· ≠ '\n') then some (lower [a, b, '_', c, d]) else none
  | _ => none

/-- `patch_version == "main" or patch_version >= PatchVersion("14.4")` (cdtb/export.py:464) -/
def langSubdirs (v : Version) : Res Bool :=
  if v.eq (.str "main".toList) then .ok true else v.cmp .ge ⟨"14.4".toList, .nums [14, 4]⟩

/-- the directory of the files of a game WAD (cdtb/export.py:461-466) -/
def gameSubdir (langs : Bool) (path : Str) : Str :=
  if langs then
    match wadLang path with
    | some l => "game/".toList ++ l
    | none => "game".toList
  else "game".toList

/-- One WAD in the loop on game WADs (cdtb/export.py:459-469); every path is set at this point. -/
def gameWad (cs : List Converter) (langs : Bool) (kw : Str × ExpWad) : Str × ExpWad :=
  if endsWith kw.1 ".wad.client".toList then
    let files := kw.2.files.map (fun f => { f with path := some (gameSubdir langs kw.1 ++ ['/'] ++ f.path.getD "None".toList) })
    (kw.1, { kw.2 with files := files.filter (fun f => filterPath cs (f.path.getD [])) })
  else kw

/-- `_transform_exported_files` (cdtb/export.py:420-473). The comparison of versions is only evaluated for game WADs. -/
def transform (e : Exporter) (version : Version) : Res Exporter := do
  let e1 := { e with wads := setUnknowns e.wads }
  let e2 := e1.filterPaths notExecutable
  let plain := e2.plain.filter (fun kv => !endsWith kv.1 "/description.json".toList)
  let langs ← if e2.wads.any (fun kw => endsWith kw.1 ".wad.client".toList) then langSubdirs version else .ok false
  pure { e2 with plain := plain, wads := (e2.wads.map (gameWad e.converters langs)).filter (fun kw => !kw.2.files.isEmpty) }

/-- What `process` decides before touching files (cdtb/export.py:333-360) -/
structure Plan where
  /-- content of `files.unknown.txt` -/
  unknown : List Nat
  /-- content of `files.exported.txt` -/
  exported : List Str
  /-- first argument of `clean_output_dir`: files to extract -/
  kept : List Str
  /-- symlinks to create -/
  links : List Str
  /-- content of `files.links.txt` (cdtb/export.py:370-373) -/
  linkLines : List Str
  /-- what is extracted -/
  exporter : Exporter

/-- `a - b` on sets -/
def setDiff (a b : List Str) : List Str := a.filter (fun p => decide (p ∉ b))

/-- `CdragonRawPatchExporter.process` (cdtb/export.py:329-360) for given exporters; `iter l` is the iteration order of
the set of the items of `l`, `sorted` sorts. When no symlink is created, `changed_paths` is the same object as
`new_paths`, so that "cdragon" is added to both. -/
def exportPlan (iter : List Str → List Str) (sortN : List Nat → List Nat) (sortS : List Str → List Str)
    (raw : Exporter) (version : Version) (prev : Option (Exporter × Version)) (symlinks : Bool) : Res Plan := do
  let unknown := sortN raw.unknownHashes
  let e ← transform raw version
  let prev' ← match prev with
    | none => pure none
    | some (p, v) => do
      let p' ← transform p v
      pure (some p')
  let new ← e.allConverted
  match prev' with
  | none =>
    let new' := new ++ ["cdragon".toList]
    pure { unknown, exported := sortS (iter new'), kept := new', links := [], linkLines := [], exporter := e }
  | some p => do
    let prevPaths ← p.allConverted
    let e' := e.filterExporter p
    if symlinks then do
      let changed ← e'.allConverted
      let links ← reduceCommonPaths (setDiff (iter new) changed) (iter prevPaths) (iter changed)
      pure { unknown, exported := sortS (iter new), kept := changed ++ ["cdragon".toList], links, linkLines := sortS links, exporter := e' }
    else
      let new' := new ++ ["cdragon".toList]
      pure { unknown, exported := sortS (iter new'), kept := new', links := [], linkLines := [], exporter := e' }

/-! ## Directories of patches -/

/-- A patch exporter: its output, its patch, the previous one, and whether it creates symlinks (cdtb/export.py:318-327) -/
structure PatchExporter where
  output : Str
  patch : Patch
  prev : Option Patch
  symlinks : Bool
deriving DecidableEq, Repr

/-- `CdragonRawPatchExporter.__init__` (cdtb/export.py:318-327), except the normalization of the path -/
def mkPatchExporter (output : Str) (patch : Patch) (prev : Option Patch) (symlinks : Option Bool) : Res PatchExporter :=
  match symlinks with
  | none => .ok ⟨output, patch, prev, prev.isSome⟩
  | some s => if s && prev.isNone then .error .value else .ok ⟨output, patch, prev, s⟩

/-- The set of versions of subdirectories (cdtb/export.py:513-521); versions are compared by text. `ValueError` and
`TypeError` are ignored, other exceptions are raised. -/
def dirVersions : List Str → Res (List Str)
  | [] => .ok []
  | name :: names =>
    match patchVersion (.str name) with
    | .ok v => do
      let r ← dirVersions names
      pure (v.s :: r.filter (fun s => decide (s ≠ v.s)))
    | .error .value => dirVersions names
    | .error .type => dirVersions names
    | .error e => .error e

/-- `first and patch.version < first` (cdtb/export.py:529) -/
def stopScan (first : Option Version) (p : Patch) : Res Bool :=
  match first with
  | some f => p.version.cmp .lt f
  | none => .ok false

/-- The loop on patches (cdtb/export.py:527-537): the selected ones; `ValueError` when it is not broken. -/
def selectPatches (first : Option Version) : List Patch → List Str → Res (List Patch)
  | [], _ => .error .value
  | p :: ps, versions => do
    let stop ← stopScan first p
    if stop then pure []
    else if p.version.s ∈ versions then
      let versions' := versions.erase p.version.s
      if versions'.isEmpty then pure [p]
      else do
        let r ← selectPatches first ps versions'
        pure (p :: r)
    else selectPatches first ps versions

/-- `zip(patches, patches[1:] + [None])` -/
def withPrevious : List Patch → List (Patch × Option Patch)
  | [] => []
  | p :: ps => (p, ps.head?) :: withPrevious ps

/-- `CdragonRawPatchExporter.from_directory` (cdtb/export.py:502-544), for the names of the subdirectories and the stored
patches of the storage -/
def fromDirectory (dirs : List Str) (stored : List Patch) (output : Str) (first : Option Version) (symlinks : Option Bool) :
    Res (List PatchExporter) := do
  let versions ← dirVersions dirs
  if versions.isEmpty then pure []
  else do
    let ps ← selectPatches first stored versions
    let exporters ← (withPrevious ps).mapM (fun pp => mkPatchExporter (pjoin output pp.1.version.s) pp.1 pp.2
      (if pp.2.isSome then symlinks else some false))
    pure exporters.reverse

end Cdtb
