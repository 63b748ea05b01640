import Verif.Model.ExportFiles
import Verif.Model.GuessPaths
import Verif.Model.Rads
import Verif.Model.Releases
import Verif.Py.Utf8
/-!
# Patch version of an element of a release (cdtb/patcher.py:349-356, 532-539, 585-658, cdtb/storage.py:428-454)

Text files are read and written as UTF-8 (the encoding of the locale). A file is decoded as a whole.
-/
namespace Cdtb
set_option autoImplicit false
open Py

/-! ## Version in a file -/

/-- `$`: the end of the text, or a final line feed (cdtb/storage.py:433) -/
def atEnd (s : Str) : Bool := s = [] || s = ['\n']

/-- `["']` (cdtb/storage.py:433) -/
def isQuote (c : Char) : Bool := c = '"' || c = '\''

/-- `[0-9.]` (cdtb/storage.py:433) -/
def isVersionChar (c : Char) : Bool := isDig c || c = '.'

/-- `["']?$` (cdtb/storage.py:433) -/
def quoteEnd : Str → Bool
  | [] => true
  | c :: r => atEnd (c :: r) || (isQuote c && atEnd r)

/-- `["'/]([0-9.]+)["']?$` at a position: the group (cdtb/storage.py:433). Matching fewer characters of the version does
not help: the next one would be neither a quote nor the end. -/
def matchBranchEnd : Str → Option Str
  | [] => none
  | q :: r =>
    if isQuote q || q = '/' then
      let v := r.takeWhile isVersionChar
      if !v.isEmpty && quoteEnd (r.dropWhile isVersionChar) then some v else none
    else none

/-- `.*["'/]([0-9.]+)["']?$`: the longest `.*` is tried first (cdtb/storage.py:433) -/
def matchBranch : Str → Option Str
  | [] => none
  | c :: r => match (if c = '\n' then none else matchBranch r) with
    | some v => some v
    | none => matchBranchEnd (c :: r)

/-- The group of the regex on a line of `system.yaml` (cdtb/storage.py:433) -/
def yamlLine (line : Str) : Option Str :=
  let l := line.dropWhile (· = ' ')
  match afterPrefix "game-branch: ".toList l with
  | some r => matchBranch r
  | none => match afterPrefix "branch: ".toList l with
    | some r => matchBranch r
    | none => none

/-- `get_system_yaml_version`: cdtb/storage.py:428-436 -/
def systemYamlVersion (b : Bytes) : Res (Option Str) := do
  let text ← utf8 b
  pure ((fileLines (universalNewlines text)).findSome? yamlLine)

/-- `re.match(r"^(\d+\.\d+)\.", s)`, its group (cdtb/storage.py:451); non-ASCII digits are not modelled. -/
def matchMetadata (s : Str) : Option Str :=
  let a := s.takeWhile isDig
  match s.dropWhile isDig with
  | '.' :: r =>
    let b := r.takeWhile isDig
    match r.dropWhile isDig with
    | '.' :: _ => if a.isEmpty || b.isEmpty then none else some (a ++ '.' :: b)
    | _ => none
  | _ => none

/-- `get_content_metadata_version`: cdtb/storage.py:447-454. The parameter gives `json.load(f)['version']`, or the
exception raised (`TypeError` if it is not a string). -/
def contentMetadataVersion (json : Bytes → Res Str) (b : Bytes) : Res (Option Str) := do
  let s ← json b
  pure (matchMetadata s)

/-! ## Patch version of an element -/

/-- What the world gives to a call of `patch_version`: responses of the CDN, order of the set of bundles
(cdtb/patcher.py:630), faults of the disk. -/
structure PvWorld where
  manifest : Str → Res Bytes
  manifestFaults : WriteFaults := {}
  bundle : Nat → Res Bytes
  bundleFaults : Nat → WriteFaults := fun _ => {}
  order : List (Option Nat) → List (Option Nat) := id
  extract : ExtractFaults := {}
  cache : WriteFaults := {}

/-- An element of a release: version of the release, name, URL of the manifest (cdtb/patcher.py:524-529) -/
structure RelElem where
  version : Int
  name : Str
  url : Str

/-- The property `manif`: cdtb/patcher.py:531-538. The object is a new one: the manifest is not loaded yet. -/
def PCfg.loadManif (cfg : PCfg) (w : PvWorld) (e : RelElem) (d : Disk) : Disk × Res Manifest :=
  if e.url.isEmpty then (d, .error .value)
  else match downloadManifest cfg.base d.fs w.manifest w.manifestFaults (.url e.url) with
    | (fs, .error er, _) => ({ d with fs := fs }, .error er)
    | (fs, .ok path, _) => ({ d with fs := fs }, do
        let b ← fs.readFile (storageFspath cfg.base path)
        (parseRman cfg.zstd).run b)

/-- The loop downloading bundles: cdtb/patcher.py:630-631 -/
def PCfg.fetchBundles (cfg : PCfg) (w : PvWorld) : Disk → List (Option Nat) → Disk × Res Unit
  | d, [] => (d, .ok ())
  | d, i :: r => match bundleIdRes i with
    | .error e => (d, .error e)
    | .ok b => match download cfg.base d.fs (bundleCall w.bundle w.bundleFaults b) with
      | (fs, .error e, _) => ({ d with fs := fs }, .error e)
      | (fs, .ok (), _) => cfg.fetchBundles w { d with fs := fs } r

/-- File name and extractor of an element: cdtb/patcher.py:620-626 -/
def versionSource (json : Bytes → Res Str) (name : Str) : Res (Str × (Bytes → Res (Option Str))) :=
  if name = "client".toList then .ok ("system.yaml".toList, systemYamlVersion)
  else if name = "game".toList then .ok ("content-metadata.json".toList, contentMetadataVersion json)
  else .error .key

/-- Bundles are downloaded if the file is not extracted: cdtb/patcher.py:629-631 -/
def PCfg.fetchIfNeeded (cfg : PCfg) (w : PvWorld) (version : Int) (d : Disk) (f : PFile) : Disk × Res Unit :=
  if cfg.isExtracted version d f then (d, .ok ())
  else cfg.fetchBundles w d (w.order (fileBundles [f]))

/-- The version is read from the extracted file: cdtb/patcher.py:634-635. `PatchVersion(None)` raises `ValueError`. -/
def PCfg.readVersion (cfg : PCfg) (version : Int) (d : Disk) (f : PFile) (ext : Bytes → Res (Option Str)) : Res Version :=
  match d.content (cfg.extractPath version f) with
  | none => .error .fileNotFound
  | some b => do
    match ← ext b with
    | none => throw .value
    | some s => patchVersion (.str s)

/-- Once the file is known: cdtb/patcher.py:628-635 -/
def PCfg.retrieveFrom (cfg : PCfg) (w : PvWorld) (version : Int) (d : Disk) (f : PFile) (ext : Bytes → Res (Option Str)) :
    Disk × Res Version :=
  match cfg.fetchIfNeeded w version d f with
  | (d', .error er) => (d', .error er)
  | (d', .ok ()) => match cfg.elemExtractFile version false d' f w.extract with
    | (d'', .error er) => (d'', .error er)
    | (d'', .ok ()) => (d'', cfg.readVersion version d'' f ext)

/-- `PatcherReleaseElement._retrieve_patch_version`: cdtb/patcher.py:610-635 -/
def PCfg.retrieveVersion (cfg : PCfg) (json : Bytes → Res Str) (w : PvWorld) (e : RelElem) (d : Disk) : Disk × Res Version :=
  match versionSource json e.name with
  | .error er => (d, .error er)
  | .ok (fileName, ext) => match cfg.loadManif w e d with
    | (d', .error er) => (d', .error er)
    | (d', .ok m) => match m.files.get (some fileName) with
      | .error er => (d', .error er)
      | .ok f => cfg.retrieveFrom w e.version d' f ext

/-- Path of the cache: cdtb/patcher.py:595 -/
def PCfg.versionCache (cfg : PCfg) (e : RelElem) : Str := cfg.storageDir e.version ++ "/patch_version.".toList ++ e.name

/-- The version read from the cache: cdtb/patcher.py:598-600 -/
def readVersionCache (b : Bytes) : Res (Option Version) := do
  let text ← utf8 b
  let s := strip (universalNewlines text)
  if s.isEmpty then pure none
  else do
    let v ← patchVersion (.str s)
    pure (some v)

/-- Writing the cache: cdtb/patcher.py:606-607 -/
def PCfg.writeVersionCache (cfg : PCfg) (w : PvWorld) (e : RelElem) (d : Disk) (v : Version) : Disk × Res (Option Version) :=
  match openAndWrite d.fs (cfg.versionCache e) [.write (utf8Bytes (v.s ++ ['\n']))] w.cache with
  | (fs, .error er) => ({ d with fs := fs }, .error er)
  | (fs, .ok ()) => ({ d with fs := fs }, .ok (some v))

/-- `PatcherReleaseElement.patch_version`: cdtb/patcher.py:585-608. The retrieved version is never `None`: the
corresponding test is left out. -/
def PCfg.patchVersion (cfg : PCfg) (json : Bytes → Res Str) (w : PvWorld) (e : RelElem) (d : Disk) : Disk × Res (Option Version) :=
  if cfg.patchline = "pbe".toList then (d, (Cdtb.patchVersion (.str "main".toList)).map some)
  else match d.content (cfg.versionCache e) with
    | some b => (d, readVersionCache b)
    | none => match cfg.retrieveVersion json w e d with
      | (d', .error er) => (d', .error er)
      | (d', .ok v) => cfg.writeVersionCache w e d' v

/-! ## Patch elements of a storage -/

/-- Elements of releases (cdtb/patcher.py:354-355); the names are those of `PatchElement.names`. -/
def releaseElems (rels : List (Int × RelData)) : List RelElem :=
  rels.flatMap fun r => (relElements r.2).map fun n => ⟨r.1, n, (relElement r.2 n).getD []⟩

/-- The elements given by `patch_elements(stored=True)` until the end, or until an exception:
cdtb/patcher.py:349-356, 638-646. `ws i` is the world during the `i`-th call. -/
def PCfg.patchElements (cfg : PCfg) (json : Bytes → Res Str) (ws : Nat → PvWorld) : Nat → Disk → List RelElem →
    Disk × List (RelElem × Option Version) × Res Unit
  | _, d, [] => (d, [], .ok ())
  | i, d, e :: r => match cfg.patchVersion json (ws i) e d with
    | (d', .error er) => (d', [], .error er)
    | (d', .ok v) => match cfg.patchElements json ws (i + 1) d' r with
      | (d'', l, res) => (d'', (e, v) :: l, res)

end Cdtb
