import Verif.Model.Export
import Verif.Model.Releases
import Verif.Py.Normpath
/-!
# Model of storage configurations (`cdtb/storage.py`) and of commands (`cdtb/__main__.py`)
-/
namespace Cdtb
set_option autoImplicit false
open Py

/-! ## Storage configurations -/

/-- Values of a configuration: strings, booleans, `null`. Numbers, lists and objects are not modelled. -/
inductive CVal where
  | str (s : Str)
  | bool (b : Bool)
  | null
deriving DecidableEq, Repr

/-- A configuration: a dict -/
abbrev Conf := Dict Str CVal

/-- What `json.load` returns for the content of a file; it may raise (`ValueError`). Values that are not objects are not modelled. -/
abbrev ConfLib := Bytes → Res Conf

/-- `os.path.isdir(p)` -/
def FS.isDir (fs : FS) (p : Str) : Bool := fs p = some .dir

/-- `os.path.join(a, conf value)`: `TypeError` when it is not a string -/
def joinVal (a : Str) : CVal → Res Str
  | .str s => .ok (pjoin a s)
  | _ => .error .type

/-- `load_storage_conf` (cdtb/storage.py:135-141) -/
def loadStorageConf (fs : FS) (json : ConfLib) (path : Str) : Res Conf := do
  let b ← fs.readFile path
  let conf ← json b
  if conf.contains "type".toList then do
    let p ← joinVal (dirname path) ((conf.get? "path".toList).getD (.str ['.']))
    .ok (conf.set "path".toList (.str (normpath p)))
  else .error .value

/-- `guess_storage_conf` (cdtb/storage.py:165-170) -/
def guessStorageConf (fs : FS) (path : Str) : Option Conf :=
  if fs.isDir (pjoin path "channels".toList) then some [("type".toList, .str "patcher".toList), ("path".toList, .str path)] else none

/-- `storage_conf_from_path` (cdtb/storage.py:143-163) -/
def storageConfFromPath (fs : FS) (json : ConfLib) (path : Str) : Res Conf :=
  if fs.isDir path then
    if fs.isFile (pjoin path "cdtb.storage.conf".toList) then loadStorageConf fs json (pjoin path "cdtb.storage.conf".toList)
    else match guessStorageConf fs path with
      | some conf => .ok conf
      | none => .error .value
  else if fs.isFile path then loadStorageConf fs json path
  else match split1 ':' path with
    | some (t, p) => .ok [("type".toList, .str t), ("path".toList, .str p)]
    | none => .ok [("type".toList, .str "patcher".toList), ("path".toList, .str path)]

/-- Storages (cdtb/patcher.py:314-318, cdtb/rads.py:61-64) -/
inductive StorageObj where
  | patcher (path : CVal) (patchline : CVal) (symlinks : Bool) (clientconfig : CVal)
  | rads (path : CVal) (url : CVal)
deriving DecidableEq, Repr

/-- `conf['path']` -/
def confPath (conf : Conf) : Res CVal := conf.get "path".toList

/-- `PatcherStorage.from_conf_data` (cdtb/patcher.py:320-327) -/
def patcherFromConf (conf : Conf) : Res StorageObj := do
  let path ← confPath conf
  .ok (.patcher path ((conf.get? "patchline".toList).getD (.str "live".toList))
    (conf.get? "use_extract_symlinks".toList ≠ some (.bool false)) ((conf.get? "clientconfig_data".toList).getD .null))

/-- `str(v)` of a configuration value -/
def CVal.text : CVal → Str
  | .str s => s
  | .bool true => "True".toList
  | .bool false => "False".toList
  | .null => "None".toList

/-- `getattr(cls, f"URL_{cdn}".upper())` (cdtb/rads.py:57-59, 71). `str.upper` on ASCII letters. -/
def radsUrl (cdn : Str) : Res Str :=
  let name := cdn.map upperChar
  if name = "DEFAULT".toList then .ok "http://l3cdn.riotgames.com/releases/live/".toList
  else if name = "KR".toList then .ok "http://l3cdn.riotgames.com/KR_CBT/".toList
  else if name = "PBE".toList then .ok "http://l3cdn.riotgames.com/releases/pbe/".toList
  else .error .attribute

/-- `RadsStorage.from_conf_data` (cdtb/rads.py:66-74, and the constructor, 61-64) -/
def radsFromConf (conf : Conf) : Res StorageObj := do
  let url ← match conf.get? "cdn".toList with
    | some cdn => if conf.contains "url".toList then .error .value else do
        let u ← radsUrl cdn.text
        .ok (CVal.str u)
    | none => .ok ((conf.get? "url".toList).getD .null)
  let path ← confPath conf
  .ok (.rads path (if url = .null then .str "http://l3cdn.riotgames.com/releases/live/".toList else url))

/-- `Storage.from_conf` (cdtb/storage.py:213-219). A missing type raises `KeyError` when the message of the `ValueError` is made. -/
def storageFromConf (conf : Conf) : Res StorageObj :=
  match conf.get? "type".toList with
  | none => .error .key
  | some (.str t) =>
    if t = "patcher".toList then patcherFromConf conf
    else if t = "rads".toList then radsFromConf conf
    else .error .value
  | some _ => .error .value

/-- `Storage.from_path` (cdtb/storage.py:197-211) -/
def storageFromPath (fs : FS) (json : ConfLib) (path : Str) : Res StorageObj := do
  let conf ← storageConfFromPath fs json path
  storageFromConf conf

/-- Sets the patchline given in the command line (cdtb/__main__.py:65-69) -/
def setPatchline (conf : Conf) : Option Str → Res Conf
  | none => .ok conf
  | some p => if conf.get? "type".toList = some (.str "patcher".toList) then .ok (conf.set "patchline".toList (.str p)) else .error .usage

/-- `parse_storage_args` (cdtb/__main__.py:50-70); `env` is the variable `CDTB_STORAGE` -/
def parseStorageArgs (fs : FS) (json : ConfLib) (env storage patchline : Option Str) : Res StorageObj :=
  match storage.or env with
  | none => storageFromConf [("type".toList, .str "patcher".toList), ("path".toList, .str "cdn".toList)]
  | some path => do
    let conf ← storageConfFromPath fs json path
    let conf ← setPatchline conf patchline
    storageFromConf conf

/-! ## Export -/

/-- Arguments of the export command (cdtb/__main__.py:448-463) -/
structure ExportArgs where
  patch : Option Str
  previous : Option Str
  first : Option Str
  output : Str
  symlinks : Bool
deriving DecidableEq, Repr

/-- A given argument that is not an empty string -/
def given : Option Str → Option Str
  | some [] => none
  | o => o

/-- `for v in it: if v.version == version: next(it) ... else: error` (cdtb/__main__.py:293-299) -/
def nextPatch (version : Version) : List Patch → Res Patch
  | [] => .error .usage
  | v :: rest => if v.version.eq (.ver version) then (match rest with
      | [] => .error .stopIteration
      | p :: _ => .ok p) else nextPatch version rest

/-- The previous patch (cdtb/__main__.py:287-299) -/
def previousPatch (stored : List Elem) (patch : Patch) (previous : Option Str) : Res (Option Patch) :=
  match given previous with
  | some v =>
    if v = "none".toList then .ok none
    else do
      match ← storagePatch stored (some (.str v)) with
      | some p => .ok (some p)
      | none => .error .usage
  | none => do
    let ps ← patches stored
    let p ← nextPatch patch.version ps
    .ok (some p)

/-- `command_export` (cdtb/__main__.py:264-302), up to the creation of exporters: `elems` are the elements of the storage, `stored` those
already stored, `dirs` the subdirectories of the output. `PatchVersion(None)` raises the same exception as `PatchVersion('')`. -/
def commandExport (elems stored : List Elem) (dirs : List Str) (args : ExportArgs) : Res (List PatchExporter) :=
  match given args.patch with
  | none =>
    if (given args.previous).isSome then .error .usage
    else if (given args.first).isSome then .error .usage
    else do
      let first ← patchVersion (.str (args.first.getD []))
      let ps ← patches stored
      fromDirectory dirs ps args.output (some first) (some args.symlinks)
  | some v =>
    if (given args.first).isSome then .error .usage
    else do
      match ← storagePatch elems (if v = "latest".toList then none else some (.str v)) with
      | none => .error .usage
      | some patch => do
        let prev ← previousPatch stored patch args.previous
        let e ← mkPatchExporter (pjoin args.output patch.version.s) patch prev (some args.symlinks)
        .ok [e]

/-! ## Components -/

/-- `parse_component_arg` (cdtb/__main__.py:32-44): `ValueError` becomes a usage error, and a component that is not found too -/
def parseComponentArg (parse : Str → Res Component) (component : Str) : Res (List Elem) :=
  match parse component with
  | .error .value => .error .usage
  | .error .unicode => .error .usage
  | .error e => .error e
  | .ok .none => .error .usage
  | .ok (.patch p) => .ok p.elements
  | .ok (.element e) => .ok [e]

/-- `parse_component_args` (cdtb/__main__.py:46-47) -/
def parseComponentArgs (parse : Str → Res Component) (components : List Str) : Res (List Elem) := do
  let l ← components.mapM (parseComponentArg parse)
  .ok l.flatten

/-- `command_versions` (cdtb/__main__.py:85-88): the versions printed, for a type -/
def commandVersions (elems : List Elem) (type : Str) : Res (List Str) := do
  let ps ← patches elems
  .ok ((ps.filter fun p => type = "patch".toList || p.elements.any fun e => e.name = type).map fun p => p.version.s)

/-! ## WAD commands -/

/-- Values of `--unknown` (cdtb/__main__.py:420-421) -/
inductive UnknownArg where | yes | only | no
deriving DecidableEq, Repr

/-- Filter on unknown files (cdtb/__main__.py:130-135) -/
def keepUnknown (unknown : UnknownArg) (f : WadEntry) : Bool :=
  match unknown with
  | .yes => true
  | .only => f.path.isNone
  | .no => f.path.isSome

/-- The files kept by `command_wad_extract` (cdtb/__main__.py:130-138); `fnmatch` is `fnmatch.fnmatchcase` -/
def wadSelect (fnmatch : Str → Str → Bool) (unknown : UnknownArg) (patterns : List Str) (files : List WadEntry) : List WadEntry :=
  let files := files.filter (keepUnknown unknown)
  if patterns.isEmpty then files
  else files.filter fun f => patterns.any fun p => match f.path with
    | some path => fnmatch path p
    | none => false

/-- The output directory (cdtb/__main__.py:118-123): usage errors when the WAD is not a file or the output is a file -/
def wadOutput (fs : FS) (wad : Str) (output : Option Str) : Res Str :=
  if fs.isFile wad then
    let out := (given output).getD (splitext wad).1
    if fs out ≠ none ∧ ¬ fs.isDir out then .error .usage else .ok out
  else .error .usage

/-- `wf.path or ('?.%s' % wf.ext if wf.ext else '?')` (cdtb/__main__.py:154) -/
def listName (f : WadEntry) : Str :=
  match given f.path with
  | some p => p
  | none => match given f.ext with
    | some e => '?' :: '.' :: e
    | none => ['?']

/-- Order of pairs (path, hash) -/
def listLe (a b : Str × Nat) : Bool := decide (a.1 < b.1) || (decide (a.1 = b.1) && decide (a.2 ≤ b.2))

/-- The lines printed by `command_wad_list` (cdtb/__main__.py:154-156) -/
def wadListLines (files : List WadEntry) : List Str :=
  ((files.map fun f => (listName f, f.pathHash)).insertionSort fun a b => listLe a b = true).map fun x => hexW 16 x.2 ++ ' ' :: x.1

end Cdtb
