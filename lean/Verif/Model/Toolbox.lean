import Verif.Model.Args
import Verif.Model.Commands
import Verif.Model.WadCmd
import Verif.Model.SknCmd
import Verif.Model.JsonText
import Verif.Model.GuessCmd
/-!
# Model of the toolbox: from a command line to what the command does (cdtb/__main__.py:73-331, 489-519)

The commands read their arguments as attributes. What they do with them is modelled elsewhere (`commandWadExtract`, `commandWadList`, `sknExtract`,
`DumpLib.printed`, `commandGuess`, `commandVersions`, `commandExport`); here are the reading of attributes and the call of these functions.
-/
namespace Cdtb
set_option autoImplicit false
open Py

/-! ## Attributes -/

/-- `args.k`, for a text (cdtb/__main__.py:79, 87, 118, 145, 306, 320). A value of another type is not used by the program: it is an error here. -/
def attrText (ns : Dict Str ArgVal) (k : String) : Res Str := match ns.get? k.toList with
  | some (.str s) => .ok s
  | some _ => .error .type
  | none => .error .attribute

/-- `args.k`, for a text or `None` (cdtb/__main__.py:120, 125, 148, 182, 269, 271, 310, 323) -/
def attrOptText (ns : Dict Str ArgVal) (k : String) : Res (Option Str) := match ns.get? k.toList with
  | some (.str s) => .ok (some s)
  | some .none => .ok none
  | some _ => .error .type
  | none => .error .attribute

/-- `args.k`, for a boolean (cdtb/__main__.py:80, 86, 141, 174, 266-267, 327) -/
def attrBool (ns : Dict Str ArgVal) (k : String) : Res Bool := match ns.get? k.toList with
  | some (.bool b) => .ok b
  | some _ => .error .type
  | none => .error .attribute

/-- `args.k`, for a list (cdtb/__main__.py:74, 179) -/
def attrTexts (ns : Dict Str ArgVal) (k : String) : Res (List Str) := match ns.get? k.toList with
  | some (.list l) => .ok l
  | some _ => .error .type
  | none => .error .attribute

/-- `args.pattern`, a list or `None`, in a condition then in a loop (cdtb/__main__.py:137-138): `None` is as an empty list -/
def attrOptTexts (ns : Dict Str ArgVal) (k : String) : Res (List Str) := match ns.get? k.toList with
  | some (.list l) => .ok l
  | some .none => .ok []
  | some _ => .error .type
  | none => .error .attribute

/-- `args.langs` (cdtb/__main__.py:75, 80) -/
def attrLangs (ns : Dict Str ArgVal) : Res LangArg := match ns.get? "langs".toList with
  | some (.bool true) => .ok .all
  | some (.bool false) => .ok .noLang
  | some (.list l) => .ok (.given l)
  | some _ => .error .type
  | none => .error .attribute

/-- `args.unknown` (cdtb/__main__.py:130-135): other texts filter nothing, as `yes` -/
def attrUnknown (ns : Dict Str ArgVal) : Res UnknownArg := do
  let s ← attrText ns "unknown"
  .ok (if s = "yes".toList then .yes else if s = "only".toList then .only else if s = "no".toList then .no else .yes)

/-- `args.storage` (cdtb/__main__.py:74, 79, 86, 194, 265) -/
def attrStorage : Option StorageObj → Res StorageObj
  | some st => .ok st
  | none => .error .attribute

/-- Attributes of `command_wad_extract` (cdtb/__main__.py:117-141) -/
def wadExtractArgs (ns : Dict Str ArgVal) : Res WadArgs := do
  let wad ← attrText ns "wad"
  let output ← attrOptText ns "output"
  let hashes ← attrOptText ns "hashes"
  let unknown ← attrUnknown ns
  let patterns ← attrOptTexts ns "pattern"
  let lazy ← attrBool ns "lazy"
  .ok { wad, output, hashes, patterns, unknown, lazy }

/-- Attributes of `command_hashes_guess` (cdtb/__main__.py:174-192, 231, 260) -/
def guessArgs (ns : Dict Str ArgVal) : Res GuessArgs := do
  let listMethods ← attrBool ns "list_methods"
  let wad ← attrTexts ns "wad"
  let methods ← attrOptText ns "methods"
  let dryRun ← attrBool ns "dry_run"
  .ok { dryRun, methods, listMethods, wad }

/-- Attributes of `command_export`, and `overwrite` (cdtb/__main__.py:266-302) -/
def exportArgs (ns : Dict Str ArgVal) : Res (ExportArgs × Bool) := do
  let lazy ← attrBool ns "lazy"
  let symlinks ← attrBool ns "symlinks"
  let patch ← attrOptText ns "patch"
  let previous ← attrOptText ns "previous"
  let first ← attrOptText ns "first"
  let output ← attrText ns "output"
  .ok ({ patch, previous, first, output, symlinks }, !lazy)

/-! ## The toolbox -/

/-- What commands use: libraries, the directory of hash files, failures when files are written, and what storages do (`elems storage stored`: its
elements, all or those stored, whose listing does not fail here; `component`: `storage.parse_component`, for `hashes-guess`; `download`, `files`, `process`, `fetch`: the end of these
commands, modelled elsewhere; `dirs`: names of subdirectories) -/
structure ToolLib where
  cx : Codecs
  fnmatch : Str → Str → Bool
  hashDir : Str
  writes : Nat → WriteFaults
  showF : Nat → Str
  mkdirs : Option (Nat × Err)
  texts : Nat → TextFaults
  dump : DumpLib
  json : JsonWriter
  hash : Str → Int
  text : TextLib
  saves : Option (Nat × Err) × Option (Nat × Err)
  elems : StorageObj → Bool → FS → List Elem
  component : StorageObj → FS → Str → Res (Option GuessComponent)
  download : StorageObj → List Str → LangArg → FS → FS × Res Unit
  files : StorageObj → Str → LangArg → Bool → FS → FS × List Str × Res Unit
  dirs : FS → Str → List Str
  process : PatchExporter → Bool → FS → FS × Res Unit
  fetch : FS → FS × List Str × Res Unit

/-- A run: the files after it, the printed texts, and how it ends: a returned value, a usage error, an exception -/
structure ToolRun where
  fs : FS
  out : List Str
  res : Res Unit

/-- An exporter is processed (cdtb/__main__.py:276-277, 301-302) -/
def ToolLib.processAll (T : ToolLib) (overwrite : Bool) (fs : FS) (es : List PatchExporter) : FS × Res Unit :=
  forElems (fun _ fs e => T.process e overwrite fs) 0 fs es

/-- The call of the function of a command (cdtb/__main__.py:519), with its attributes and its storage -/
def ToolLib.call (T : ToolLib) (fs : FS) (f : Str) (ns : Dict Str ArgVal) (storage : Option StorageObj) : ToolRun :=
  let run : Res ToolRun :=
    if f = "command_download".toList then do
      let st ← attrStorage storage
      let components ← attrTexts ns "component"
      let langs ← attrLangs ns
      let (fs', r) := T.download st components langs fs
      .ok ⟨fs', [], r⟩
    else if f = "command_files".toList then do
      let st ← attrStorage storage
      let component ← attrText ns "component"
      let relative ← attrBool ns "relative"
      let langs ← attrLangs ns
      let (fs', out, r) := T.files st component langs relative fs
      .ok ⟨fs', out, r⟩
    else if f = "command_versions".toList then do
      let st ← attrStorage storage
      let stored ← attrBool ns "stored"
      let type ← attrText ns "type"
      let out ← commandVersions (T.elems st stored fs) type
      .ok ⟨fs, out, .ok ()⟩
    else if f = "command_fetch_hashes".toList then
      let (fs', out, r) := T.fetch fs
      .ok ⟨fs', out, r⟩
    else if f = "command_wad_extract".toList then do
      let a ← wadExtractArgs ns
      let (fs', r) := commandWadExtract T.cx T.fnmatch T.hashDir T.writes fs a
      .ok ⟨fs', [], r⟩
    else if f = "command_wad_list".toList then do
      let wad ← attrText ns "wad"
      let hashes ← attrOptText ns "hashes"
      let out ← commandWadList T.cx T.hashDir fs wad hashes
      .ok ⟨fs, out, .ok ()⟩
    else if f = "command_hashes_guess".toList then do
      let st ← attrStorage storage
      let a ← guessArgs ns
      let r := commandGuess T.hash T.text T.cx T.hashDir (T.component st fs) T.saves fs a
      .ok ⟨r.fs, r.out, r.res⟩
    else if f = "command_export".toList then do
      let st ← attrStorage storage
      let (a, overwrite) ← exportArgs ns
      let es ← commandExport (T.elems st false fs) (T.elems st true fs) (T.dirs fs a.output) a
      let (fs', r) := T.processAll overwrite fs es
      .ok ⟨fs', [], r⟩
    else if f = "command_skn_extract".toList then do
      let skn ← attrText ns "skn"
      let output ← attrOptText ns "output"
      let (fs', r) := sknExtract T.showF fs skn output T.mkdirs T.texts
      .ok ⟨fs', [], r⟩
    else if f = "command_bin_dump".toList then do
      let bin ← attrText ns "bin"
      let version ← attrOptText ns "patch_version"
      let json ← attrBool ns "json"
      let out ← T.dump.printed T.json fs bin version json
      .ok ⟨fs, [out], .ok ()⟩
    else .error .key
  match run with
  | .ok r => r
  | .error e => ⟨fs, [], .error e⟩

/-- The toolbox, run with a command line (cdtb/__main__.py:489-519). Printing the help of a parser is a normal end; its text is not modelled. -/
def ToolLib.main (T : ToolLib) (conf : ConfLib) (env exportDir : Option Str) (fs : FS) (argv : List Str) : ToolRun :=
  match mainRun fs conf env exportDir argv with
  | .help => ⟨fs, [], .ok ()⟩
  | .usage => ⟨fs, [], .error .usage⟩
  | .failed e => ⟨fs, [], .error e⟩
  | .call f ns st _ _ => T.call fs f ns st

end Cdtb
