import Verif.Model.Export
import Verif.Model.Bin
import Verif.Model.Skn
import Verif.Model.Rst
import Verif.Model.Info
import Verif.Model.Tex
/-!
# Exported files (cdtb/export.py: `Exporter.export` and the converters)

Removing a directory tree does not fail. Names of submeshes do not contain slashes. Symbolic links are not modelled here.
-/
namespace Cdtb
set_option autoImplicit false
open Py

/-- Library functions and tables used by the converters (cdtb/export.py:569-850): `Image.open` and `save`, JSON, text encoding,
known hashes -/
structure ConvLib where
  /-- What `Image.open(fin).save(fout)` writes, for a content, and the error it may raise. `NotImplementedError` is `.runtime`. -/
  image : Bytes → List BodyStep
  /-- `json_dumps(...).encode('ascii')` for a serialized bin file -/
  binJson : Ser → List BodyStep
  /-- `json_dump(rst_json, fout, ...)` for the entries and the version -/
  rstJson : Dict Str Str → Nat → List BodyStep
  /-- `json_dump(..., fout, ...)` for an atlas -/
  atlasJson : Dict Str AtlasItem → List BodyStep
  /-- `json_dump(..., fout, ...)` for skins -/
  skinJson : Dict Str (Dict Nat SkinInfo) → List BodyStep
  /-- Text of a float -/
  showF : Nat → Str
  /-- `f.write(text)` in a text file -/
  text : Str → List BodyStep
  binEnv : BinEnv
  rstEnv : RstEnv
  /-- The hashes of string tables: `get_rsthashfile(game_version).load()` -/
  rstHashes : Dict Nat Str
  /-- The game hashes, for atlases -/
  gameHashes : Dict Nat Str
  /-- The game version of the converters -/
  version : Nat

/-- `shutil.rmtree(path, ignore_errors=True)`: nothing happens if it is not a directory (cdtb/export.py:748, cdtb/tools.py:51). -/
def FS.rmtree (fs : FS) (p : Str) : FS :=
  if fs p = some .dir then fun q => if q = p || startsWith q (p ++ ['/']) then none else fs q else fs

/-- What a converter does: writes a file with `write_file_or_remove` (errors of the body are changed by `err`), fails, or
replaces a directory (`rmtree` and `write_dir_or_remove`) by files with the given names and contents (cdtb/export.py:748-754) -/
inductive OutStep where
  | file (path : Str) (err : Err → Err) (body : List BodyStep)
  | fail (e : Err)
  | dir (path : Str) (files : Res (List (Str × Res Str)))

/-- `except (OSError, NotImplementedError): raise FileConversionError(...)`: cdtb/export.py:622-624, 642-643 -/
def imageErr : Err → Err
  | .os _ => .conversion
  | .fileNotFound => .conversion
  | .runtime => .conversion
  | e => e

/-- `except ValueError as e: raise FileConversionError(...)`: cdtb/export.py:728-729 -/
def binErr : Err → Err
  | .value => .conversion
  | .unicode => .conversion
  | e => e

/-- JSON of a bin file: cdtb/export.py:726-730 -/
def binBody (lib : ConvLib) (data : Bytes) : List BodyStep := match parseBin (some lib.version) data with
  | .error e => [.raise (binErr e)]
  | .ok b => match b.ser lib.binEnv with
    | .error e => [.raise e]
    | .ok s => lib.binJson s

/-- Files of the submeshes: cdtb/export.py:750-754 -/
def sknFiles (lib : ConvLib) (data : Bytes) : Res (List (Str × Res Str)) := match parseSkn.run data with
  | .error e => .error e
  | .ok s => .ok (s.entries.map fun e => (e.name ++ ".obj".toList, toObj lib.showF e))

/-- The hashes of a table, reduced to its width: cdtb/export.py:775 -/
def rstNames (hashes : Dict Nat Str) (bits : Nat) : Dict Nat Str := Dict.ofList (hashes.map fun kv => (kv.1 % 2 ^ bits, kv.2))

/-- The name of an entry: cdtb/export.py:778-781 -/
def rstName (names : Dict Nat Str) (key : Nat) : Str := (names.get? key).getD ('{' :: hexW 10 key ++ ['}'])

/-- The entries of the JSON of a string table: cdtb/export.py:774-782 -/
def rstEntries (hashes : Dict Nat Str) (r : Rst) : Dict Str Str :=
  Dict.ofList (r.entries.map fun kv => (rstName (rstNames hashes r.hashBits) kv.1, kv.2))

/-- JSON of a parsed content: cdtb/export.py:797-801, 842-846 -/
def jsonBody {α : Type} (parsed : Res α) (json : α → List BodyStep) : List BodyStep := match parsed with
  | .error e => [.raise e]
  | .ok a => json a

/-- `convert`: cdtb/export.py:597-600 (copy), 615-624 (image), 635-643 (tex), 721-730 (bin), 743-754 (skn), 769-785 (rst),
797-801 (atlas), 842-846 (championskins.info). A file that was just written is not read again. -/
def Converter.steps (lib : ConvLib) (c : Converter) (output path : Str) (data : Bytes) : List OutStep :=
  let out := pjoin output path
  let png := pjoin output ((splitext path).1 ++ ".png".toList)
  let json := out ++ ".json".toList
  let copy := OutStep.file out id [.write data]
  match c with
  | .copy => [copy]
  | .image => [.file png imageErr (lib.image data)]
  | .tex => match texToDds data with
    | .error e => [.fail e]
    | .ok dds => [.file png imageErr (lib.image dds)]
  | .bin => [copy, .file json id (binBody lib data)]
  | .skn => [copy, .dir (pjoin output (splitext path).1) (sknFiles lib data)]
  | .rst => [copy, match (parseRst lib.rstEnv lib.version).run data with
    | .error e => .fail e
    | .ok r => .file json id (lib.rstJson (rstEntries lib.rstHashes r) r.version)]
  | .atlas => [.file json id (jsonBody ((parseAtlas lib.gameHashes).run data) lib.atlasJson)]
  | .championSkin => [.file json id (jsonBody (parseChampionSkins.run data) lib.skinJson)]

/-- The errors of the body of a step, changed by `err` (cdtb/export.py:618-624, 638-643) -/
def mapStep (err : Err → Err) : BodyStep → BodyStep
  | .write b => .write b
  | .raise e => .raise (err e)

/-- The errors of writing in the body, changed by `err` (cdtb/export.py:618-624, 638-643) -/
def WriteFaults.mapWrite (f : WriteFaults) (err : Err → Err) : WriteFaults :=
  { f with write := fun i => (f.write i).map fun ke => (ke.1, err ke.2) }

/-- `with open(name, "w") as f: f.write(...)`: cdtb/export.py:753-754 -/
def openAndWrite (fs : FS) (path : Str) (body : List BodyStep) (f : WriteFaults) : FS × Res Unit :=
  match f.open_ with
  | some e => (fs, .error e)
  | none =>
    if fs (dirname path) ≠ some .dir then (fs, .error .fileNotFound)
    else if fs path = some .dir then (fs, .error (.os 21))
    else
      let (c, r) := closeFile f (writeBody f 0 [] body)
      (fs.set path (some (.file c)), r)

/-- The loop on submeshes: cdtb/export.py:751-754 -/
def writeDirFiles (lib : ConvLib) (dir : Str) (f : Nat → WriteFaults) : Nat → FS → List (Str × Res Str) → FS × Res Unit
  | _, fs, [] => (fs, .ok ())
  | i, fs, (name, text) :: rest =>
    match openAndWrite fs (pjoin dir name) (jsonBody text lib.text) (f i) with
    | (fs', .ok ()) => writeDirFiles lib dir f (i + 1) fs' rest
    | (fs', .error e) => (fs', .error e)

/-- The body of `write_dir_or_remove`, with the creation of the directory: cdtb/tools.py:46-48, cdtb/export.py:749-754 -/
def writeDirTry (lib : ConvLib) (fs : FS) (dir : Str) (files : Res (List (Str × Res Str))) (f : Nat → WriteFaults) (i : Nat) : FS × Res Unit :=
  match fs.makedirs dir (f i).makedirs with
  | (fs1, .error e) => (fs1, .error e)
  | (fs1, .ok ()) => match files with
    | .error e => (fs1, .error e)
    | .ok files => writeDirFiles lib dir f (i + 1) fs1 files

/-- `write_dir_or_remove`: cdtb/tools.py:40-52 -/
def writeDirOrRemove (lib : ConvLib) (fs : FS) (dir : Str) (files : Res (List (Str × Res Str))) (f : Nat → WriteFaults) (i : Nat) : FS × Res Unit :=
  match writeDirTry lib fs dir files f i with
  | (fs1, .ok ()) => (fs1, .ok ())
  | (fs1, .error e) => (fs1.rmtree dir, .error e)

/-- A step of a conversion (cdtb/export.py:597-846); `f i` are the faults of the `i`-th file that is written. -/
def OutStep.run (lib : ConvLib) (fs : FS) (f : Nat → WriteFaults) (i : Nat) : OutStep → FS × Res Unit
  | .file path err body => writeFileOrRemove fs path (body.map (mapStep err)) ((f i).mapWrite err)
  | .fail e => (fs, .error e)
  | .dir path files => writeDirOrRemove lib (fs.rmtree path) path files f i

/-- The steps of a conversion (cdtb/export.py:597-846), until one fails -/
def runSteps (lib : ConvLib) (f : Nat → WriteFaults) : Nat → FS → List OutStep → FS × Res Unit
  | _, fs, [] => (fs, .ok ())
  | i, fs, s :: rest => match s.run lib fs f i with
    | (fs', .ok ()) => runSteps lib f (i + 1) fs' rest
    | (fs', .error e) => (fs', .error e)

/-- A file to export (cdtb/export.py:269-299): `fromWad` tells whether it comes from a WAD, `read` is what reading it gives (`none`: nothing to export) -/
structure ExportJob where
  path : Str
  fromWad : Bool
  read : Res (Option Bytes)

/-- `FileConverter.converted_paths_exist`: cdtb/export.py:565-567 -/
def convertedExist (fs : FS) (output : Str) (c : Converter) (path : Str) : Bool :=
  (c.convertedPaths path).all fun p => (fs (pjoin output p)).isSome

/-- The handling of the errors of a conversion: cdtb/export.py:279-280, 301-308 -/
def exportOutcome (fromWad : Bool) : FS × Res Unit → FS × Res Unit
  | (fs, .ok ()) => (fs, .ok ())
  | (fs, .error e) => if e = .conversion || (fromWad && e.isBadName) then (fs, .ok ()) else (fs, .error e)

/-- `Exporter._export_plain_file` (cdtb/export.py:269-280), and the body of the loop of `_export_wad` (288-308) -/
def exportJob (lib : ConvLib) (cs : List Converter) (output : Str) (overwrite : Bool) (fs : FS) (j : ExportJob) (f : Nat → WriteFaults) :
    FS × Res Unit :=
  let c := getConverter cs j.path
  if !overwrite && convertedExist fs output c j.path then (fs, .ok ())
  else match j.read with
    | .error e => (fs, .error e)
    | .ok none => (fs, .ok ())
    | .ok (some data) => exportOutcome j.fromWad (runSteps lib f 0 fs (c.steps lib output j.path data))

/-- What `Exporter.export` does: exports a file, or opens a WAD, which may fail (cdtb/export.py:214-219, 286) -/
inductive ExportAct where
  | file (j : ExportJob)
  | open_ (r : Res Unit)

/-- One action: cdtb/export.py:216, 286-308 -/
def ExportAct.run (lib : ConvLib) (cs : List Converter) (output : Str) (overwrite : Bool) (fs : FS) (f : Nat → WriteFaults) :
    ExportAct → FS × Res Unit
  | .file j => exportJob lib cs output overwrite fs j f
  | .open_ r => (fs, r)

/-- The actions, in order, until one fails (cdtb/export.py:214-219); `f i` are the faults of the `i`-th action. -/
def exportActs (lib : ConvLib) (cs : List Converter) (output : Str) (overwrite : Bool) (f : Nat → Nat → WriteFaults) :
    Nat → FS → List ExportAct → FS × Res Unit
  | _, fs, [] => (fs, .ok ())
  | i, fs, a :: as => match a.run lib cs output overwrite fs (f i) with
    | (fs', .ok ()) => exportActs lib cs output overwrite f (i + 1) fs' as
    | (fs', .error e) => (fs', .error e)

/-- Source files: content of plain files, and content and subchunk table of WADs, or the error of opening them (cdtb/export.py:277, 286). -/
structure ExportSources where
  plain : Str → Res Bytes
  wad : Str → Res (Bytes × Option Bytes)
  codecs : Codecs

/-- The files of a WAD that have a path: cdtb/export.py:282-297 -/
def wadActs (src : ExportSources) (w : ExpWad) : List ExportAct := match src.wad w.path with
  | .error e => [.open_ (.error e)]
  | .ok (content, toc) => .open_ (.ok ()) :: w.files.filterMap fun wf =>
      wf.path.map fun p => .file ⟨p, true, readFileData src.codecs wf content toc⟩

/-- What `Exporter.export` exports, in order: cdtb/export.py:214-219 -/
def Exporter.acts (e : Exporter) (src : ExportSources) : List ExportAct :=
  (e.plain.map fun kv => .file ⟨kv.1, false, (src.plain kv.2).map some⟩) ++ e.wads.values.flatMap (wadActs src)

/-- `Exporter.export`: cdtb/export.py:208-219. The sources do not change during the export. -/
def Exporter.export (e : Exporter) (lib : ConvLib) (output : Str) (overwrite : Bool) (f : Nat → Nat → WriteFaults)
    (src : ExportSources) (fs : FS) : FS × Res Unit :=
  exportActs lib e.converters output overwrite f 0 fs (e.acts src)

end Cdtb
