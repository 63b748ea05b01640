import Verif.Model.Cli
import Verif.Model.Hashes
import Verif.Model.Wad
/-!
# Model of WAD commands (cdtb/__main__.py:117-156) and of the opening of WAD files (cdtb/wad.py:190-254)
-/
namespace Cdtb
set_option autoImplicit false
open Py

/-- A `Wad` after its constructor; `file` is the content of the file -/
structure WadFile where
  version : Nat × Nat
  file : Bytes
  files : List WadEntry
  toc : Option Bytes
deriving DecidableEq, Repr

/-- `Wad.__init__` (cdtb/wad.py:190-196), with a dict of hashes -/
def openWad (cx : Codecs) (hashes : Dict Int Str) (file : Bytes) : Res WadFile := do
  let (version, entries) ← parseHeaders.run file
  let files := resolvePaths hashes entries
  let toc ← loadSubchunkToc cx file files
  .ok { version, file, files, toc }

/-- `default_hashfile` (cdtb/hashes.py:79-86, with the file names of 76-77): the path of the hash file; `dir` is `default_hash_dir` -/
def defaultHashfile (dir path : Str) : Res Str :=
  if endsWith path ".wad.client".toList then .ok (pjoin dir "hashes.game.txt".toList)
  else if endsWith path ".wad".toList then .ok (pjoin dir "hashes.lcu.txt".toList)
  else .error .value

/-- The first `HashFile(path).load()` (cdtb/hashes.py:61-69). Files are decoded as UTF-8. -/
def loadHashFile (fs : FS) (path : Str) : Res (Dict Int Str) := do
  let b ← fs.readFile path
  let text ← utf8 b
  loadText text

/-- The hash file of a command (cdtb/__main__.py:125-128, 148-151) -/
def hashFilePath (dir wad : Str) : Option Str → Res Str
  | none => defaultHashfile dir wad
  | some p => .ok p

/-- Opening of the WAD of a command (cdtb/__main__.py:125-129, 148-152) -/
def commandOpen (cx : Codecs) (dir : Str) (fs : FS) (wad : Str) (hashes : Option Str) : Res WadFile := do
  let path ← hashFilePath dir wad hashes
  let d ← loadHashFile fs path
  let file ← fs.readFile wad
  openWad cx d file

/-- Arguments of `wad-extract` (cdtb/__main__.py:412-425) -/
structure WadArgs where
  wad : Str
  output : Option Str := none
  hashes : Option Str := none
  patterns : List Str := []
  unknown : UnknownArg := .yes
  lazy : Bool := false
deriving DecidableEq, Repr

/-- `command_wad_extract` (cdtb/__main__.py:117-141), in a new process: no extension has been guessed yet. `faults i` are those of the `i`-th
selected file. -/
def commandWadExtract (cx : Codecs) (fnmatch : Str → Str → Bool) (dir : Str) (faults : Nat → WriteFaults) (fs : FS) (args : WadArgs) : FS × Res Unit :=
  match wadOutput fs args.wad args.output with
  | .error e => (fs, .error e)
  | .ok output => match commandOpen cx dir fs args.wad args.hashes with
    | .error e => (fs, .error e)
    | .ok wad => match guessExtensions cx wad.file wad.toc [] (wadSelect fnmatch args.unknown args.patterns wad.files) with
      | (_, _, .error e) => (fs, .error e)
      | (_, files, .ok ()) => wadExtract cx wad.file wad.toc fs output (!args.lazy) (files.zipIdx.map fun x => (x.1, faults x.2))

/-- `command_wad_list` (cdtb/__main__.py:144-156): what is printed -/
def commandWadList (cx : Codecs) (dir : Str) (fs : FS) (wad : Str) (hashes : Option Str) : Res (List Str) :=
  if fs.isFile wad then do
    let w ← commandOpen cx dir fs wad hashes
    .ok (wadListLines w.files)
  else .error .usage

end Cdtb
