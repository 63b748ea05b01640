import Verif.Model.Export
import Verif.Model.WadCmd
/-!
# Model of the collection of files to export (cdtb/export.py:135-164)
-/
namespace Cdtb
set_option autoImplicit false
open Py

/-- `Exporter.add_path` (cdtb/export.py:135-151), with the files on disk. `cache` is `_hash_to_guessed_extensions` (cdtb/wad.py:22), shared by all
the WADs of the process. The default hash file is used (cdtb/wad.py:231-239); `dir` is its directory. When both fail, the error on hashes comes
first here, and the one on the WAD in the code. After an error, the collection stops (the state of the exporter is not modelled). -/
def Exporter.addPath (cx : Codecs) (dir : Str) (fs : FS) (cache : Dict Nat (Option Str)) (e : Exporter) (source export' : Str) :
    Res (Dict Nat (Option Str) × Exporter) :=
  if endsWith source ".wad".toList || endsWith source ".wad.client".toList then
    match commandOpen cx dir fs source none with
    | .error x => .error x
    | .ok wad => match guessExtensions cx wad.file wad.toc cache (wad.files.filter fun f => decide (f.type ≠ 2)) with
      | (_, _, .error x) => .error x
      | (cache, files, .ok ()) => .ok (cache, { e with wads := e.wads.set export' ⟨source, files.map sanitizePath⟩ })
  else .ok (cache, { e with plain := e.plain.set export' source })

/-- The calls of `add_path` for a list of paths (cdtb/export.py:163-164) -/
def Exporter.addPaths (cx : Codecs) (dir : Str) (fs : FS) : Dict Nat (Option Str) → Exporter → List (Str × Str) → Res (Dict Nat (Option Str) × Exporter)
  | cache, e, [] => .ok (cache, e)
  | cache, e, (source, export') :: l => match e.addPath cx dir fs cache source export' with
    | .error x => .error x
    | .ok (cache, e) => e.addPaths cx dir fs cache l

/-- A patch element (cdtb/storage.py:323-371), as a disk operation and a list of paths, for `langs=True` -/
structure DiskElem where
  download : FS → FS × Res Unit
  paths : FS → Res (List (Str × Str))

/-- `for elem in patch.latest().elements: elem.download(langs=True)` (cdtb/export.py:158-159) -/
def downloadElems : FS → List DiskElem → FS × Res Unit
  | fs, [] => (fs, .ok ())
  | fs, el :: els => match el.download fs with
    | (fs, .error x) => (fs, .error x)
    | (fs, .ok ()) => downloadElems fs els

/-- The loop on the elements, once downloaded (cdtb/export.py:162-164). Paths of an element are listed first here: in the code, they are generated
when needed, but nothing changes on disk in the meantime. -/
def Exporter.addElems (cx : Codecs) (dir : Str) (fs : FS) : Dict Nat (Option Str) → Exporter → List DiskElem → Res (Dict Nat (Option Str) × Exporter)
  | cache, e, [] => .ok (cache, e)
  | cache, e, el :: els => match el.paths fs with
    | .error x => .error x
    | .ok l => match e.addPaths cx dir fs cache l with
      | .error x => .error x
      | .ok (cache, e) => e.addElems cx dir fs cache els

/-- `Exporter.add_patch_files` (cdtb/export.py:153-164); `els` are the elements of `patch.latest()`. -/
def Exporter.addPatchFiles (cx : Codecs) (dir : Str) (fs : FS) (cache : Dict Nat (Option Str)) (e : Exporter) (els : List DiskElem) :
    FS × Res (Dict Nat (Option Str) × Exporter) :=
  match downloadElems fs els with
  | (fs, .error x) => (fs, .error x)
  | (fs, .ok ()) => (fs, e.addElems cx dir fs cache els)

end Cdtb
