import Verif.Model.Commands
import Verif.Model.Collect
/-!
# Model of the export of a patch from a patcher storage: download, then collection of the files (cdtb/export.py:153-164, cdtb/patcher.py:646-658)
-/
namespace Cdtb
set_option autoImplicit false
open Py

/-- The disk as read by `open(path, 'rb')` (cdtb/wad.py:202, cdtb/hashes.py:63, cdtb/export.py:277): links are followed. Only links to files, as made by the
storage, are modelled. -/
def Disk.view (d : Disk) : FS := fun p => d.fs (d.resolve p)

/-- `PatcherPatchElement.paths` (cdtb/patcher.py:656-658) for `langs=True`. The paths are listed first here: in the code they are generated when needed. -/
def PCfg.elemPaths (cfg : PCfg) (e : PElem) : Res (List (Str × Str)) := do
  let fs ← e.manif.filterFiles .all
  fs.mapM fun f => do
    let name ← relName f
    .ok (cfg.extractPath e.release f, name)

/-- An element which has been downloaded, for the loop on paths (cdtb/export.py:162-164) -/
def PCfg.listed (cfg : PCfg) (e : PElem) : DiskElem := ⟨fun fs => (fs, .ok ()), fun _ => cfg.elemPaths e⟩

/-- `Exporter.add_patch_files` (cdtb/export.py:153-164) with a patch of a patcher storage; `es` are the elements of `patch.latest()`, `ws` is what happens
during the downloads. -/
def PCfg.addPatchFiles (cfg : PCfg) (cx : Codecs) (dir : Str) (cache : Dict Nat (Option Str)) (x : Exporter) (ws : Nat → PRun) (d : Disk)
    (es : List PElem) : Disk × Res (Dict Nat (Option Str) × Exporter) :=
  match cfg.downloadElems .all ws d es with
  | (d', .error err) => (d', .error err)
  | (d', .ok ()) => (d', x.addElems cx dir d'.view cache (es.map cfg.listed))

/-- Any sequence of previous downloads in the same storage (cdtb/patcher.py:646-648), with their languages and failures -/
def PCfg.history (cfg : PCfg) : List (Langs × (Nat → PRun) × List PElem) → Disk → Disk
  | [], d => d
  | (langs, ws, es) :: l, d => cfg.history l (cfg.downloadElems langs ws d es).1

/-! ## RADS storages -/

/-- `RadsPatchElement.paths` (cdtb/rads.py:564-568) for `langs=True`. The paths are listed first here: in the code they are generated when needed. -/
def RadsCfg.elemPaths (cfg : RadsCfg) (w : RadsWorld) (fs : FS) (sv : SolVer) : FS × Res (List (Str × Str)) :=
  match cfg.filepaths w fs sv .all with
  | (fs', l, r) => match l.mapM cfg.pairOf with
    | .error e => (fs', .error e)
    | .ok ps => (fs', r.map fun _ => ps)

/-- The loop on the elements, once downloaded (cdtb/export.py:162-164). The list of files may be downloaded again. -/
def RadsCfg.addElems (cfg : RadsCfg) (cx : Codecs) (dir : Str) (w : RadsWorld) :
    FS → Dict Nat (Option Str) → Exporter → List SolVer → FS × Res (Dict Nat (Option Str) × Exporter)
  | fs, cache, x, [] => (fs, .ok (cache, x))
  | fs, cache, x, sv :: es => match cfg.elemPaths w fs sv with
    | (fs', .error e) => (fs', .error e)
    | (fs', .ok l) => match x.addPaths cx dir fs' cache l with
      | .error e => (fs', .error e)
      | .ok (cache, x) => cfg.addElems cx dir w fs' cache x es

/-- `Exporter.add_patch_files` (cdtb/export.py:153-164) with a patch of a RADS storage; `ws` are the worlds of the downloads, `w` the one of the list of files. -/
def RadsCfg.addPatchFiles (cfg : RadsCfg) (cx : Codecs) (dir : Str) (cache : Dict Nat (Option Str)) (x : Exporter) (ws : Nat → RadsWorld) (w : RadsWorld)
    (fs : FS) (es : List SolVer) : FS × Res (Dict Nat (Option Str) × Exporter) :=
  match forElems (fun i fs sv => cfg.downloadSolution (ws i) fs sv .all) 0 fs es with
  | (fs', .error e) => (fs', .error e)
  | (fs', .ok ()) => cfg.addElems cx dir w fs' cache x es

end Cdtb
