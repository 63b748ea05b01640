import Verif.Model.Manifest
import Verif.Model.Parallel
import Verif.Py.Path
import Mathlib.Data.List.Dedup
import Mathlib.Data.List.Sort
/-!
# Patcher storage: bundles, chunks, extraction of files (cdtb/patcher.py:56-61, 329-330, 431-468, 479, 546-583)

The disk is made of files and directories (`FS`) plus symbolic links. The target of a link is given as
the path it resolves to (the code creates relative links); links to links do not occur. Links used as
parent directories are only considered when creating the directory of an output.
`sha1` (hexadecimal digest of a text of ASCII characters) and `zstd` (decompression) are parameters.
-/
namespace Cdtb
set_option autoImplicit false
open Py

/-- Configuration of a storage (cdtb/patcher.py:314-318) -/
structure PCfg where
  base : Str
  patchline : Str
  symlinks : Bool
  zstd : Bytes → Res Bytes
  sha1 : Str → Str

/-- Content of the disk -/
structure Disk where
  fs : FS
  links : Str → Option Str

/-- The path reached from a path -/
def Disk.resolve (d : Disk) (p : Str) : Str := (d.links p).getD p

/-- `os.path.isfile(p)` -/
def Disk.isFile (d : Disk) (p : Str) : Bool := d.fs.isFile (d.resolve p)

/-- Content of the file at a path, following links -/
def Disk.content (d : Disk) (p : Str) : Option Bytes :=
  match d.fs (d.resolve p) with
  | some (.file b) => some b
  | _ => none

/-- `f"channels/public/bundles/{bundle_id:016X}.bundle"` (cdtb/patcher.py:434, 440) -/
def bundleRel (id : Nat) : Str := "channels/public/bundles/".toList ++ hexWU 16 id ++ ".bundle".toList

/-- Path on disk of a bundle (cdtb/patcher.py:441) -/
def PCfg.bundlePath (cfg : PCfg) (id : Nat) : Str := storageFspath cfg.base (bundleRel id)

/-- `PatcherStorage.download_bundle` as a call to `Storage.download` (cdtb/patcher.py:431-436) -/
def bundleCall (response : Nat → Res Bytes) (faults : Nat → WriteFaults) (id : Nat) : DownloadCall :=
  ⟨bundleRel id, none, false, response id, faults id⟩

/-- `f.read(size)`: everything if the size is `None` -/
def readOpt (b : Bytes) : Option Nat → Bytes
  | none => b
  | some n => b.take n

/-- `PatcherStorage.load_chunk` (cdtb/patcher.py:438-444) -/
def PCfg.loadChunk (cfg : PCfg) (fs : FS) (c : PChunk) : Res Bytes :=
  match c.bundle with
  | none => .error .type
  | some b => match fs (cfg.bundlePath b) with
    | none => .error .fileNotFound
    | some .dir => .error (.os 21)
    | some (.file d) => cfg.zstd (readOpt (d.drop c.offset) c.size)

/-- `b"%016X" % chunk.chunk_id` (cdtb/patcher.py:60); `None` raises `TypeError`. -/
def chunkIdText (c : PChunk) : Res Str := match c.id with
  | none => .error .type
  | some i => .ok (hexWU 16 i)

/-- What is hashed by `PatcherFile.hexdigest` (cdtb/patcher.py:59-60). -/
def digestInput (cs : List PChunk) : Res Str := do
  let l ← cs.mapM chunkIdText
  pure l.flatten

/-- Path of the real output of a file, with symlinks (cdtb/patcher.py:56-61, 450) -/
def PCfg.storePath (cfg : PCfg) (digest : Str) : Str := storageFspath cfg.base ("cdtb/files/".toList ++ digest)

/-- Faults of the disk when extracting a file -/
structure ExtractFaults where
  write : WriteFaults := {}
  remove : Bool := false
  makedirs : Option (Nat × Err) := none
  symlink : Option Err := none

/-- The steps of the loop on chunks (cdtb/patcher.py:457-458). Writing the output does not change
bundles: chunks are loaded from the disk as it is at the beginning. -/
def PCfg.chunkStep (cfg : PCfg) (fs : FS) (c : PChunk) : BodyStep :=
  match cfg.loadChunk fs c with
  | .ok b => .write b
  | .error e => .raise e

/-- The real output is written if it does not exist (cdtb/patcher.py:454-458) -/
def PCfg.ensureFile (cfg : PCfg) (fs : FS) (real : Str) (cs : List PChunk) (f : WriteFaults) : FS × Res Unit :=
  if fs.isFile real then (fs, .ok ())
  else writeFileOrRemove fs real (cs.map (cfg.chunkStep fs)) f

/-- `os.remove(output)`, errors being ignored (cdtb/patcher.py:462-465) -/
def Disk.unlink (d : Disk) (p : Str) (fails : Bool) : Disk :=
  if fails then d
  else match d.links p with
    | some _ => { d with links := fun q => if q = p then none else d.links q }
    | none => { d with fs := d.fs.remove p false }

/-- `os.makedirs(output_dir, exist_ok=True)` (cdtb/patcher.py:467): a parent which is a link (to a
file) makes it fail. -/
def Disk.makedirs (d : Disk) (p : Str) (fault : Option (Nat × Err)) : Disk × Res Unit :=
  if (dirPrefixes p).any (fun q => (d.links q).isSome) then (d, .error (.os 17))
  else
    let (fs, r) := d.fs.makedirs p fault
    ({ d with fs := fs }, r)

/-- `os.symlink(target, p)` (cdtb/patcher.py:468): `FileExistsError` if there is something. -/
def Disk.symlink (d : Disk) (target p : Str) (fault : Option Err) : Disk × Res Unit :=
  match fault with
  | some e => (d, .error e)
  | none =>
    if (d.links p).isSome || (d.fs p).isSome then (d, .error (.os 17))
    else ({ d with links := fun q => if q = p then some target else d.links q }, .ok ())

/-- The link is (re)created (cdtb/patcher.py:460-468) -/
def Disk.relink (d : Disk) (real output : Str) (f : ExtractFaults) : Disk × Res Unit :=
  match (d.unlink output f.remove).makedirs (dirname output) f.makedirs with
  | (d', .error e) => (d', .error e)
  | (d', .ok ()) => d'.symlink real output f.symlink

/-- `PatcherStorage.extract_file` (cdtb/patcher.py:446-468). Without symlinks, the disk has none:
links are ignored. -/
def PCfg.extractFile (cfg : PCfg) (d : Disk) (file : PFile) (output : Str) (f : ExtractFaults) : Disk × Res Unit :=
  if cfg.symlinks then
    match digestInput file.chunks with
    | .error e => (d, .error e)
    | .ok x =>
      let real := cfg.storePath (cfg.sha1 x)
      match cfg.ensureFile d.fs real file.chunks f.write with
      | (fs, .error e) => ({ d with fs := fs }, .error e)
      | (fs, .ok ()) => Disk.relink { d with fs := fs } real output f
  else
    let (fs, r) := cfg.ensureFile d.fs output file.chunks f.write
    ({ d with fs := fs }, r)

/-- `PatcherStorage.base_release_path` (cdtb/patcher.py:329-330) -/
def PCfg.releasePath (cfg : PCfg) : Str := storageFspath cfg.base ("cdtb/releases/".toList ++ cfg.patchline)

/-- `PatcherRelease.storage_dir` (cdtb/patcher.py:479) -/
def PCfg.storageDir (cfg : PCfg) (version : Int) : Str := cfg.releasePath ++ '/' :: showInt version

/-- `PatcherReleaseElement.extract_path` (cdtb/patcher.py:568-570) -/
def PCfg.extractPath (cfg : PCfg) (version : Int) (f : PFile) : Str :=
  cfg.storageDir version ++ "/files/".toList ++ fmtOpt f.name

/-- `PatcherReleaseElement.is_extracted_file` (cdtb/patcher.py:572-575) -/
def PCfg.isExtracted (cfg : PCfg) (version : Int) (d : Disk) (f : PFile) : Bool :=
  match d.content (cfg.extractPath version f) with
  | none => false
  | some b => some b.length == f.size

/-- `PatcherReleaseElement.extract_file` (cdtb/patcher.py:577-583) -/
def PCfg.elemExtractFile (cfg : PCfg) (version : Int) (overwrite : Bool) (d : Disk) (f : PFile) (flt : ExtractFaults) :
    Disk × Res Unit :=
  if !overwrite && cfg.isExtracted version d f then (d, .ok ())
  else cfg.extractFile d f (cfg.extractPath version f) flt

/-- Truth value of `f.link` -/
def PFile.isLink (f : PFile) : Bool := match f.link with
  | none => false
  | some l => !l.isEmpty

/-- Files of an element, except links (cdtb/patcher.py:549, 564) -/
def Manifest.realFiles (m : Manifest) (langs : Langs) : Res (List PFile) := do
  let l ← m.filterFiles langs
  pure (l.filter (fun f => !f.isLink))

/-- `{chunk.bundle.bundle_id for f in files for chunk in f.chunks}` (cdtb/patcher.py:552) -/
def fileBundles (files : List PFile) : List (Option Nat) :=
  (files.flatMap (fun f => f.chunks.map (·.bundle))).dedup

/-- `PatcherReleaseElement.bundle_ids` (cdtb/patcher.py:546-552): the elements of the set, in any order -/
def PCfg.bundleIds (cfg : PCfg) (version : Int) (m : Manifest) (langs : Langs) (skip : Bool) (d : Disk) : Res (List (Option Nat)) := do
  let files ← m.realFiles langs
  pure (fileBundles (files.filter (fun f => !(skip && cfg.isExtracted version d f))))

/-- A bundle id usable in a path (cdtb/patcher.py:434): formatting `None` raises `TypeError`. -/
def bundleIdRes (i : Option Nat) : Res Nat := match i with
  | none => .error .type
  | some i => .ok i

/-- `sorted(ids)` then `download_bundle` (cdtb/patcher.py:434, 558): `None` raises `TypeError`, either when sorting
or, if it is alone, when formatting the path. -/
def sortIds (ids : List (Option Nat)) : Res (List Nat) := do
  let l ← ids.mapM bundleIdRes
  pure (l.insertionSort (· ≤ ·))

/-- The task downloading a bundle (cdtb/patcher.py:431-436, 558) -/
def PCfg.bundleTask (cfg : PCfg) (response : Nat → Res Bytes) (faults : Nat → WriteFaults) (id : Nat) : Task :=
  ⟨cfg.bundlePath id, response id, faults id⟩

/-- `PatcherReleaseElement.download_bundles` (cdtb/patcher.py:554-558): the pool after the steps of a schedule. -/
def PCfg.downloadPool (cfg : PCfg) (response : Nat → Res Bytes) (faults : Nat → WriteFaults) (ids : List Nat) (fs : FS)
    (sched : List {i // i ∈ ids}) : PoolState {i // i ∈ ids} :=
  poolRun (fun i => cfg.bundleTask response faults i.1) fs sched

/-- `sorted(files, key=lambda f: f.name)` (cdtb/patcher.py:565): `None` cannot be compared. -/
def sortFiles (files : List PFile) : Res (List PFile) :=
  if 2 ≤ files.length ∧ files.any (fun f => f.name.isNone) then .error .type
  else .ok (files.insertionSort (fun a b => fmtOpt a.name ≤ fmtOpt b.name))

/-- The loop on files (cdtb/patcher.py:565-566), with the faults of each file. -/
def PCfg.extractAll (cfg : PCfg) (version : Int) (overwrite : Bool) (flts : Nat → ExtractFaults) : Nat → Disk → List PFile → Disk × Res Unit
  | _, d, [] => (d, .ok ())
  | i, d, f :: r => match cfg.elemExtractFile version overwrite d f (flts i) with
    | (d', .error e) => (d', .error e)
    | (d', .ok ()) => cfg.extractAll version overwrite flts (i + 1) d' r

/-- `PatcherReleaseElement.extract` (cdtb/patcher.py:560-566) -/
def PCfg.extract (cfg : PCfg) (version : Int) (m : Manifest) (langs : Langs) (overwrite : Bool) (flts : Nat → ExtractFaults)
    (d : Disk) : Disk × Res Unit :=
  match m.realFiles langs with
  | .error e => (d, .error e)
  | .ok l => match sortFiles l with
    | .error e => (d, .error e)
    | .ok l => cfg.extractAll version overwrite flts 0 d l

end Cdtb
