import Verif.Model.Clean
import Verif.Model.Export
/-!
# Export of a patch on top of the previous one (cdtb/export.py:329-386, 476-500)

The whole disk is a `DirTree` (see `Verif.Model.Clean`), by parts of absolute paths. Symlinks are followed as the system does.
-/
namespace Cdtb
set_option autoImplicit false
open Py

/-! ## Paths with symlinks -/

/-- Walk along a path from the real directory `cur`; `follow` is used after a symlink. Missing objects are not followed. -/
def walkWith (follow : List Str → List Str → Option (List Str)) (t : DirTree) : List Str → List Str → Option (List Str)
  | cur, [] => some cur
  | cur, c :: rest =>
    if c = [] ∨ c = ['.'] then walkWith follow t cur rest
    else if c = ['.', '.'] then walkWith follow t cur.dropLast rest
    else match t.get? (cur ++ [c]) with
      | some (.link target) => follow (if startsWith target ['/'] then [] else cur) (splitChar '/' target ++ rest)
      | _ => walkWith follow t (cur ++ [c]) rest

/-- The walk, following at most `n` symlinks -/
def realGo (t : DirTree) : Nat → List Str → List Str → Option (List Str)
  | 0 => walkWith (fun _ _ => none) t
  | n + 1 => walkWith (realGo t n) t

/-- Symlinks followed for one path (`MAXSYMLINKS` of Linux) -/
def maxLinks : Nat := 40

/-- The real path of a path (cdtb/export.py:491). It is `none` with too many symlinks: the system raises `ELOOP`.
(`os.path.realpath` has no limit but what it gives cannot be opened.) -/
def realpath (t : DirTree) (p : List Str) : Option (List Str) := realGo t maxLinks [] p

/-- Number of parts that `a` and `b` have in common at the start -/
def commonLength : List Str → List Str → Nat
  | x :: a, y :: b => if x = y then commonLength a b + 1 else 0
  | _, _ => 0

/-- `os.path.relpath(path, start)`, on absolute paths (cdtb/export.py:491) -/
def relpath (path start : List Str) : Str :=
  let i := commonLength start path
  match List.replicate (start.length - i) ['.', '.'] ++ path.drop i with
  | [] => ['.']
  | l => join ['/'] l

/-- A path and its ancestors, from the root -/
def ancestors (o : List Str) : List (List Str) := (List.range (o.length + 1)).map o.take

/-- A file is among the directories of a path. -/
def blocked (t : DirTree) (o : List Str) : Bool := (ancestors o).any fun d => match t.get? d with
  | some .dir => false
  | none => false
  | _ => true

/-- `os.makedirs(p, exist_ok=True)`: missing directories are created (cdtb/tools.py:29, cdtb/export.py:368, 490) -/
def makedirsTree (t : DirTree) (p : List Str) : DirTree × Res Unit :=
  match realpath t p with
  | none => (t, .error (.os 40))
  | some o =>
    if blocked t o then (t, .error (.os 20))
    else ((ancestors o).foldl (fun t d => if t.contains d then t else t.set d .dir) t, .ok ())

/-- `open(p, 'w')`, and writing `b` (cdtb/tools.py:30) -/
def openTree (t : DirTree) (p : List Str) (b : Bytes) : DirTree × Res Unit :=
  match realpath t p with
  | none => (t, .error (.os 40))
  | some o =>
    if t.get? o = some .dir then (t, .error (.os 21))
    else if t.get? o.dropLast = some .dir then (t.set o (.file b), .ok ())
    else (t, .error .fileNotFound)

/-- A file written by `write_file_or_remove` (cdtb/tools.py:22-38) without any failure of the disk (see C59) -/
def writeTree (t : DirTree) (p : List Str) (b : Bytes) : DirTree × Res Unit :=
  match makedirsTree t p.dropLast with
  | (t', .error e) => (t', .error e)
  | (t', .ok ()) => openTree t' p b

/-- `os.symlink(target, p)` (cdtb/export.py:494); `OSError` raised because of the length of paths is not modelled. -/
def symlinkTree (t : DirTree) (target : Str) (p : List Str) : DirTree × Res Unit :=
  match realpath t p.dropLast with
  | none => (t, .error (.os 40))
  | some d => match p.getLast? with
    | none => (t, .error (.os 17))
    | some name =>
      if t.contains (d ++ [name]) then (t, .error (.os 17))
      else if t.get? d = some .dir then (t.set (d ++ [name]) (.link target), .ok ())
      else (t, .error .fileNotFound)

/-- The object at a path, without following it if it is a symlink (cdtb/export.py:484-485) -/
def lstat (t : DirTree) (p : List Str) : Option FNode :=
  match realpath t p.dropLast with
  | none => none
  | some d => match p.getLast? with
    | none => t.get? []
    | some name => t.get? (d ++ [name])

/-! ## Export of a patch -/

/-- A source of a path: plain file (export path, source), or entry of a WAD (export path, source, entry) -/
abbrev ExpSource := (Str × Str) ⊕ (Str × Str × WadEntry)

/-- Converted content, for a source and a converted path: files, by parts of their paths below it. There is one, with an empty path,
unless the converted path is a directory. -/
abbrev Conv := ExpSource → Str → List (List Str × Bytes)

/-- The files of a converted path -/
def convFiles (conv : Conv) (x : ExpSource) (q : Str) : List (List Str × Bytes) :=
  (conv x q).map fun f => (splitChar '/' q ++ f.1, f.2)

/-- What `Exporter.export` writes, in order (cdtb/export.py:208-219, 269-307), when every file can be converted (see C59) -/
def exportFiles (conv : Conv) (e : Exporter) : List (List Str × Bytes) :=
  e.plain.flatMap (fun ks => (convertedPaths e.converters ks.1).flatMap (convFiles conv (.inl ks))) ++
  e.wads.flatMap fun kw => kw.2.files.flatMap fun f => match f.path with
    | none => []
    | some p => (convertedPaths e.converters p).flatMap (convFiles conv (.inr (kw.1, kw.2.path, f)))

/-- Writing of files below a directory -/
def writeFiles (base : List Str) : DirTree → List (List Str × Bytes) → DirTree × Res Unit
  | t, [] => (t, .ok ())
  | t, (p, b) :: r => match writeTree t (base ++ p) b with
    | (t', .error e) => (t', .error e)
    | (t', .ok ()) => writeFiles base t' r

/-- The directory `base` of a tree -/
def subtree (t : DirTree) (base : List Str) : DirTree :=
  (t.filter fun e => base.isPrefixOf e.1).map fun e => (e.1.drop base.length, e.2)

/-- `clean_output_dir`, for the output `base` (cdtb/export.py:359) -/
def cleanAt (iter : List (List Str) → List (List Str)) (t : DirTree) (base : List Str) (kept links : List Str) : DirTree :=
  (t.filter fun e => !base.isPrefixOf e.1) ++ (cleanOutput iter (subtree t base) kept links).map fun e => (base ++ e.1, e.2)

/-- One iteration of the loop of `_create_symlinks` (cdtb/export.py:483-500) -/
def createSymlink (root cur prev : List Str) (t : DirTree) (link : Str) : DirTree × Res Unit :=
  let dst := root ++ cur ++ splitChar '/' link
  match lstat t dst with
  | some (.link _) => (t, .ok ())
  | some _ => (t, .error .runtime)
  | none => match makedirsTree t dst.dropLast with
    | (t', .error e) => (t', .error e)
    | (t', .ok ()) => match realpath t' (root ++ prev ++ splitChar '/' link), realpath t' dst.dropLast with
      | some src, some dir => symlinkTree t' (relpath src dir) dst
      | _, _ => (t', .error (.os 40))

/-- `CdragonRawPatchExporter._create_symlinks` (cdtb/export.py:476-500). The output of the patch is `cur` in the directory `root`, the one of
the previous patch is `prev`. -/
def createSymlinks (root cur prev : List Str) : DirTree → List Str → DirTree × Res Unit
  | t, [] => (t, .ok ())
  | t, link :: r => match createSymlink root cur prev t link with
    | (t', .error e) => (t', .error e)
    | (t', .ok ()) => createSymlinks root cur prev t' r

/-- Lines of a text file -/
def lineFile (enc : Str → Bytes) (l : List Str) : Bytes := enc (l.flatMap fun x => x ++ ['\n'])

/-- The generated files (cdtb/export.py:368-381); TFT and Arena data are not included. -/
def cdragonFiles (enc : Str → Bytes) (plan : Plan) : List (List Str × Bytes) :=
  (if plan.links.isEmpty then [] else [(["cdragon".toList, "files.links.txt".toList], lineFile enc plan.linkLines)]) ++
  [(["cdragon".toList, "files.unknown.txt".toList], lineFile enc (plan.unknown.map (hexW 16))),
   (["cdragon".toList, "files.exported.txt".toList], lineFile enc plan.exported)]

/-- The writes of `CdragonRawPatchExporter.process`: files, symlinks, generated files (cdtb/export.py:361-381) -/
def runTree (root : List Str) (cur prev : Str) (t : DirTree) (files : List (List Str × Bytes)) (links : List Str)
    (gen : List (List Str × Bytes)) : DirTree × Res Unit :=
  match writeFiles (root ++ [cur]) t files with
  | (t1, .error e) => (t1, .error e)
  | (t1, .ok ()) => match createSymlinks root [cur] [prev] t1 links with
    | (t2, .error e) => (t2, .error e)
    | (t2, .ok ()) => writeFiles (root ++ [cur]) t2 gen

/-- `CdragonRawPatchExporter.process`, once the plan is known, with `overwrite` (cdtb/export.py:359-381). `cur` and `prev` are names of directories of `root`. -/
def processTree (iter : List (List Str) → List (List Str)) (enc : Str → Bytes) (conv : Conv) (root : List Str) (cur prev : Str)
    (t : DirTree) (plan : Plan) : DirTree × Res Unit :=
  runTree root cur prev (cleanAt iter t (root ++ [cur]) plan.kept plan.links) (exportFiles conv plan.exporter) plan.links (cdragonFiles enc plan)

/-- What the export of a patch depends on: the iteration order of sets (of names, of paths), the two sorts, and the encoding of text files -/
structure ExportEnv where
  iter : List Str → List Str
  iterPaths : List (List Str) → List (List Str)
  sortHashes : List Nat → List Nat
  sortPaths : List Str → List Str
  enc : Str → Bytes

/-- `CdragonRawPatchExporter(output, patch, prev_patch).process()` (cdtb/export.py:318-381), with the previous patch (its directory, files and version)
or without. Files of the patches are already collected. TFT and Arena data are not included. -/
def processPatch (env : ExportEnv) (root : List Str) (cur : Str) (raw : Exporter) (version : Version) (conv : Conv)
    (prev : Option (Str × Exporter × Version)) (t : DirTree) : DirTree × Res Unit :=
  match exportPlan env.iter env.sortHashes env.sortPaths raw version (prev.map Prod.snd) prev.isSome with
  | .error e => (t, .error e)
  | .ok plan => processTree env.iterPaths env.enc conv root cur ((prev.map Prod.fst).getD []) t plan

end Cdtb
