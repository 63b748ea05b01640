import Verif.Model.Patches
import Verif.Model.Stream
import Verif.Model.Download
import Verif.Lemmas.Dict
import Mathlib.Data.List.Sort
/-!
# Model of cdtb/rads.py: versions and patch elements (lines 23-34, 94-138, 178-239), solution manifests
(241-295), extraction of packages (475-527), paths and package manifests (560-596)
-/
namespace Cdtb
set_option autoImplicit false
open Py

/-! ## Text -/

/-- Characters ending a line for `str.splitlines` -/
def isLineBreak (c : Char) : Bool :=
  (10 ≤ c.toNat && c.toNat ≤ 13) || (28 ≤ c.toNat && c.toNat ≤ 30) || c.toNat = 0x85 || c.toNat = 0x2028 || c.toNat = 0x2029

/-- `s.splitlines()` -/
def splitlines : Str → List Str
  | [] => []
  | '\r' :: '\n' :: r => [] :: splitlines r
  | c :: r => if isLineBreak c then [] :: splitlines r else match splitlines r with
    | [] => [[c]]
    | l :: ls => (c :: l) :: ls

/-- Newlines of a file opened in text mode: `\r\n` and `\r` are read as `\n`. -/
def universalNewlines : Str → Str
  | [] => []
  | '\r' :: '\n' :: r => '\n' :: universalNewlines r
  | c :: r => (if c = '\r' then '\n' else c) :: universalNewlines r

/-- Lines given by iterating on a text file, each with its final `\n` (the last one may have none). -/
def fileLines : Str → List Str
  | [] => []
  | c :: r => if c = '\n' then [c] :: fileLines r else match fileLines r with
    | [] => [[c]]
    | l :: ls => (c :: l) :: ls

/-! ## Versions, patch elements -/

/-- `RadsVersion.__init__`: cdtb/rads.py:32-34 -/
def radsVersion (v : VArg) : Res Version := do
  let b ← baseVersion v
  match b.t with
  | .nums t => if t.length = 4 then pure b else throw .assertion
  | .main => throw .assertion

/-- The tuple of a version (cdtb/storage.py:26-35; `main` has none here) -/
def Version.tuple (v : Version) : List Int := match v.t with
  | .nums t => t
  | .main => []

/-- `sorted` on versions of one solution: cdtb/rads.py:196, 231-239. `a < b` when the version of `a` is greater. -/
def sortVersions (vs : List Version) : List Version :=
  vs.insertionSort fun a b => tupleCmp .ge a.tuple b.tuple = true

/-- `RadsSolution.versions`, from the names of versions listed: cdtb/rads.py:184-196 -/
def solutionVersions (listing : List Str) : Res (List Version) := do
  let vs ← listing.mapM fun l => radsVersion (.str l)
  pure (sortVersions vs)

/-- A generator: the values it gives one after the other; it stops at the first exception. -/
abbrev Gen (α : Type) := List (Res α)

/-- Body of `gen_solution_elements` for one version (cdtb/rads.py:119-123): nothing when there is no patch -/
def solutionElement (name : Str) (x : Nat × Res (Option Version)) : Option (Res Elem) :=
  match x.2 with
  | .ok (some v) => some (.ok ⟨name, v, x.1⟩)
  | .ok none => none
  | .error e => some (.error e)

/-- `gen_solution_elements`: cdtb/rads.py:117-123. Each solution version is given by an identity and the result
of its `patch_version()` (the second call, from `RadsPatchElement.__init__`, is assumed to give the same). -/
def solutionElements (name : Str) (svs : List (Nat × Res (Option Version))) : Gen Elem :=
  svs.filterMap (solutionElement name)

/-- Main loop of `RadsStorage.patch_elements`: cdtb/rads.py:125-138, elements yielded and outcome. The first
generator is the one of the client. Both are peeked before an element is yielded. -/
def mergeElements : Gen Elem → Gen Elem → List Elem × Res Unit
  | [], [] => ([], .ok ())
  | .error e :: _, _ => ([], .error e)
  | _, .error e :: _ => ([], .error e)
  | .ok c :: cs, [] => let r := mergeElements cs []; (c :: r.1, r.2)
  | [], .ok g :: gs => let r := mergeElements [] gs; (g :: r.1, r.2)
  | .ok c :: cs, .ok g :: gs =>
    match g.version.cmp .gt c.version with
    | .error e => ([], .error e)
    | .ok true => let r := mergeElements (.ok c :: cs) gs; (g :: r.1, r.2)
    | .ok false => let r := mergeElements cs (.ok g :: gs); (c :: r.1, r.2)
termination_by a b => a.length + b.length

/-! ## Solution manifests -/

/-- Values of `Language`: cdtb/data.py:7-39 -/
def languages : List Str := ["ar_ae", "ar_eg", "cs_cz", "de_de", "el_gr", "en_au", "en_gb", "en_ph", "en_pl", "en_sg",
  "en_us", "es_ar", "es_es", "es_mx", "fr_fr", "hu_hu", "id_id", "it_it", "ja_jp", "ko_kr", "ms_my", "pl_pl", "pt_br",
  "ro_ro", "ru_ru", "th_th", "tr_tr", "vi_vn", "vn_vn", "zh_cn", "zh_my", "zh_tw"].map String.toList

/-- `Language(lang)` -/
def languageOf (s : Str) : Res Str := if s ∈ languages then .ok s else .error .value

/-- A project version: name of the project and version (equality is that of names and of version strings:
cdtb/rads.py:457-460) -/
structure ProjVer where
  name : Str
  version : Version
deriving DecidableEq, Repr

/-- One step of the loop on projects: cdtb/rads.py:264-271. The state is the required names and the projects. -/
def projectStep (st : List Str × Dict Str ProjVer) (name version unk1 unk2 : Str) : Res (List Str × Dict Str ProjVer) := do
  let u1 ← intOrErr unk1
  let u2 ← intOrErr unk2
  let required ← if u1 = 0 then pure (st.1 ++ [name]) else if u1 = 10 then pure st.1 else throw .assertion
  if u2 ≠ 0 then throw .assertion
  let v ← radsVersion (.str version)
  pure (required, st.2.set name ⟨name, v⟩)

/-- The loop on projects: cdtb/rads.py:262-271, on the lines that remain -/
def projectLoop : Nat → List Str × Dict Str ProjVer → List Str → Res ((List Str × Dict Str ProjVer) × List Str)
  | 0, st, lines => pure (st, lines)
  | n + 1, st, name :: version :: unk1 :: unk2 :: lines => do
    let st' ← projectStep st name version unk1 unk2
    projectLoop n st' lines
  | _ + 1, _, _ => throw .value

/-- The map of languages: cdtb/rads.py:273 -/
abbrev LangDeps := Dict (Option Str) (List ProjVer)

/-- The loop on languages: cdtb/rads.py:275-280. A negative number of dependencies is not modelled (an error here). -/
def langLoop (projects : Dict Str ProjVer) : Nat → LangDeps → List Str → Res LangDeps
  | 0, d, _ => pure d
  | n + 1, d, lang :: unk1 :: ndeps :: lines => do
    let u1 ← intOrErr unk1
    let nd ← intOrErr ndeps
    if u1 ≠ 0 then throw .assertion
    if nd < 0 then throw .value
    let l ← languageOf lang
    let deps ← (lines.take nd.toNat).mapM projects.get
    langLoop projects n (d.set (some l) deps) (lines.drop nd.toNat)
  | _ + 1, _, _ => throw .value

/-- First line that remains, as an `int`: cdtb/rads.py:262, 274 -/
def takeInt : List Str → Res (Int × List Str)
  | [] => throw .index
  | l :: ls => do
    let n ← intOrErr l
    pure (n, ls)

/-- The header: cdtb/rads.py:254-257 -/
def manifestHeader (name : Str) (version : Version) : List Str → Res (List Str)
  | l0 :: lines => do
    if l0 ≠ "RADS Solution Manifest".toList then throw .assertion
    match lines with
    | l1 :: lines => do
      if l1 ≠ "1.0.0.0".toList then throw .assertion
      match lines with
      | l2 :: lines => do
        if l2 ≠ name then throw .assertion
        match lines with
        | l3 :: lines => do
          if !version.eq (.str l3) then throw .assertion
          pure lines
        | [] => throw .index
      | [] => throw .index
    | [] => throw .index
  | [] => throw .index

/-- `RadsSolutionVersion.dependencies`, from the lines of the file: cdtb/rads.py:254-283 -/
def dependencies (name : Str) (version : Version) (lines : List Str) : Res LangDeps := do
  let lines ← manifestHeader name version lines
  let (nprojects, lines) ← takeInt lines
  let ((required, projects), lines) ← projectLoop nprojects.toNat ([], []) lines
  let (nlangs, lines) ← takeInt lines
  let langs ← langLoop projects nlangs.toNat [] lines
  let req ← required.mapM projects.get
  pure (langs.set none req)

/-- `RadsSolutionVersion.dependencies`, from the text of the file: cdtb/rads.py:252-283 -/
def dependenciesOfText (name : Str) (version : Version) (text : Str) : Res LangDeps :=
  dependencies name version (splitlines (universalNewlines text))

/-- The `langs` parameter of `projects`: cdtb/rads.py:285-295 -/
inductive RadsLangs where
  | none_
  | all
  | one (l : Str)
  | some_ (ls : List Str)
deriving DecidableEq, Repr

/-- `RadsSolutionVersion.projects`: cdtb/rads.py:285-295. A set is given as a list without duplicates. -/
def solutionProjects (d : LangDeps) : RadsLangs → Res (List ProjVer)
  | .none_ => d.get none
  | .all => pure d.values.flatten.dedup
  | .one l => d.get (some l)
  | .some_ ls => do
    let ps ← ls.mapM fun l => d.get (some l)
    pure ps.flatten.dedup

/-! ## Packages -/

/-- `BinPackageFile`: cdtb/rads.py:571-585 -/
structure PkgFile where
  path : Str
  package : Str
  offset : Int
  size : Int
  compressed : Bool
  extractPath : Str
deriving DecidableEq, Repr

/-- `BinPackageFile.__init__`: cdtb/rads.py:576-585 -/
def parsePkgLine (line : Str) : Res PkgFile :=
  match splitChar ',' line with
  | [path, package, offset, size, _typ] => do
    let path := path.drop 1
    let offset ← intOrErr offset
    let size ← intOrErr size
    let compressed := endsWith path ".compressed".toList
    pure ⟨path, package, offset, size, compressed, if compressed then path.take (path.length - 11) else path⟩
  | _ => throw .value

/-- `BinPackageFile.from_package_manifest`, from the text of the file: cdtb/rads.py:591-596 -/
def parsePkgManifest (text : Str) : Res (List PkgFile) :=
  match fileLines (universalNewlines text) with
  | [] => throw .assertion
  | l :: ls => if startsWith l "PKG1".toList then ls.mapM parsePkgLine else throw .assertion

/-- `RadsProjectVersion._get_package_files`: cdtb/rads.py:475-484 -/
def packageFiles (pfs : List PkgFile) : Dict Str PkgFile := Dict.ofList (pfs.map fun pf => (pf.extractPath, pf))

/-- `path.split('/', 5)[5]` for `n = 5`: what follows the first `n` slashes -/
def afterSlashes : Nat → Str → Res Str
  | 0, s => .ok s
  | n + 1, s => match split1 '/' s with
    | some (_, r) => afterSlashes n r
    | none => .error .index

/-- One path of `RadsPatchElement.relpaths`: cdtb/rads.py:560-562 -/
def radsRelpath (path : Str) : Res Str := (afterSlashes 5 path).map lower

/-- A `zlib.decompressobj`: its state, what `decompress` gives, what `flush` gives (used at cdtb/rads.py:521-525) -/
structure Inflate where
  State : Type
  init : State
  feed : State → Bytes → Res (State × Bytes)
  flush : State → Res Bytes

/-- Calls of the writer of a compressed file, then `flush`: cdtb/rads.py:521-525. `e` is the exception of
`reader.copy`, if any. -/
def inflateSteps (z : Inflate) (e : Option Err) : z.State → List Bytes → List BodyStep
  | st, [] => match e with
    | some e => [.raise e]
    | none => match z.flush st with
      | .error e => [.raise e]
      | .ok b => [.write b]
  | st, w :: ws => match z.feed st w with
    | .error e => [.raise e]
    | .ok (st', b) => .write b :: inflateSteps z e st' ws

/-- The exception of a result (none when it is a value) -/
def Res.err? {α : Type} : Res α → Option Err
  | .error e => some e
  | .ok _ => none

/-- What is written in the file: cdtb/rads.py:520-527, from the calls of the writer and the outcome of the copy -/
def pkgBody (z : Inflate) (compressed : Bool) (ws : List Bytes) (e : Option Err) : List BodyStep :=
  if compressed then inflateSteps z e z.init ws
  else ws.map .write ++ (match e with
    | some e => [.raise e]
    | none => [])

/-- The storage and what the network gives: chunks of the package (or an exception), and the faults when writing the
file at an extract path -/
structure RadsEnv where
  base : Str
  projectPath : Str
  z : Inflate
  stream : Str → Res (List Bytes)
  faults : Str → WriteFaults

/-- Path of an extracted file: cdtb/rads.py:503, 518 -/
def RadsEnv.dest (env : RadsEnv) (pf : PkgFile) : Str := storageFspath env.base pf.extractPath

/-- Extraction of the files of a package, in the order of the list: cdtb/rads.py:515-527. Negative offsets and sizes
are not modelled (they are zero here). -/
def RadsEnv.extractFiles (env : RadsEnv) : StreamReader → FS → List PkgFile → FS × Res Unit
  | _, fs, [] => (fs, .ok ())
  | r, fs, pf :: pfs => match r.skipTo pf.offset.toNat with
    | (.error e, _) => (fs, .error e)
    | (.ok (), r) =>
      let (ws, o, r') := r.copy pf.size.toNat
      match writeFileOrRemove fs (env.dest pf) (pkgBody env.z pf.compressed ws o.err?) (env.faults pf.extractPath) with
      | (fs', .error e) => (fs', .error e)
      | (fs', .ok ()) => env.extractFiles r' fs' pfs

/-- `sorted(files, key=lambda f: f.offset)`: cdtb/rads.py:515 -/
def sortByOffset (pfs : List PkgFile) : List PkgFile := pfs.insertionSort fun a b => a.offset ≤ b.offset

/-- `files_by_package`: cdtb/rads.py:506-508, files of each package, packages in order of appearance -/
def groupPackages (pfs : List PkgFile) : Dict Str (List PkgFile) :=
  pfs.foldl (fun d pf => d.set pf.package (((d.get? pf.package).getD []) ++ [pf])) []

/-- The loop on packages: cdtb/rads.py:510-527 -/
def RadsEnv.extractPackages (env : RadsEnv) : FS → List (Str × List PkgFile) → FS × Res Unit
  | fs, [] => (fs, .ok ())
  | fs, (package, pfs) :: rest =>
    match env.stream (env.projectPath ++ "/packages/files/".toList ++ package) with
    | .error e => (fs, .error e)
    | .ok chunks => match env.extractFiles (.init chunks) fs (sortByOffset pfs) with
      | (fs', .error e) => (fs', .error e)
      | (fs', .ok ()) => env.extractPackages fs' rest

/-- The files to extract: cdtb/rads.py:497-500 -/
def selectFiles (all : Dict Str PkgFile) : Option (List Str) → Res (List PkgFile)
  | none => pure all.values
  | some paths => paths.mapM all.get

/-- `RadsProjectVersion.extract`: cdtb/rads.py:490-527, once the package manifest is there -/
def RadsEnv.extract (env : RadsEnv) (fs : FS) (pfs : List PkgFile) (paths : Option (List Str)) : FS × Res Unit :=
  match selectFiles (packageFiles pfs) paths with
  | .error e => (fs, .error e)
  | .ok files => env.extractPackages fs (groupPackages (files.filter fun pf => !fs.isFile (env.dest pf)))

end Cdtb
