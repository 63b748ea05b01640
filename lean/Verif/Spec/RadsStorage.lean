import Verif.Spec.Rads
import Verif.Spec.PatchVersion
import Verif.Props.C42
import Verif.Model.RadsStorage
/-!
# Specification of RADS storages

What a server publishes: manifests of solution versions, package manifests of project versions, packages. A file of a package manifest is a part
of a package. Files have the same content in all the manifests that list them.
-/
namespace Cdtb.Spec
set_option autoImplicit false
open Py

/-- An entry of a package manifest: the file, whether it is compressed in the package, where it is, a type -/
structure PkgEntry where
  file : Str
  compressed : Bool
  package : Str
  offset : Nat
  size : Nat
  typ : Str

/-- The line of an entry -/
def PkgEntry.line (e : PkgEntry) : Str :=
  pkgLine (if e.compressed then e.file ++ ".compressed".toList else e.file) e.package e.offset e.size e.typ

/-- No comma nor line break in the names; a file whose name ends with `.compressed` is compressed. -/
structure PkgEntry.Ok (e : PkgEntry) : Prop where
  commas : ',' ∉ e.file ∧ ',' ∉ e.package ∧ ',' ∉ e.typ
  breaks : ∀ c ∈ e.file ++ e.package ++ e.typ, c ≠ '\n' ∧ c ≠ '\r'
  plain : e.compressed = false → ¬ ∃ p, e.file = p ++ ".compressed".toList

/-- The path of a file: `projects/<project>/releases/<version>/files/<file>` -/
def FilePath (p : Str) : Prop := ∃ project version rest, '/' ∉ project ∧ '/' ∉ version ∧
  p = "projects/".toList ++ project ++ "/releases/".toList ++ version ++ "/files/".toList ++ rest

/-- Paths of a solution version and of a project version -/
def solutionFile (name version file : Str) : Str := "solutions/".toList ++ name ++ "/releases/".toList ++ version ++ '/' :: file
def projectFile (name version file : Str) : Str := "projects/".toList ++ name ++ "/releases/".toList ++ version ++ '/' :: file

/-- A text file encodes lines, each ended by `\n` or `\r\n`. -/
def EncodesLines (b : Bytes) (lines : List Str) : Prop := ∃ ls : List (Str × Bool), utf8 b = .ok (textOf ls) ∧ ls.map (·.1) = lines

/-- What a server publishes, by name and version of solutions and projects -/
structure RadsSite where
  solution : Str → Str → Option SolManifest
  /-- package manifest, if it is (still) available -/
  entries : Str → Str → Option (List PkgEntry)
  package : Str → Str → Str → Bytes
  /-- content of files -/
  file : Str → Bytes

/-- Part of a package in which an entry is -/
def RadsSite.part (site : RadsSite) (name version : Str) (e : PkgEntry) : Bytes := ((site.package name version e.package).drop e.offset).take e.size

/-- The last of the entries of a file -/
def LastEntry (es : List PkgEntry) (e : PkgEntry) : Prop := ∃ a b, es = a ++ e :: b ∧ ∀ x ∈ b, x.file ≠ e.file

/-- A site in order: manifests are about the solution version, with known languages and declared projects; paths of files are
regular; entries and `inflate` give the content of files. -/
structure RadsSite.Ok (site : RadsSite) (inflate : Bytes → Res Bytes) : Prop where
  manifest : ∀ n v m, site.solution n v = some m → m.Ok ∧ m.name = n ∧ m.version = v ∧ ∀ l ∈ m.langs, ∀ p ∈ l.2, m.versionOf p ≠ none
  projects : ∀ n v m, site.solution n v = some m → ∀ p ∈ m.projects, '/' ∉ p.1 ∧ '/' ∉ p.2.1
  lines : ∀ n v m, site.solution n v = some m → ∀ l ∈ m.lines, ∀ c ∈ l, isLineBreak c = false
  entry : ∀ n v es, site.entries n v = some es → ∀ e ∈ es, e.Ok ∧ FilePath e.file
  content : ∀ n v es, site.entries n v = some es → ∀ e, LastEntry es e →
    (if e.compressed then inflate (site.part n v e) else .ok (site.part n v e)) = .ok (site.file e.file)

/-- The server: what it gives for each URL (`none`: 404) -/
structure RadsSite.Serves (site : RadsSite) (served : Str → Option Bytes) : Prop where
  solution : ∀ n v m, site.solution n v = some m → ∃ b, served (solutionFile n v "solutionmanifest".toList) = some b ∧ EncodesLines b m.lines
  noSolution : ∀ n v, '/' ∉ n → '/' ∉ v → site.solution n v = none → served (solutionFile n v "solutionmanifest".toList) = none
  entries : ∀ n v es, site.entries n v = some es → ∃ b magic, served (projectFile n v "packages/files/packagemanifest".toList) = some b ∧
    (∀ c ∈ magic, c ≠ '\n' ∧ c ≠ '\r') ∧ EncodesLines b (("PKG1".toList ++ magic) :: es.map PkgEntry.line)
  noEntries : ∀ n v, '/' ∉ n → '/' ∉ v → site.entries n v = none → served (projectFile n v "packages/files/packagemanifest".toList) = none
  package : ∀ n v p b, served (projectFile n v ("packages/files/".toList ++ p)) = some b → b = site.package n v p

/-- The projects used by languages -/
def UsedBy (m : SolManifest) : RadsLangs → Str → Prop
  | .none_, p => p ∈ m.required
  | .all, p => p ∈ m.required ∨ ∃ l ps, m.depsOf l = some ps ∧ p ∈ ps
  | .one l, p => ∃ ps, m.depsOf l = some ps ∧ p ∈ ps
  | .some_ ls, p => ∃ l ∈ ls, ∃ ps, m.depsOf l = some ps ∧ p ∈ ps

/-- Where the patch version of a solution is: project, file, and the text read from the content of the file. `exe` reads executables. -/
inductive PatchFile (exe : Bytes → Res (Option Str)) : Str → Str → Str → (Bytes → Str → Prop) → Prop
  | client : PatchFile exe "league_client_sln".toList "league_client".toList "system.yaml".toList
      fun b t => ∃ text ls, utf8 b = .ok text ∧ TextLines text ls ∧ FirstBranch ls t
  | game : PatchFile exe "lol_game_client_sln".toList "lol_game_client".toList "League of Legends.exe".toList
      fun b t => exe b = .ok (some t)

/-- A version of the client with no `system.yaml`: 0.0.0.43 or before -/
def OldClient (project version : Str) : Prop :=
  project = "league_client".toList ∧ ∃ v t, radsVersion (.str version) = .ok v ∧ v.t = .nums t ∧ t ≤ [0, 0, 0, 43]

/-- The text of the patch version of a solution version (`none`: there is none). -/
inductive RadsSite.Patch (site : RadsSite) (exe : Bytes → Res (Option Str)) (name version : Str) : Option Str → Prop
  /-- the package manifest is not available anymore -/
  | gone {m : SolManifest} {project file pversion : Str} {read : Bytes → Str → Prop} :
      PatchFile exe name project file read → site.solution name version = some m → project ∈ m.required → m.versionOf project = some pversion →
      site.entries project pversion = none → Patch site exe name version none
  /-- an old client, without the file -/
  | old {m : SolManifest} {project file pversion : Str} {read : Bytes → Str → Prop} {es : List PkgEntry} :
      PatchFile exe name project file read → site.solution name version = some m → project ∈ m.required → m.versionOf project = some pversion →
      site.entries project pversion = some es → (∀ e ∈ es, ¬ ∃ d, e.file = d ++ '/' :: file) → OldClient project pversion →
      Patch site exe name version none
  /-- the version is in the first such file -/
  | found {m : SolManifest} {project file pversion : Str} {read : Bytes → Str → Prop} {before after : List PkgEntry} {e : PkgEntry} {d t : Str} :
      PatchFile exe name project file read → site.solution name version = some m → project ∈ m.required → m.versionOf project = some pversion →
      site.entries project pversion = some (before ++ e :: after) → e.file = d ++ '/' :: file →
      (∀ x ∈ before, ¬ ∃ d, x.file = d ++ '/' :: file) → read (site.file e.file) t → Patch site exe name version (some t)

/-- A text of the patch version as a version, if it is one -/
def PatchOf (t : Option Str) (r : Option Version) : Prop := match t with
  | none => r = none
  | some t => ∃ v, r = some v ∧ Cdtb.patchVersion (.str t) = .ok v

/-! ## Storages -/

/-- The files of the storage which a client may write, with their content: manifests as served, files of packages, and the text of patch versions -/
inductive RadsFile (base : Str) (site : RadsSite) (served : Str → Option Bytes) (exe : Bytes → Res (Option Str)) : Str → Bytes → Prop
  | solution {n v : Str} {b : Bytes} : '/' ∉ n → '/' ∉ v → served (solutionFile n v "solutionmanifest".toList) = some b →
      RadsFile base site served exe (storageFspath base (solutionFile n v "solutionmanifest".toList)) b
  | packages {n v : Str} {b : Bytes} : '/' ∉ n → '/' ∉ v → served (projectFile n v "packages/files/packagemanifest".toList) = some b →
      RadsFile base site served exe (storageFspath base (projectFile n v "packagemanifest".toList)) b
  | release {n v : Str} {b : Bytes} : '/' ∉ n → '/' ∉ v → served (projectFile n v "releasemanifest".toList) = some b →
      RadsFile base site served exe (storageFspath base (projectFile n v "releasemanifest".toList)) b
  | file {p : Str} : FilePath p → RadsFile base site served exe (storageFspath base p) (site.file p)
  | version {n v t : Str} {ver : Version} : '/' ∉ n → '/' ∉ v → site.Patch exe n v (some t) → Cdtb.patchVersion (.str t) = .ok ver →
      RadsFile base site served exe (storageFspath base (solutionFile n v "_patch_version".toList)) (utf8Bytes (ver.s ++ ['\n']))

/-- A disk on which the files of the storage are right, if they are there -/
structure GoodRads (base : Str) (site : RadsSite) (served : Str → Option Bytes) (exe : Bytes → Res (Option Str)) (fs : FS) : Prop where
  solution : ∀ n v b, '/' ∉ n → '/' ∉ v → fs (storageFspath base (solutionFile n v "solutionmanifest".toList)) = some (.file b) →
    served (solutionFile n v "solutionmanifest".toList) = some b
  packages : ∀ n v b, '/' ∉ n → '/' ∉ v → fs (storageFspath base (projectFile n v "packagemanifest".toList)) = some (.file b) →
    served (projectFile n v "packages/files/packagemanifest".toList) = some b
  release : ∀ n v b, '/' ∉ n → '/' ∉ v → fs (storageFspath base (projectFile n v "releasemanifest".toList)) = some (.file b) →
    served (projectFile n v "releasemanifest".toList) = some b
  file : ∀ p b, FilePath p → fs (storageFspath base p) = some (.file b) → b = site.file p
  version : ∀ n v b, '/' ∉ n → '/' ∉ v → fs (storageFspath base (solutionFile n v "_patch_version".toList)) = some (.file b) →
    ∃ t ver, site.Patch exe n v (some t) ∧ Cdtb.patchVersion (.str t) = .ok ver ∧ b = utf8Bytes (ver.s ++ ['\n'])

/-- The files of a manifest are on the disk, with the right content. -/
def Extracted (base : Str) (site : RadsSite) (fs : FS) (es : List PkgEntry) : Prop :=
  ∀ e ∈ es, fs (storageFspath base e.file) = some (.file (site.file e.file))

/-- Files of a solution version, for the languages -/
def RadsSite.Lists (site : RadsSite) (name version : Str) (langs : RadsLangs) (path : Str) : Prop :=
  ∃ m p v es, site.solution name version = some m ∧ UsedBy m langs p ∧ m.versionOf p = some v ∧ site.entries p v = some es ∧ ∃ e ∈ es, e.file = path

/-- Files are only added, and those which are added satisfy `P`. -/
def Adds (P : Str → Bytes → Prop) (fs fs' : FS) : Prop :=
  (∀ q b, fs q = some (.file b) → fs' q = some (.file b)) ∧ ∀ q b, fs' q = some (.file b) → fs q = some (.file b) ∨ P q b

/-- Errors of the disk are not errors of the server. -/
def DiskErrors (f : WriteFaults) : Prop :=
  ∀ e, (∃ k, f.makedirs = some (k, e)) ∨ f.open_ = some e ∨ (∃ i k, f.write i = some (k, e)) ∨ (∃ k, f.close = some (k, e)) → e ≠ .http 404

/-- Responses are those of the server; streams may be truncated; requests and disk may fail, but partly written files can be removed, and the
file of the patch version is written entirely, or not opened. -/
structure RadsWorldOk (served : Str → Option Bytes) (w : RadsWorld) : Prop where
  get : ∀ p b, w.get p = .ok b → served p = some b
  missing : ∀ p, w.get p = .error (.http 404) → served p = none
  stream : ∀ p chunks, w.stream p = .ok chunks → ∃ b, served p = some b ∧ chunks.flatten <+: b
  order : ∀ l x, x ∈ w.order l ↔ x ∈ l
  remove : ∀ p, (w.faults p).remove = false
  disk : ∀ p, DiskErrors (w.faults p)
  cache : ∀ n v, (w.faults (solutionFile n v "_patch_version".toList)).write 0 = none ∧
    (w.faults (solutionFile n v "_patch_version".toList)).close = none

end Cdtb.Spec
