import Verif.Spec.RadsStorage
/-!
# Specification of successful runs of RADS storages

What the disk, the server and the network must give for downloads to succeed.
-/
namespace Cdtb.Spec
set_option autoImplicit false
open Py

/-- Files of the packages of a server -/
def RadsSite.Listed (site : RadsSite) (p : Str) : Prop := ∃ n v es, site.entries n v = some es ∧ ∃ e ∈ es, e.file = p

/-- Files of packages have a name, and none is within another one. -/
structure RadsSite.Apart (site : RadsSite) : Prop where
  named : ∀ p, site.Listed p → ¬ ∃ d, p = d ++ ['/']
  apart : ∀ p q, site.Listed p → site.Listed q → ¬ ∃ r, q = p ++ '/' :: r

/-- Paths which a client may write in a storage -/
inductive RadsSite.Writes (site : RadsSite) (served : Str → Option Bytes) : Str → Prop
  | solution {n v : Str} {m : SolManifest} : '/' ∉ n → '/' ∉ v → site.solution n v = some m → Writes site served (solutionFile n v "solutionmanifest".toList)
  | version {n v : Str} {m : SolManifest} : '/' ∉ n → '/' ∉ v → site.solution n v = some m → Writes site served (solutionFile n v "_patch_version".toList)
  | packages {n v : Str} {es : List PkgEntry} : '/' ∉ n → '/' ∉ v → site.entries n v = some es → Writes site served (projectFile n v "packagemanifest".toList)
  | release {n v : Str} {b : Bytes} : '/' ∉ n → '/' ∉ v → served (projectFile n v "releasemanifest".toList) = some b →
      Writes site served (projectFile n v "releasemanifest".toList)
  | file {p : Str} : site.Listed p → Writes site served p

/-- Nothing on the disk is in the way: paths are not directories, what is above them is not a file; a file is in a directory. -/
structure ClearRads (base : Str) (site : RadsSite) (served : Str → Option Bytes) (fs : FS) : Prop where
  dirs : ∀ p, site.Writes served p → ∀ d ∈ dirPrefixes (dirname (storageFspath base p)), ∀ b, fs d ≠ some (.file b)
  files : ∀ p, site.Writes served p → fs (storageFspath base p) ≠ some .dir
  tree : ∀ p, site.Writes served p → ∀ b, fs (storageFspath base p) = some (.file b) → fs (dirname (storageFspath base p)) = some .dir

/-- Nothing fails: the server answers, streams are complete, the disk works. -/
structure PerfectRads (served : Str → Option Bytes) (w : RadsWorld) : Prop where
  get : ∀ p, w.get p = match served p with
    | some b => .ok b
    | none => .error (.http 404)
  stream : ∀ p b, served p = some b → ∃ chunks, w.stream p = .ok chunks ∧ chunks.flatten = b
  missing : ∀ p, served p = none → w.stream p = .error (.http 404)
  faults : ∀ p, w.faults p = {}
  order : ∀ l x, x ∈ w.order l ↔ x ∈ l

/-- The file of an entry is available: the package is served, the part is inside. -/
def RadsSite.Available (site : RadsSite) (served : Str → Option Bytes) (n v : Str) (e : PkgEntry) : Prop :=
  (∃ b, served (projectFile n v ("packages/files/".toList ++ e.package)) = some b) ∧ e.offset + e.size ≤ (site.package n v e.package).length

/-- Parts of a package do not overlap. -/
def DisjointParts (e e' : PkgEntry) : Prop := e.package = e'.package →
  (e.offset < e'.offset ∧ e.offset + e.size ≤ e'.offset) ∨ (e'.offset < e.offset ∧ e'.offset + e'.size ≤ e.offset)

/-- A project version can be downloaded: its manifests and its packages are available, and the parts of packages do not overlap. -/
structure RadsSite.Complete (site : RadsSite) (served : Str → Option Bytes) (n v : Str) : Prop where
  entries : ∃ es, site.entries n v = some es
  release : ∃ b, served (projectFile n v "releasemanifest".toList) = some b
  files : ∀ es, site.entries n v = some es → ∀ e, LastEntry es e → site.Available served n v e
  parts : ∀ es, site.entries n v = some es → ∀ e e', LastEntry es e → LastEntry es e' → e.file ≠ e'.file → DisjointParts e e'

/-- The languages are those of the solution version. -/
def KnownLangs (m : SolManifest) : RadsLangs → Prop
  | .one l => m.depsOf l ≠ none
  | .some_ ls => ∀ l ∈ ls, m.depsOf l ≠ none
  | _ => True

/-- The patch of a solution version can be known: there is none, or it is a version, and the files of its projects are available. -/
structure RadsSite.Known (site : RadsSite) (served : Str → Option Bytes) (exe : Bytes → Res (Option Str)) (n v : Str) : Prop where
  patch : ∃ t r, site.Patch exe n v t ∧ PatchOf t r
  files : ∀ m p u es e, site.solution n v = some m → p ∈ m.required → m.versionOf p = some u → site.entries p u = some es →
    LastEntry es e → site.Available served p u e

end Cdtb.Spec
