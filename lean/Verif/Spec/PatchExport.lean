import Verif.Spec.Commands
import Verif.Spec.Collect
import Verif.Spec.RadsStorage
import Verif.Model.PatchExport
/-!
# Specification of the export of a patch from a patcher storage
-/
namespace Cdtb.Spec
set_option autoImplicit false
open Py

/-- The files of elements: path in the storage, export path -/
def storedPaths (cfg : PCfg) (es : List PElem) : List (Str × Str) :=
  es.flatMap fun e => e.manif.files.values.map fun f => (cfg.storageDir e.release ++ "/files/".toList ++ fmtOpt f.name, lower (fmtOpt f.name))

/-- The paths of the storage hold what the CDN has for them. Nothing is said of other paths. -/
def CdnFiles (cfg : PCfg) (w : Cdn) (catalog : Int → Str → List Nat) (es : List PElem) (fs : FS) : Prop :=
  ∀ e ∈ es, ∀ f ∈ e.manif.files.values, fs (cfg.storageDir e.release ++ "/files/".toList ++ fmtOpt f.name) = some (.file (rightContent w catalog e.release f))

/-- Both disks have the same hash files. -/
def SameHashFiles (dir : Str) (fs fs' : FS) : Prop :=
  fs (pjoin dir "hashes.game.txt".toList) = fs' (pjoin dir "hashes.game.txt".toList) ∧
  fs (pjoin dir "hashes.lcu.txt".toList) = fs' (pjoin dir "hashes.lcu.txt".toList)

/-- Files have names, and none is a link. -/
def OnlyFiles (es : List PElem) : Prop := ∀ e ∈ es, ∀ f ∈ e.manif.files.values, f.name ≠ none ∧ f.isLink = false

/-- A file of a RADS patch: path in the storage, export path (the part after `files/`, in lowercase) -/
def RadsPair (base : Str) (site : RadsSite) (es : List SolVer) (x : Str × Str) : Prop :=
  ∃ sv ∈ es, ∃ project version rest, '/' ∉ project ∧ '/' ∉ version ∧
    site.Lists sv.name sv.version.s .all ("projects/".toList ++ project ++ "/releases/".toList ++ version ++ "/files/".toList ++ rest) ∧
    x = (pjoin base ("projects/".toList ++ project ++ "/releases/".toList ++ version ++ "/files/".toList ++ rest), lower rest)

/-- The paths of the storage hold what the site has for them. Nothing is said of other paths. -/
def SiteFiles (base : Str) (site : RadsSite) (es : List SolVer) (fs : FS) : Prop :=
  ∀ sv ∈ es, ∀ p, site.Lists sv.name sv.version.s .all p → fs (pjoin base p) = some (.file (site.file p))

end Cdtb.Spec
