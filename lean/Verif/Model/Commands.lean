import Verif.Model.Patcher
import Verif.Model.Cli
import Verif.Model.RadsStorage
/-!
# Model of commands on components: `download` and `files` (cdtb/__main__.py:73-82), on both types of storages
-/
namespace Cdtb
set_option autoImplicit false
open Py

/-- `args.langs` (cdtb/__main__.py:379-382): `True` without option (the default of `--no-lang`, which is declared first), `False` with
`--no-lang`, the list of texts given to `--lang` -/
inductive LangArg where
  | all
  | noLang
  | given (l : List Str)
deriving DecidableEq, Repr

/-- A loop on elements, until an exception: `for e in elements: e.method(...)` (cdtb/__main__.py:74-75, cdtb/storage.py:423-425,
cdtb/patcher.py:507-517). `f i` is the effect of the method for the `i`-th element. -/
def forElems {E S : Type} (f : Nat → S → E → S × Res Unit) : Nat → S → List E → S × Res Unit
  | _, s, [] => (s, .ok ())
  | i, s, e :: es => match f i s e with
    | (s', .error x) => (s', .error x)
    | (s', .ok ()) => forElems f (i + 1) s' es

/-- A generator consumed by `print` (cdtb/__main__.py:81-82): what is printed, until the end or an exception -/
def printAll : List (Res Str) → List Str × Res Unit
  | [] => ([], .ok ())
  | .error e :: _ => ([], .error e)
  | .ok s :: l => match printAll l with
    | (out, r) => (s :: out, r)

/-- Generators consumed one after the other by `print` (cdtb/__main__.py:79-82) -/
def printElems {E : Type} (f : E → List Str × Res Unit) : List E → List Str × Res Unit
  | [] => ([], .ok ())
  | e :: es => match f e with
    | (out, .error x) => (out, .error x)
    | (out, .ok ()) => match printElems f es with
      | (out', r) => (out ++ out', r)

/-! ## Patcher storages -/

/-- `langs` for `langs_predicate` (cdtb/patcher.py:63-73): a list has no method `lower`. -/
def LangArg.patcher : LangArg → Langs
  | .all => .all
  | .noLang => .none
  | .given _ => .other

/-- An element of a release: number of the release, manifest (cdtb/patcher.py:519-538). The download of the manifest is not modelled here. -/
structure PElem where
  release : Int
  manif : Manifest

/-- What happens while an element is downloaded: answers of the server, failures, schedule of the threads -/
structure PRun where
  response : Nat → Res Bytes
  faults : Nat → WriteFaults
  sched : (ids : List Nat) → List {i // i ∈ ids}
  flts : Nat → ExtractFaults

/-- Outcome of `ThreadPool.map` (cdtb/patcher.py:558): it waits for the tasks and raises if one of them failed (which exception, when several tasks failed, is
not modelled: the first one in the order of bundles). `diverge` when a task is not done. -/
def poolOutcome : List TState → Res Unit
  | [] => .ok ()
  | .done (.ok ()) :: l => poolOutcome l
  | .done (.error e) :: _ => .error e
  | _ :: _ => .error .diverge

/-- `PatcherReleaseElement.download_bundles` (cdtb/patcher.py:554-558) -/
def PCfg.downloadBundles (cfg : PCfg) (skip : Bool) (langs : Langs) (w : PRun) (d : Disk) (e : PElem) : Disk × Res Unit :=
  match cfg.bundleIds e.release e.manif langs skip d with
  | .error x => (d, .error x)
  | .ok need => match sortIds need with
    | .error x => (d, .error x)
    | .ok ids =>
      let pool := cfg.downloadPool w.response w.faults ids d.fs (w.sched ids)
      ({ d with fs := pool.fs }, poolOutcome (ids.attach.map pool.states))

/-- `PatcherPatchElement.download` (cdtb/patcher.py:646-648) -/
def PCfg.downloadElem (cfg : PCfg) (langs : Langs) (w : PRun) (d : Disk) (e : PElem) : Disk × Res Unit :=
  match cfg.downloadBundles true langs w d e with
  | (d', .error x) => (d', .error x)
  | (d', .ok ()) => cfg.extract e.release e.manif langs false w.flts d'

/-- `Patch.download` (cdtb/storage.py:423-425), also the loop of `command_download` (cdtb/__main__.py:74-75) -/
def PCfg.downloadElems (cfg : PCfg) (langs : Langs) (ws : Nat → PRun) (d : Disk) (es : List PElem) : Disk × Res Unit :=
  forElems (fun i d e => cfg.downloadElem langs (ws i) d e) 0 d es

/-- `PatcherRelease.download_bundles` (cdtb/patcher.py:507-511) -/
def PCfg.releaseBundles (cfg : PCfg) (skip : Bool) (langs : Langs) (ws : Nat → PRun) (d : Disk) (es : List PElem) : Disk × Res Unit :=
  forElems (fun i d e => cfg.downloadBundles skip langs (ws i) d e) 0 d es

/-- `PatcherRelease.extract` (cdtb/patcher.py:513-517) -/
def PCfg.releaseExtract (cfg : PCfg) (overwrite : Bool) (langs : Langs) (ws : Nat → PRun) (d : Disk) (es : List PElem) : Disk × Res Unit :=
  forElems (fun i d (e : PElem) => cfg.extract e.release e.manif langs overwrite (ws i).flts d) 0 d es

/-- `command_download` (cdtb/__main__.py:73-75) with a patcher storage. All the components are parsed before the first download. -/
def PCfg.commandDownload (cfg : PCfg) (parse : Str → Res Component) (src : Elem → PElem) (components : List Str) (langs : LangArg) (ws : Nat → PRun)
    (d : Disk) : Disk × Res Unit :=
  match parseComponentArgs parse components with
  | .error x => (d, .error x)
  | .ok es => cfg.downloadElems langs.patcher ws d (es.map src)

/-- `f.name.lower()` (cdtb/patcher.py:654) -/
def relName (f : PFile) : Res Str := match f.name with
  | none => .error .attribute
  | some n => .ok (lower n)

/-- `PatcherPatchElement.fspaths` and `relpaths` (cdtb/patcher.py:650-654), printed (cdtb/__main__.py:80-82) -/
def PCfg.printPaths (cfg : PCfg) (langs : Langs) (relative : Bool) (e : PElem) : List Str × Res Unit :=
  match e.manif.filterFiles langs with
  | .error x => ([], .error x)
  | .ok fs => printAll (fs.map fun f => if relative then relName f else .ok (cfg.extractPath e.release f))

/-- `command_files` (cdtb/__main__.py:78-82) with a patcher storage: what is printed -/
def PCfg.commandFiles (cfg : PCfg) (parse : Str → Res Component) (src : Elem → PElem) (component : Str) (langs : LangArg) (relative : Bool) :
    List Str × Res Unit :=
  match parseComponentArg parse component with
  | .error x => ([], .error x)
  | .ok es => printElems (cfg.printPaths langs.patcher relative) (es.map src)

/-! ## RADS storages -/

/-- `RadsSolutionVersion.projects` (cdtb/rads.py:285-295) with the argument of the command: `dependencies` has no text in its keys, so a list of texts raises
`KeyError`, except the empty one -/
def RadsCfg.argProjects (cfg : RadsCfg) (w : RadsWorld) (fs : FS) (sv : SolVer) : LangArg → FS × Res (List ProjVer)
  | .all => cfg.projects w fs sv .all
  | .noLang => cfg.projects w fs sv .none_
  | .given l => match cfg.dependencies w fs sv with
    | (fs', .error e) => (fs', .error e)
    | (fs', .ok _) => (fs', if l.isEmpty then .ok [] else .error .key)

/-- `RadsSolutionVersion.download` (cdtb/rads.py:302-307) with the argument of the command -/
def RadsCfg.argDownload (cfg : RadsCfg) (langs : LangArg) (w : RadsWorld) (fs : FS) (sv : SolVer) : FS × Res Unit :=
  match cfg.argProjects w fs sv langs with
  | (fs', .error e) => (fs', .error e)
  | (fs', .ok pvs) => cfg.downloadProjects w fs' pvs

/-- `command_download` (cdtb/__main__.py:73-75) with a RADS storage -/
def RadsCfg.commandDownload (cfg : RadsCfg) (parse : Str → Res Component) (src : Elem → SolVer) (components : List Str) (langs : LangArg)
    (ws : Nat → RadsWorld) (fs : FS) : FS × Res Unit :=
  match parseComponentArgs parse components with
  | .error x => (fs, .error x)
  | .ok es => forElems (fun i fs sv => cfg.argDownload langs (ws i) fs sv) 0 fs (es.map src)

/-- `RadsSolutionVersion.filepaths` (cdtb/rads.py:297-300) with the argument of the command -/
def RadsCfg.argFilepaths (cfg : RadsCfg) (langs : LangArg) (w : RadsWorld) (fs : FS) (sv : SolVer) : FS × List Str × Res Unit :=
  match cfg.argProjects w fs sv langs with
  | (fs', .error e) => (fs', [], .error e)
  | (fs', .ok pvs) => cfg.filepathsLoop w fs' pvs

/-- `RadsPatchElement.paths` (cdtb/rads.py:564-568): pairs of the path on disk and of the export path -/
def RadsCfg.pairOf (cfg : RadsCfg) (path : Str) : Res (Str × Str) := do
  let r ← radsRelpath path
  .ok (storageFspath cfg.base path, r)

/-- `RadsPatchElement.fspaths` and `relpaths` (cdtb/rads.py:555-562), printed (cdtb/__main__.py:80-82): a path that is not an export path stops the generator;
the exception of `filepaths` comes after the paths it gave -/
def RadsCfg.printPaths (cfg : RadsCfg) (langs : LangArg) (relative : Bool) (w : RadsWorld) (fs : FS) (sv : SolVer) : FS × List Str × Res Unit :=
  match cfg.argFilepaths langs w fs sv with
  | (fs', l, r) => match printAll (l.map fun p => if relative then radsRelpath p else .ok (storageFspath cfg.base p)) with
    | (out, .error e) => (fs', out, .error e)
    | (out, .ok ()) => (fs', out, r)

end Cdtb
