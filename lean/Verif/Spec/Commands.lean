import Verif.Props.C34
import Verif.Props.C39
import Verif.Model.Commands
/-!
# Specification of the commands on components
-/
namespace Cdtb.Spec
set_option autoImplicit false
open Py

/-- What options select in a patcher storage: all the files, the files without language with `--no-lang`; `--lang` gives a list, which is not handled. -/
def argLangs : LangArg → Langs
  | .all => .all
  | .noLang => .none
  | .given _ => .other

/-- What a component of the command line designates: a patch, with its elements, or an element -/
inductive ArgDesignates (parse : Str → Res Component) (component : Str) : Elem → Prop
  | patch {p : Patch} {e : Elem} : parse component = .ok (.patch p) → e ∈ p.elements → ArgDesignates parse component e
  | element {e : Elem} : parse component = .ok (.element e) → ArgDesignates parse component e

/-- Content of a file of a release, from the chunks listed in the catalog -/
def rightContent (w : Cdn) (catalog : Int → Str → List Nat) (version : Int) (f : PFile) : Bytes :=
  ((catalog version (fmtOpt f.name)).map w.chunk).flatten

/-- The manifest of an element describes the files of the catalog: chunks, sizes; identifiers of bundles have 64 bits. -/
structure TrueManifest (cfg : PCfg) (w : Cdn) (catalog : Int → Str → List Nat) (e : PElem) : Prop where
  chunks : ∀ f ∈ e.manif.files.values, Genuine cfg w f (catalog e.release (fmtOpt f.name))
  size : ∀ f ∈ e.manif.files.values, f.size = some (rightContent w catalog e.release f).length
  bundles : ∀ f ∈ e.manif.files.values, ∀ c ∈ f.chunks, ∀ b, c.bundle = some b → b < 2 ^ 64

/-- What may happen while an element is downloaded: requests fail or give what the CDN holds, the disk fails, but partly written files can be removed; every
thread gets enough turns to end its task. -/
structure FairRun (cfg : PCfg) (w : Cdn) (r : PRun) : Prop where
  served : ∀ i x, r.response i = .ok x → x = w.bundle i
  remove : ∀ i, (r.faults i).remove = false
  removeOut : ∀ i, (r.flts i).write.remove = false
  turns : ∀ ids (i : {i // i ∈ ids}), 7 + (dirPrefixes (dirname (cfg.bundlePath i.1))).length ≤ (r.sched ids).countP (fun j => decide (j = i))

/-- The selected files of an element, except links, are on disk with their content. -/
def ElemStored (cfg : PCfg) (w : Cdn) (catalog : Int → Str → List Nat) (langs : Langs) (d : Disk) (e : PElem) : Prop :=
  ∀ f ∈ e.manif.files.values, Selected langs f → f.isLink = false → d.content (cfg.extractPath e.release f) = some (rightContent w catalog e.release f)

/-- The outputs of elements: the files, except links, with the number of their release -/
def IsOutput (elems : PElem → Prop) (v : Int) (f : PFile) : Prop :=
  ∃ e, elems e ∧ v = e.release ∧ f ∈ e.manif.files.values ∧ f.isLink = false

/-- Nothing of the disk is in the way of the outputs, of the store of contents and of the bundles: parents of paths are not files (nor links, for outputs), paths are not
directories. -/
structure ClearWay (cfg : PCfg) (output : Int → PFile → Prop) (d : Disk) : Prop where
  outDirs : ∀ v f, output v f → ∀ q ∈ dirPrefixes (dirname (cfg.extractPath v f)), (∀ b, d.fs q ≠ some (.file b)) ∧ d.links q = none
  outs : ∀ v f, output v f → d.fs (cfg.extractPath v f) ≠ some .dir
  storeDirs : ∀ x, ∀ q ∈ dirPrefixes (dirname (cfg.storePath (cfg.sha1 x))), ∀ b, d.fs q ≠ some (.file b)
  stores : ∀ x, d.fs (cfg.storePath (cfg.sha1 x)) ≠ some .dir
  bundleDirs : ∀ i, ∀ q ∈ dirPrefixes (dirname (cfg.bundlePath i)), ∀ b, d.fs q ≠ some (.file b)
  bundles : ∀ i, d.fs (cfg.bundlePath i) ≠ some .dir

/-- Outputs have names, no two files of an element have the same one, no output is the directory of another; digests have the same size, without slash. -/
structure GoodOutputs (cfg : PCfg) (elems : PElem → Prop) : Prop where
  named : ∀ v f, IsOutput elems v f → f.name ≠ none ∧ basename (cfg.extractPath v f) ≠ []
  parents : ∀ v f v' f', IsOutput elems v f → IsOutput elems v' f' → cfg.extractPath v f ∉ dirPrefixes (dirname (cfg.extractPath v' f'))
  distinct : ∀ e, elems e → (e.manif.files.values.map fun f => fmtOpt f.name).Nodup
  digest : ∃ n, ∀ x, (cfg.sha1 x).length = n + 1
  noslash : ∀ x, '/' ∉ cfg.sha1 x

/-- Nothing fails: the CDN gives its bundles, the disk works, every thread gets enough turns to end its task. -/
structure PerfectRun (cfg : PCfg) (w : Cdn) (r : PRun) : Prop where
  served : ∀ i, r.response i = .ok (w.bundle i)
  faults : ∀ i, r.faults i = {}
  flts : ∀ i, r.flts i = {}
  turns : ∀ ids (i : {i // i ∈ ids}), 7 + (dirPrefixes (dirname (cfg.bundlePath i.1))).length ≤ (r.sched ids).countP (fun j => decide (j = i))

/-- The command has been run any number of times, with any components (of the given elements), languages, failures and interleavings. -/
inductive Attempted (cfg : PCfg) (w : Cdn) (parse : Str → Res Component) (src : Elem → PElem) (elems : PElem → Prop) (d : Disk) : Disk → Prop
  | never : Attempted cfg w parse src elems d d
  | again {d1 d2 : Disk} {r : Res Unit} {components : List Str} {langs : LangArg} {ws : Nat → PRun} : Attempted cfg w parse src elems d d1 →
      (∀ c ∈ components, ∀ e, ArgDesignates parse c e → elems (src e)) → (∀ i, FairRun cfg w (ws i)) →
      cfg.commandDownload parse src components langs ws d1 = (d2, r) → Attempted cfg w parse src elems d d2

/-- What is printed for a file of a RADS storage: its path on disk, or its path in the project, in lowercase -/
inductive RadsPrinted (base : Str) : Bool → Str → Str → Prop
  | full {p : Str} : RadsPrinted base false p (pjoin base p)
  | relative {p project version rest : Str} : '/' ∉ project → '/' ∉ version →
      p = "projects/".toList ++ project ++ "/releases/".toList ++ version ++ "/files/".toList ++ rest → RadsPrinted base true p (lower rest)

end Cdtb.Spec
