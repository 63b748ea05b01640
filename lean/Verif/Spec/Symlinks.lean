import Verif.Model.Symlinks
import Verif.Props.C28
import Verif.Props.C29
/-! # What is read in directories of patches -/
namespace Cdtb
set_option autoImplicit false
open Py Spec

/-- A name of a file or directory -/
def PlainName (c : Str) : Prop := c ≠ [] ∧ c ≠ ['.'] ∧ c ≠ ['.', '.'] ∧ '/' ∉ c

/-- `b` is read at a path, symlinks being followed. -/
def ReadsFile (t : DirTree) (p : List Str) (b : Bytes) : Prop := ∃ o, realpath t p = some o ∧ t.get? o = some (.file b)

/-- A patch: the name of its directory, all its files (once filtered), and their converted content -/
structure PatchDir where
  name : Str
  exporter : Exporter
  conv : Conv

/-- `b` is the content of the file `q` when everything is exported. -/
def PatchDir.Full (x : PatchDir) (q : List Str) (b : Bytes) : Prop :=
  ∃ p y s, x.exporter.Source p y ∧ (s, b) ∈ x.conv y p ∧ q = splitChar '/' p ++ s

/-- The files of a patch can be written together: ordinary names, no path is both a file and a directory, nothing in the directory of generated
files, and one content per path. -/
structure PatchDir.Sound (x : PatchDir) : Prop where
  name : PlainName x.name
  ready : x.exporter.Ready
  flat : ∀ a b, x.exporter.Exports a → x.exporter.Exports b → Under a b → a = b
  plain : ∀ q, x.exporter.Exports q → (∀ c ∈ splitChar '/' q, PlainName c) ∧ (splitChar '/' q).length ≤ maxLinks
  apart : ∀ q, x.exporter.Exports q → ¬ Under "cdragon".toList q
  one : ∀ q y z, x.exporter.Source q y → x.exporter.Source q z → x.conv y q = x.conv z q
  content : ∀ q y, x.exporter.Source q y → ∀ f ∈ x.conv y q, (∀ c ∈ f.1, PlainName c) ∧ (splitChar '/' q ++ f.1).length ≤ maxLinks ∧
    ∀ g ∈ x.conv y q, f.1 <+: g.1 → f = g

/-- The directory of a patch reads as a full export of it, apart from generated files. -/
def ReadsAs (t : DirTree) (root : List Str) (x : PatchDir) : Prop :=
  ∀ q b, (∀ c ∈ q, PlainName c) → q.length ≤ maxLinks → ¬ ["cdragon".toList] <+: q → (ReadsFile t (root ++ x.name :: q) b ↔ x.Full q b)

/-- The same file, or entries with the same hash and checksum of WADs exported at the same path -/
def Unchanged : ExpSource → ExpSource → Prop
  | .inl a, .inl b => a = b
  | .inr (wp, src, f), .inr (wp', src', g) => wp = wp' ∧ (src = src' ∧ f = g ∨ f.pathHash = g.pathHash ∧ f.sha256 = g.sha256)
  | _, _ => False

/-- What did not change is converted to the same content. -/
def SameContent (x p : PatchDir) : Prop :=
  ∀ q y z, x.exporter.Source q y → p.exporter.Source q z → Unchanged y z → x.conv y q = p.conv z q

/-- A disk: every object is in a directory and has an ordinary name. -/
structure DiskOk (t : DirTree) : Prop where
  tree : t.WellFormed
  names : ∀ p n, t.get? p = some n → ∀ c ∈ p, PlainName c

/-- What may be in the directory of a patch before its export. Anything else is fine: it is removed. -/
structure Usable (t : DirTree) (root : List Str) (x : PatchDir) (prev : Str) (plan : Plan) : Prop where
  /-- it is a directory, or it does not exist -/
  dir : ∀ n, t.get? (root ++ [x.name]) = some n → n = .dir
  /-- no symlink inside what is going to be written -/
  nolink : ∀ k ∈ plan.kept, ∀ s, s ≠ [] → ∀ y, t.get? (root ++ [x.name] ++ (splitChar '/' k ++ s)) ≠ some (.link y)
  /-- no other file at the place of what is going to be written -/
  stale : ∀ k y, plan.exporter.Source k y → ∀ s b, t.get? (root ++ [x.name] ++ (splitChar '/' k ++ s)) = some (.file b) → ∃ f ∈ x.conv y k, f.1 = s
  /-- symlinks that are already there are the expected ones -/
  target : ∀ r ∈ plan.links, ∀ y, t.get? (root ++ [x.name] ++ splitChar '/' r) = some (.link y) →
    ∃ src, realpath t (root ++ [prev] ++ splitChar '/' r) = some src ∧ y = relpath src (root ++ [x.name] ++ splitChar '/' r).dropLast

/-- All directories down to `root` exist. -/
def RootOk (t : DirTree) (root : List Str) : Prop := ∀ d, d <+: root → t.get? d = some .dir

/-- There is room in the directory of a patch for its export: no directory has to be a file or a symlink, once extra files are removed with
the directories they leave empty. -/
structure Fits (t : DirTree) (root : List Str) (x : PatchDir) (plan : Plan) : Prop where
  /-- a directory is not empty, unless it is inside what is written or it leads to it -/
  noempty : ∀ r, t.get? (root ++ [x.name] ++ r) = some .dir → r = [] ∨ (∃ k ∈ plan.kept, splitChar '/' k <+: r) ∨
    (∃ k ∈ plan.kept ++ plan.links, r <+: splitChar '/' k ∧ r ≠ splitChar '/' k) ∨ ∃ c n, t.get? (root ++ [x.name] ++ (r ++ [c])) = some n
  /-- directories at the place of what is written are expected -/
  room : ∀ k y, plan.exporter.Source k y → ∀ s, t.get? (root ++ [x.name] ++ (splitChar '/' k ++ s)) = some .dir →
    ∃ f ∈ x.conv y k, s <+: f.1 ∧ s ≠ f.1
  /-- generated files can be written -/
  gen : (∀ b, t.get? (root ++ [x.name] ++ ["cdragon".toList]) ≠ some (.file b)) ∧
    ∀ n ∈ ["files.links.txt".toList, "files.unknown.txt".toList, "files.exported.txt".toList],
      t.get? (root ++ [x.name] ++ ["cdragon".toList, n]) ≠ some .dir

/-! ## Exports -/

/-- A patch with the files it is made of, and its version -/
structure PatchSrc extends PatchDir where
  raw : Exporter
  version : Version

/-- `exporter` is what is kept of the files, and they can be written together. -/
structure PatchSrc.Valid (x : PatchSrc) : Prop where
  raw : x.raw.plain.WF ∧ x.raw.wads.WF
  kept : transform x.raw x.version = .ok x.exporter
  version : ∃ langs, langSubdirs x.version = .ok langs
  sound : x.toPatchDir.Sound

/-- `x` can be exported on top of `p`: same layout, same names for the same hashes, and what did not change is converted to the same content. -/
structure Follows (x p : PatchSrc) : Prop where
  layout : langSubdirs x.version = langSubdirs p.version
  names : SameNames x.raw p.raw
  content : SameContent x.toPatchDir p.toPatchDir

/-- Sets are iterated on in any order, and sorting does not change the items. -/
structure ExportEnv.Ok (env : ExportEnv) : Prop where
  iter : ∀ l q, q ∈ env.iter l ↔ q ∈ l
  iterPaths : ∀ l q, q ∈ env.iterPaths l ↔ q ∈ l
  sortPaths : ∀ l q, q ∈ env.sortPaths l ↔ q ∈ l

/-- The export of a patch on top of another one, if any -/
def PatchSrc.export (x : PatchSrc) (env : ExportEnv) (root : List Str) (prev : Option PatchSrc) (t : DirTree) : DirTree × Res Unit :=
  processPatch env root x.name x.raw x.version x.conv (prev.map fun p => (p.name, p.raw, p.version)) t

/-- What is going to be written -/
def PatchSrc.plan (x : PatchSrc) (env : ExportEnv) (prev : Option PatchSrc) : Res Plan :=
  exportPlan env.iter env.sortHashes env.sortPaths x.raw x.version (prev.map fun p => (p.raw, p.version)) prev.isSome

/-- The name of the directory of the previous patch -/
def prevName (prev : Option PatchSrc) : Str := (prev.map fun p => p.name).getD []

/-- The directory of `x` can be used for its export. -/
def UsableFor (t : DirTree) (root : List Str) (env : ExportEnv) (x : PatchSrc) (prev : Option PatchSrc) : Prop :=
  ∀ plan, x.plan env prev = .ok plan → Usable t root x.toPatchDir (prevName prev) plan

/-- There is room in it. -/
def FitsFor (t : DirTree) (root : List Str) (env : ExportEnv) (x : PatchSrc) (prev : Option PatchSrc) : Prop :=
  ∀ plan, x.plan env prev = .ok plan → Fits t root x.toPatchDir plan

/-- States of the disk when exported patches are in the directories `names` of `root`, the last one first. Each patch is exported on top of a patch which is already
there, or from scratch. The last one may be exported again: it is forgotten, not removed. Anything may happen outside of these directories. -/
inductive History (env : ExportEnv) (root : List Str) : DirTree → List PatchSrc → Prop
  | start (t : DirTree) : DiskOk t → RootOk t root → (∀ c ∈ root, PlainName c) → History env root t []
  | exported (t t' : DirTree) (ps : List PatchSrc) (x : PatchSrc) (prev : Option PatchSrc) : History env root t ps → x.Valid →
      (∀ p ∈ ps, p.name ≠ x.name) → (∀ p ∈ prev, p ∈ ps ∧ Follows x p) → UsableFor t root env x prev →
      x.export env root prev t = (t', .ok ()) → History env root t' (x :: ps)
  | elsewhere (t t' : DirTree) (ps : List PatchSrc) : History env root t ps → DiskOk t' → RootOk t' root →
      (∀ p ∈ ps, ∀ r, t'.get? (root ++ p.name :: r) = t.get? (root ++ p.name :: r)) → History env root t' ps
  | forget (t : DirTree) (ps : List PatchSrc) (x : PatchSrc) : History env root t (x :: ps) → History env root t ps

/-- States in which an export may stop, once extra files are removed: some files and symlinks are written, with their directories. A file may be incomplete. -/
inductive Stopped (env : ExportEnv) (root : List Str) (x : PatchSrc) (prev : Option PatchSrc) (plan : Plan) (t : DirTree) : DirTree → Prop
  | cut (k m n : Nat) : Stopped env root x prev plan t
      (runTree root x.name (prevName prev) (cleanAt env.iterPaths t (root ++ [x.name]) plan.kept plan.links)
        ((exportFiles x.conv plan.exporter).take k) (plan.links.take m) ((cdragonFiles env.enc plan).take n)).1
  | torn (t1 : DirTree) (r : List Str) (b b' : Bytes) : Stopped env root x prev plan t t1 →
      t1.get? (root ++ [x.name] ++ r) = some (.file b) → Stopped env root x prev plan t (t1.set (root ++ [x.name] ++ r) (.file b'))
  | created (t1 : DirTree) (f : List Str × Bytes) : Stopped env root x prev plan t t1 → f ∈ exportFiles x.conv plan.exporter ++ cdragonFiles env.enc plan →
      t1.get? (root ++ [x.name] ++ f.1) = none → t1.get? (root ++ [x.name] ++ f.1).dropLast = some .dir →
      Stopped env root x prev plan t (t1.set (root ++ [x.name] ++ f.1) (.file []))
  | mkdir (t1 : DirTree) (r q : List Str) : Stopped env root x prev plan t t1 →
      ((∃ f ∈ exportFiles x.conv plan.exporter ++ cdragonFiles env.enc plan, q = f.1) ∨ ∃ s ∈ plan.links, q = splitChar '/' s) → r <+: q → r ≠ q →
      t1.get? (root ++ [x.name] ++ r) = none → t1.get? (root ++ [x.name] ++ r).dropLast = some .dir →
      Stopped env root x prev plan t (t1.set (root ++ [x.name] ++ r) .dir)

end Cdtb
