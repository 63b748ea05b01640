import Verif.Py.Str
/-!
# Cleaning of the output directory (cdtb/export.py:110-132, 221-259)

A directory tree is the dict of its objects, by parts of their paths relative to the output directory; `[]` is the
output directory itself. Ancestors of the output directory are not modelled (`os.removedirs` also removes the ones that
become empty), nor are failures of `os.remove` and objects of other kinds.
-/
namespace Cdtb
set_option autoImplicit false
open Py

/-- An object in a directory -/
inductive FNode where
  | file (b : Bytes)
  | link (target : Str)
  | dir
deriving DecidableEq, Repr

/-- Objects by path; `os.scandir` order is the order of the dict. -/
abbrev DirTree := Dict (List Str) FNode

/-- `os.scandir(base)`: the paths of the objects directly inside a directory -/
def scandir (t : DirTree) (base : List Str) : List (List Str × FNode) :=
  t.filter (fun e => decide (e.1 ≠ [] ∧ e.1.dropLast = base))

/-- The objects yielded in one directory: symlinks and files (cdtb/export.py:127-128) -/
def yielded (entries : List (List Str × FNode)) : List (List Str) :=
  (entries.filter (fun e => decide (e.2 ≠ .dir))).map (·.1)

/-- The directories to visit next (cdtb/export.py:129-132) -/
def subdirs (skip : List Str) (entries : List (List Str × FNode)) : List (List Str) :=
  (entries.filter (fun e => decide (e.2 = .dir) && !skip.contains (join ['/'] e.1))).map (·.1)

/-- The loop of `walk_output_dir` (cdtb/export.py:122-132); the top of the stack is the head of the list. -/
def walkGo (t : DirTree) (skip : List Str) : Nat → List (List Str) → List (List Str)
  | 0, _ => []
  | _, [] => []
  | fuel + 1, base :: stack =>
    yielded (scandir t base) ++ walkGo t skip fuel ((subdirs skip (scandir t base)).reverse ++ stack)

/-- `Exporter.walk_output_dir` (cdtb/export.py:110-132); there are no more directories than objects. -/
def walkOutput (t : DirTree) (skip : List Str) : List (List Str) :=
  if t.contains [] then walkGo t skip (t.length + 1) [[]] else []

/-- Files and symlinks to remove (cdtb/export.py:232-243). What the walk yields is never a directory, so that
`trees_to_remove` stays empty. -/
def toRemove (t : DirTree) (keptFiles keptLinks : List Str) : List (List Str) :=
  (walkOutput t keptFiles).filter (fun p =>
    match t.get? p with
    | some (.link _) => !keptLinks.contains (join ['/'] p)
    | _ => !keptFiles.contains (join ['/'] p))

/-- `os.rmdir` of an empty directory; `none` for an `OSError` -/
def rmdir (t : DirTree) (d : List Str) : Option DirTree :=
  match t.get? d with
  | some .dir => if (scandir t d).isEmpty then some (t.erase d) else none
  | _ => none

/-- `os.removedirs(d)`, with its `OSError` ignored (cdtb/export.py:255-259): removes a directory, then its parents, until
one is not empty. The depth bounds the number of steps. -/
def removedirsGo : Nat → DirTree → List Str → DirTree
  | 0, t, _ => t
  | fuel + 1, t, d =>
    match rmdir t d with
    | none => t
    | some t' => if d = [] then t' else removedirsGo fuel t' d.dropLast
def removedirs (t : DirTree) (d : List Str) : DirTree := removedirsGo (d.length + 1) t d

/-- `Exporter.clean_output_dir` (cdtb/export.py:221-259); `iter` is the iteration order of the set of directories -/
def cleanOutput (iter : List (List Str) → List (List Str)) (t : DirTree) (keptFiles keptLinks : List Str) : DirTree :=
  let files := toRemove t keptFiles keptLinks
  let t1 := files.foldl Dict.erase t
  (iter (files.map List.dropLast)).foldl removedirs t1

example : cleanOutput (fun l => l) [([], .dir), (["a".toList], .dir), (["a".toList, "x".toList], .file []),
      (["b".toList], .dir), (["b".toList, "y".toList], .file []), (["c".toList], .link [])] ["b/y".toList] ["c".toList] =
    [([], .dir), (["b".toList], .dir), (["b".toList, "y".toList], .file []), (["c".toList], .link [])] := by decide +kernel

end Cdtb
