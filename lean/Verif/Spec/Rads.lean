import Verif.Py.Str
/-!
# Specification of RADS solution manifests

A solution manifest is a text file. Its lines are: a magic line, a format version, the name and the version of the
solution; the number of projects and four lines for each (name, version, `0` if required or `10`, `0`); the number of
languages and for each of them the language, `0`, the number of projects it depends on and their names, one by line.
-/
namespace Cdtb.Spec
set_option autoImplicit false
open Py

/-- Content of a solution manifest -/
structure SolManifest where
  name : Str
  version : Str
  /-- name, version, required -/
  projects : List (Str × Str × Bool)
  /-- language, names of projects -/
  langs : List (Str × List Str)

/-- Lines of a project -/
def projectLines (p : Str × Str × Bool) : List Str := [p.1, p.2.1, if p.2.2 then ['0'] else ['1', '0'], ['0']]

/-- Lines of a language -/
def langLines (l : Str × List Str) : List Str := [l.1, ['0'], showInt l.2.length] ++ l.2

/-- Lines of a manifest -/
def SolManifest.lines (m : SolManifest) : List Str :=
  ["RADS Solution Manifest".toList, "1.0.0.0".toList, m.name, m.version, showInt m.projects.length] ++
  m.projects.flatMap projectLines ++ [showInt m.langs.length] ++ m.langs.flatMap langLines

/-- The version of a project declared in a manifest (the last one if a project is declared several times) -/
def SolManifest.versionOf (m : SolManifest) (project : Str) : Option Str :=
  (m.projects.reverse.find? fun p => p.1 = project).map fun p => p.2.1

/-- The projects of a language (the last ones if a language is given several times) -/
def SolManifest.depsOf (m : SolManifest) (lang : Str) : Option (List Str) :=
  (m.langs.reverse.find? fun l => l.1 = lang).map fun l => l.2

/-- The required projects -/
def SolManifest.required (m : SolManifest) : List Str := (m.projects.filter fun p => p.2.2).map fun p => p.1

end Cdtb.Spec
