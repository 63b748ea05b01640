import Verif.Spec.Skn
import Verif.Py.FS
/-!
# Specification: what `skn-extract` writes
-/
namespace Cdtb.Spec
set_option autoImplicit false
open Py

/-- The text of a submesh in OBJ format: three lines for each vertex, then a line for each face -/
def ObjText (showF : Nat → Str) (e : SknEntry) (t : Str) : Prop :=
  ∃ faces : List (Nat × Nat × Nat), e.indices = faces.flatMap (fun f => [f.1, f.2.1, f.2.2]) ∧
    t = e.vertices.flatMap (objVertexLines showF) ++ faces.flatMap objFaceLine

/-- Where the submesh `name` is written: in the directory `out`, unless the name is an absolute path -/
def objPath (out name : Str) : Str :=
  if name.head? = some '/' then name ++ ".obj".toList
  else if out = [] ∨ out.getLast? = some '/' then out ++ name ++ ".obj".toList
  else out ++ '/' :: name ++ ".obj".toList

/-- All submeshes `es` have a text, and `fs'` is `fs` with their files: each file has the text of the last submesh written to it -/
def Wrote (showF : Nat → Str) (out : Str) (es : List SknEntry) (fs fs' : FS) : Prop :=
  (∀ e ∈ es, ∃ t, ObjText showF e t) ∧
  ∀ q, (∃ before e after t, es = before ++ e :: after ∧ objPath out e.name = q ∧ (∀ x ∈ after, objPath out x.name ≠ q) ∧
          ObjText showF e t ∧ fs' q = some (.file (utf8Bytes t))) ∨
       ((∀ e ∈ es, objPath out e.name ≠ q) ∧ fs' q = fs q)

/-- `fs'` is `fs` with, possibly, the directory `out` and directories that contain it -/
def DirsMade (out : Str) (fs fs' : FS) : Prop :=
  ∀ q, fs' q = fs q ∨ ((q = out ∨ ∃ r, out = q ++ '/' :: r) ∧ fs q = none ∧ fs' q = some .dir)

/-- What the OBJ format keeps of a vertex -/
def shape (v : SknVertex) : (Nat × Nat × Nat) × (Nat × Nat) × (Nat × Nat × Nat) := (v.position, v.uv, v.normal)

/-- The floats of a vertex that the OBJ format keeps -/
def shapeFloats (v : SknVertex) : List Nat :=
  [v.position.1, v.position.2.1, v.position.2.2, v.uv.1, v.uv.2, v.normal.1, v.normal.2.1, v.normal.2.2]

/-- Texts of floats are words, and distinct floats have distinct texts -/
structure ClearFloats (showF : Nat → Str) (l : List Nat) : Prop where
  word : ∀ x ∈ l, ' ' ∉ showF x ∧ '\n' ∉ showF x
  inj : ∀ x ∈ l, ∀ y ∈ l, showF x = showF y → x = y

end Cdtb.Spec
