import Verif.Py.Struct
import Verif.Py.Utf8
import Verif.Py.Str
/-!
# Model of `cdtb/sknfile.py`

Floats are their 32-bit patterns; their text (`%s`) is a parameter.
-/
namespace Cdtb
set_option autoImplicit false
open Py

/-- A vertex (cdtb/sknfile.py:63-72) -/
structure SknVertex where
  position : Nat × Nat × Nat
  bones : Nat × Nat × Nat × Nat
  weight : Nat × Nat × Nat × Nat
  normal : Nat × Nat × Nat
  uv : Nat × Nat
  color : Option (Nat × Nat × Nat × Nat)
  tangent : Option (Nat × Nat × Nat × Nat)
deriving DecidableEq

/-- A submesh as read from the file (cdtb/sknfile.py:54-61) -/
structure SknObject where
  name : Str
  startVertex : Nat
  vertexCount : Nat
  startIndex : Nat
  indexCount : Nat
deriving DecidableEq

/-- A submesh with its geometry: an item of `SknFile.entries` (cdtb/sknfile.py:41-52) -/
structure SknEntry where
  name : Str
  vertices : List SknVertex
  indices : List Nat
deriving DecidableEq

/-- An `SknFile`; the bounding box and sphere are read and not kept in the model. -/
structure Skn where
  major : Nat
  minor : Nat
  entries : List SknEntry
deriving DecidableEq

/-- `f.unpack("<ff")`, `<fff`, `<ffff`, `<BBBB`: `w` is the size of an item. -/
def sknPair (w : Nat) : Rd (Nat × Nat) := do
  let a ← Rd.u w
  let b ← Rd.u w
  pure (a, b)
def sknTriple (w : Nat) : Rd (Nat × Nat × Nat) := do
  let a ← Rd.u w
  let p ← sknPair w
  pure (a, p)
def sknQuad (w : Nat) : Rd (Nat × Nat × Nat × Nat) := do
  let a ← Rd.u w
  let p ← sknTriple w
  pure (a, p)

/-- `x if cond else None` on a field (cdtb/sknfile.py:70-71) -/
def sknOptional (present : Bool) (w : Nat) : Rd (Option (Nat × Nat × Nat × Nat)) :=
  match present with
  | true => do
    let q ← sknQuad w
    pure (some q)
  | false => pure none

/-- `SknFile.read_vertex` (cdtb/sknfile.py:63-72); `type` is `self.vertex_type`, when the attribute exists -/
def sknVertex (type : Option Nat) : Rd SknVertex := do
  let position ← sknTriple 4
  let bones ← sknQuad 1
  let weight ← sknQuad 4
  let normal ← sknTriple 4
  let uv ← sknPair 4
  let color ← sknOptional (match type with | some t => decide (t ≥ 1) | none => false) 1
  let tangent ← sknOptional (match type with | some t => decide (t = 2) | none => false) 4
  pure { position, bones, weight, normal, uv, color, tangent }

/-- `b.split(b"\0", 1)[0]` -/
def untilNul (b : Bytes) : Bytes := b.takeWhile (fun c => decide (c ≠ 0))

/-- `SknFile.read_object` (cdtb/sknfile.py:54-61) -/
def sknObject : Rd SknObject := do
  let b ← Rd.exact 64
  let name ← Rd.lift (utf8 (untilNul b))
  let startVertex ← Rd.u 4
  let vertexCount ← Rd.u 4
  let startIndex ← Rd.u 4
  let indexCount ← Rd.u 4
  pure { name, startVertex, vertexCount, startIndex, indexCount }

/-- `f.unpack("<H")[0] + 1` (cdtb/sknfile.py:17,38) -/
def sknIndex : Rd Nat := do
  let n ← Rd.u 2
  pure (n + 1)

/-- The geometry of a submesh (cdtb/sknfile.py:41-46) -/
def sknEntry (indices : List Nat) (vertices : List SknVertex) (o : SknObject) : SknEntry where
  name := o.name
  vertices := (vertices.take (o.startVertex + o.vertexCount)).drop o.startVertex
  indices := ((indices.take (o.startIndex + o.indexCount)).drop o.startIndex).map
    (fun x => x - (if x < o.startVertex then 0 else o.startVertex))

/-- Files of version 0 (cdtb/sknfile.py:15-20) -/
def sknOld (minor : Nat) : Rd Skn := do
  let indexCount ← Rd.u 4
  let vertexCount ← Rd.u 4
  let indices ← Rd.times sknIndex indexCount
  let vertices ← Rd.times (sknVertex none) vertexCount
  pure { major := 0, minor, entries := [{ name := "Unknown".toList, vertices, indices }] }

/-- The fields between the submeshes and the counts (cdtb/sknfile.py:25-26) -/
def sknUnknown (major : Nat) : Rd Unit :=
  if major = 4 then do
    let _ ← Rd.u 4
    pure ()
  else pure ()

/-- The fields between the counts and the indices (cdtb/sknfile.py:30-36): the vertex type -/
def sknVertexType (major : Nat) : Rd (Option Nat) :=
  if major = 4 then do
    let _size ← Rd.u 4
    let type ← Rd.u 4
    let _boxMin ← sknTriple 4
    let _boxMax ← sknTriple 4
    let _sphere ← sknTriple 4
    let _radius ← Rd.u 4
    pure (some type)
  else pure none

/-- Files of the other versions (cdtb/sknfile.py:22-52) -/
def sknNew (major minor : Nat) : Rd Skn := do
  let count ← Rd.u 4
  let objects ← Rd.times sknObject count
  sknUnknown major
  let indexCount ← Rd.u 4
  let vertexCount ← Rd.u 4
  let type ← sknVertexType major
  let indices ← Rd.times sknIndex indexCount
  let vertices ← Rd.times (sknVertex type) vertexCount
  pure { major, minor, entries := objects.map (sknEntry indices vertices) }

/-- The magic code (cdtb/sknfile.py:8-9) -/
def sknMagic (b : Bytes) : Rd Unit := if b ≠ [0x33, 0x22, 0x11, 0x00] then Rd.fail .value else pure ()

/-- `SknFile.__init__` on a file object (cdtb/sknfile.py:5-52) -/
def parseSkn : Rd Skn := do
  let b ← Rd.raw 4
  sknMagic b
  let major ← Rd.u 2
  let minor ← Rd.u 2
  if major = 0 then sknOld minor else sknNew major minor

/-- The lines of a vertex (cdtb/sknfile.py:76-79); `showF` is the text of a float -/
def objVertex (showF : Nat → Str) (v : SknVertex) : Str :=
  "v ".toList ++ showF v.position.1 ++ " ".toList ++ showF v.position.2.1 ++ " ".toList ++ showF v.position.2.2 ++ "\n".toList ++
  "vt ".toList ++ showF v.uv.1 ++ " ".toList ++ showF v.uv.2 ++ "\n".toList ++
  "vn ".toList ++ showF v.normal.1 ++ " ".toList ++ showF v.normal.2.1 ++ " ".toList ++ showF v.normal.2.2 ++ "\n".toList

/-- `"f {0}/{0}/{0} {1}/{1}/{1}/ {2}/{2}/{2}\n".format(a, b, c)` (cdtb/sknfile.py:83) -/
def objFace (a b c : Nat) : Str :=
  let s := showNat 10
  "f ".toList ++ s a ++ "/".toList ++ s a ++ "/".toList ++ s a ++ " ".toList ++
  s b ++ "/".toList ++ s b ++ "/".toList ++ s b ++ "/ ".toList ++
  s c ++ "/".toList ++ s c ++ "/".toList ++ s c ++ "\n".toList

/-- The loop on indices, by slices of three (cdtb/sknfile.py:81-83): a slice that does not have three items
raises `ValueError`. -/
def objFaces (content : Str) : List Nat → Res Str
  | [] => .ok content
  | a :: b :: c :: rest => objFaces (content ++ objFace a b c) rest
  | _ => .error .value

/-- `SknFile.to_obj` (cdtb/sknfile.py:74-85) -/
def toObj (showF : Nat → Str) (e : SknEntry) : Res Str :=
  objFaces (e.vertices.foldl (fun content v => content ++ objVertex showF v) []) e.indices

end Cdtb
