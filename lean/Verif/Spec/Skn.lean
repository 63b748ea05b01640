import Verif.Model.Skn
/-!
# Specification: layout of SKN files

Only the records (`SknVertex`, `SknObject`) are shared with the model.
-/
namespace Cdtb.Spec
set_option autoImplicit false
open Py

def pair (w : Nat) (p : Nat × Nat) : Bytes := le w p.1 ++ le w p.2
def triple (w : Nat) (p : Nat × Nat × Nat) : Bytes := le w p.1 ++ pair w p.2
def quad (w : Nat) (p : Nat × Nat × Nat × Nat) : Bytes := le w p.1 ++ triple w p.2

def Fits2 (w : Nat) (p : Nat × Nat) : Prop := p.1 < 256 ^ w ∧ p.2 < 256 ^ w
def Fits3 (w : Nat) (p : Nat × Nat × Nat) : Prop := p.1 < 256 ^ w ∧ Fits2 w p.2
def Fits4 (w : Nat) (p : Nat × Nat × Nat × Nat) : Prop := p.1 < 256 ^ w ∧ Fits3 w p.2

instance (w p) : Decidable (Fits2 w p) := inferInstanceAs (Decidable (_ ∧ _))
instance (w p) : Decidable (Fits3 w p) := inferInstanceAs (Decidable (_ ∧ _))
instance (w p) : Decidable (Fits4 w p) := inferInstanceAs (Decidable (_ ∧ _))

def optional (w : Nat) : Option (Nat × Nat × Nat × Nat) → Bytes
  | some q => quad w q
  | none => []

/-- Layout of a vertex -/
def sknVertexBytes (v : SknVertex) : Bytes :=
  triple 4 v.position ++ (quad 1 v.bones ++ (quad 4 v.weight ++ (triple 4 v.normal ++ (pair 4 v.uv ++
    (optional 1 v.color ++ optional 4 v.tangent)))))

/-- A vertex that can be written, with the optional fields of its vertex type: a color for types from 1, a
tangent for type 2; none of them in files without vertex type. -/
structure SknVertexFits (type : Option Nat) (v : SknVertex) : Prop where
  position : Fits3 4 v.position
  bones : Fits4 1 v.bones
  weight : Fits4 4 v.weight
  normal : Fits3 4 v.normal
  uv : Fits2 4 v.uv
  color : match v.color with
    | some q => Fits4 1 q ∧ ∃ t, type = some t ∧ 1 ≤ t
    | none => ∀ t, type = some t → t = 0
  tangent : match v.tangent with
    | some q => Fits4 4 q ∧ type = some 2
    | none => type ≠ some 2

/-- Layout of a submesh: its name on 64 bytes, and its ranges -/
def sknObjectBytes (o : SknObject) : Bytes :=
  (utf8Bytes o.name ++ List.replicate (64 - (utf8Bytes o.name).length) 0) ++ (le 4 o.startVertex ++
    (le 4 o.vertexCount ++ (le 4 o.startIndex ++ le 4 o.indexCount)))

structure SknObjectFits (o : SknObject) : Prop where
  name : (utf8Bytes o.name).length ≤ 64
  noNul : ∀ c ∈ o.name, c ≠ '\x00'
  startVertex : o.startVertex < 256 ^ 4
  vertexCount : o.vertexCount < 256 ^ 4
  startIndex : o.startIndex < 256 ^ 4
  indexCount : o.indexCount < 256 ^ 4

/-- A file of version 0: counts, indices and vertices -/
def sknFileOld (minor : Nat) (raws : List Nat) (vertices : List SknVertex) : Bytes :=
  [0x33, 0x22, 0x11, 0x00] ++ (le 2 0 ++ (le 2 minor ++ (le 4 raws.length ++ (le 4 vertices.length ++
    (raws.flatMap (le 2) ++ vertices.flatMap sknVertexBytes)))))

/-- A file of version 1 to 3: submeshes, counts, indices and vertices -/
def sknFileMid (major minor : Nat) (objects : List SknObject) (raws : List Nat) (vertices : List SknVertex) : Bytes :=
  [0x33, 0x22, 0x11, 0x00] ++ (le 2 major ++ (le 2 minor ++ (le 4 objects.length ++ (objects.flatMap sknObjectBytes ++
    (le 4 raws.length ++ (le 4 vertices.length ++ (raws.flatMap (le 2) ++ vertices.flatMap sknVertexBytes)))))))

/-- A file of version 4: the same with an unknown word before the counts, and after them the vertex size, the
vertex type and the bounding box and sphere -/
def sknFileV4 (minor : Nat) (objects : List SknObject) (unknown size type : Nat) (boxMin boxMax sphere : Nat × Nat × Nat)
    (radius : Nat) (raws : List Nat) (vertices : List SknVertex) : Bytes :=
  [0x33, 0x22, 0x11, 0x00] ++ (le 2 4 ++ (le 2 minor ++ (le 4 objects.length ++ (objects.flatMap sknObjectBytes ++
    (le 4 unknown ++ (le 4 raws.length ++ (le 4 vertices.length ++ (le 4 size ++ (le 4 type ++ (triple 4 boxMin ++
      (triple 4 boxMax ++ (triple 4 sphere ++ (le 4 radius ++
        (raws.flatMap (le 2) ++ vertices.flatMap sknVertexBytes))))))))))))))

/-- Cut a list in groups of three -/
def triples : List Nat → Option (List (Nat × Nat × Nat))
  | [] => some []
  | a :: b :: c :: rest => (triples rest).map ((a, b, c) :: ·)
  | _ => none

/-- Text of a reference to the vertex `n` (position, texture coordinates and normal) -/
def objRef (n : Nat) : Str := join ['/'] [showNat 10 n, showNat 10 n, showNat 10 n]

/-- Line of a face. The second reference is followed by a stray slash. -/
def objFaceLine (f : Nat × Nat × Nat) : Str :=
  join [' '] ["f".toList, objRef f.1, objRef f.2.1 ++ ['/'], objRef f.2.2] ++ ['\n']

/-- Lines of a vertex -/
def objVertexLines (showF : Nat → Str) (v : SknVertex) : Str :=
  join [' '] ["v".toList, showF v.position.1, showF v.position.2.1, showF v.position.2.2] ++ ['\n'] ++
  join [' '] ["vt".toList, showF v.uv.1, showF v.uv.2] ++ ['\n'] ++
  join [' '] ["vn".toList, showF v.normal.1, showF v.normal.2.1, showF v.normal.2.2] ++ ['\n']

end Cdtb.Spec
