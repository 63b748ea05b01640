import Verif.Spec.BinType
/-!
# Specification: layout of BIN files

`Encodes version t v bs`: `bs` is a representation of the value `v` as type `t` in files of a game version.
Only the types of values are shared with the model. The size fields of complex values are not used by the code:
any value is accepted there.
-/
namespace Cdtb.Spec
set_option autoImplicit false
open Py

/-- Width of signed integer types -/
def signedWidth : BinType → Option Nat
  | .s8 => some 1 | .s16 => some 2 | .s32 => some 4 | .s64 => some 8 | _ => none

/-- Width of unsigned integer types -/
def unsignedWidth : BinType → Option Nat
  | .u8 => some 1 | .u16 => some 2 | .u32 => some 4 | .u64 => some 8 | .flag => some 1 | _ => none

/-- Number of components of float vectors -/
def vecLength : BinType → Option Nat
  | .vec2 => some 2 | .vec3 => some 3 | .vec4 => some 4 | _ => none

/-- A text: its length in bytes, on 16 bits, then its UTF-8 representation -/
def binText (s : Str) : Bytes := le 2 (utf8Bytes s).length ++ utf8Bytes s
def TextFits (s : Str) : Prop := (utf8Bytes s).length < 256 ^ 2
instance (s) : Decidable (TextFits s) := inferInstanceAs (Decidable (_ < _))

mutual
/-- Representations of a value of a given type -/
inductive Encodes (version : Nat) : BinType → BinValue → Bytes → Prop
  | empty (a b c : Nat) : a < 256 ^ 2 → b < 256 ^ 2 → c < 256 ^ 2 →
      Encodes version .empty (.tuple [a, b, c]) (le 2 a ++ (le 2 b ++ le 2 c))
  | bool (b : Bool) : Encodes version .bool (.bool b) [if b then 1 else 0]
  | sint (t : BinType) (w : Nat) (n : Int) : signedWidth t = some w →
      -((256 ^ w : Nat) / 2 : Int) ≤ n → n < ((256 ^ w : Nat) / 2 : Int) → Encodes version t (.int n) (leI w n)
  | uint (t : BinType) (w n : Nat) : unsignedWidth t = some w → n < 256 ^ w → Encodes version t (.int n) (le w n)
  | float (bits : Nat) : bits < 256 ^ 4 → Encodes version .float (.float bits) (le 4 bits)
  | vec (t : BinType) (l : List Nat) : vecLength t = some l.length → (∀ x ∈ l, x < 256 ^ 4) →
      Encodes version t (.floats l) (l.flatMap (le 4))
  | matrix (rows : List (List Nat)) : rows.length = 4 → (∀ r ∈ rows, r.length = 4 ∧ ∀ x ∈ r, x < 256 ^ 4) →
      Encodes version .matrix (.matrix rows) (rows.flatMap (fun r => r.flatMap (le 4)))
  | rgba (l : List Nat) : l.length = 4 → (∀ x ∈ l, x < 256) → Encodes version .rgba (.tuple l) (l.flatMap (le 1))
  | string (s : Str) : TextFits s → Encodes version .string (.str s) (binText s)
  | hash (h : Nat) : h < 256 ^ 4 → Encodes version .hash (.hashed .hash h) (le 4 h)
  | path (h : Nat) : h < 256 ^ 8 → Encodes version .path (.hashed .path h) (le 8 h)
  | link (h : Nat) : h < 256 ^ 4 → Encodes version .link (.hashed .entry h) (le 4 h)
  | list (t vt : BinType) (c size : Nat) (vs : List BinValue) (bs : Bytes) : t = .list ∨ t = .list2 →
      typeCode version vt = some c → size < 256 ^ 4 → vs.length < 256 ^ 4 → EncodesList version vt vs bs →
      Encodes version t (.list vt vs) (le 1 c ++ (le 4 size ++ (le 4 vs.length ++ bs)))
  | null : Encodes version .struct (.struct 0 []) (le 4 0)
  | struct (htype size : Nat) (fs : List BinField) (bs : Bytes) : htype ≠ 0 → htype < 256 ^ 4 → size < 256 ^ 4 →
      fs.length < 256 ^ 2 → EncodesFields version fs bs →
      Encodes version .struct (.struct htype fs) (le 4 htype ++ (le 4 size ++ (le 2 fs.length ++ bs)))
  | embedded (htype size : Nat) (fs : List BinField) (bs : Bytes) : htype < 256 ^ 4 → size < 256 ^ 4 →
      fs.length < 256 ^ 2 → EncodesFields version fs bs →
      Encodes version .embedded (.embedded htype fs) (le 4 htype ++ (le 4 size ++ (le 2 fs.length ++ bs)))
  | nothing (vt : BinType) (c : Nat) : typeCode version vt = some c →
      Encodes version .option (.option vt none) (le 1 c ++ [0])
  | something (vt : BinType) (c : Nat) (v : BinValue) (bs : Bytes) : typeCode version vt = some c →
      Encodes version vt v bs → Encodes version .option (.option vt (some v)) (le 1 c ++ ([1] ++ bs))
  /-- the keys of the pairs are different -/
  | map (kt vt : BinType) (ck cv size : Nat) (ps : List BinPair) (bs : Bytes) : typeCode version kt = some ck →
      typeCode version vt = some cv → size < 256 ^ 4 → ps.length < 256 ^ 4 →
      ps.Pairwise (fun p q => p.key.sameKey q.key = false) → EncodesPairs version kt vt ps bs →
      Encodes version .map (.map kt vt ps) (le 1 ck ++ (le 1 cv ++ (le 4 size ++ (le 4 ps.length ++ bs))))
/-- Values of the same type, one after the other -/
inductive EncodesList (version : Nat) : BinType → List BinValue → Bytes → Prop
  | nil (t : BinType) : EncodesList version t [] []
  | cons (t : BinType) (v : BinValue) (b : Bytes) (vs : List BinValue) (bs : Bytes) : Encodes version t v b →
      EncodesList version t vs bs → EncodesList version t (v :: vs) (b ++ bs)
/-- Fields, one after the other: hash of the name, type and value -/
inductive EncodesFields (version : Nat) : List BinField → Bytes → Prop
  | nil : EncodesFields version [] []
  | cons (name : Nat) (t : BinType) (c : Nat) (v : BinValue) (b : Bytes) (fs : List BinField) (bs : Bytes) :
      name < 256 ^ 4 → typeCode version t = some c → Encodes version t v b → EncodesFields version fs bs →
      EncodesFields version (.mk name t v :: fs) ((le 4 name ++ (le 1 c ++ b)) ++ bs)
/-- Pairs, one after the other -/
inductive EncodesPairs (version : Nat) : BinType → BinType → List BinPair → Bytes → Prop
  | nil (kt vt : BinType) : EncodesPairs version kt vt [] []
  | cons (kt vt : BinType) (k v : BinValue) (bk bv : Bytes) (ps : List BinPair) (bs : Bytes) : Encodes version kt k bk →
      Encodes version vt v bv → EncodesPairs version kt vt ps bs →
      EncodesPairs version kt vt (.mk k v :: ps) ((bk ++ bv) ++ bs)
end

/-- An entry: the number of bytes that follow the length, the hash of the path, the number of fields, and the
fields. The type is not there, but at the start of the file. -/
inductive EncodesEntry (version : Nat) : BinEntry → Bytes → Prop
  | mk (path type : Nat) (fs : List BinField) (bs : Bytes) : path < 256 ^ 4 → type < 256 ^ 4 → fs.length < 256 ^ 2 →
      bs.length + 6 < 256 ^ 4 → EncodesFields version fs bs →
      EncodesEntry version { path, type, fields := fs } (le 4 (bs.length + 6) ++ (le 4 path ++ (le 2 fs.length ++ bs)))

/-- An item of the patch section: the entry, an unused word, the type, the text and the value. -/
inductive EncodesPatch (version : Nat) : Nat × BinPatchField → Bytes → Prop
  | mk (hpath unused c : Nat) (f : BinPatchField) (b : Bytes) : hpath < 256 ^ 4 → unused < 256 ^ 4 →
      typeCode version f.type = some c → TextFits f.path → Encodes version f.type f.value b →
      EncodesPatch version (hpath, f) (le 4 hpath ++ (le 4 unused ++ (le 1 c ++ (binText f.path ++ b))))

/-- Linked files, in versions from 2 -/
def linkedBytes (version : Nat) (linked : List Str) : Bytes :=
  if version ≥ 2 then le 4 linked.length ++ linked.flatMap binText else []

/-- Header of patch files -/
def binPrefix (isPatch : Bool) : Bytes :=
  if isPatch then [80, 84, 67, 72] ++ (le 4 1 ++ le 4 0) else []

/-- The patch section, in patch files of versions from 3 -/
def patchBytes (isPatch : Bool) (version : Nat) (items : List Bytes) : Bytes :=
  if isPatch ∧ version ≥ 3 then le 4 items.length ++ items.flatten else []

/-- A BIN file: the header, the linked files, the types of the entries, the entries, the patches. -/
def binFileBytes (isPatch : Bool) (version : Nat) (linked : List Str) (types : List Nat) (entries items : List Bytes) : Bytes :=
  binPrefix isPatch ++ ([80, 82, 79, 80] ++ (le 4 version ++ (linkedBytes version linked ++
    (le 4 types.length ++ (types.flatMap (le 4) ++ (entries.flatten ++ patchBytes isPatch version items))))))

/-- The elements of a list, without repetition, in the order of their first occurrences -/
def firsts : List Nat → List Nat
  | [] => []
  | x :: l => x :: (firsts l).filter (fun y => decide (y ≠ x))

/-- Patches of the same entry are grouped, in the order of the file. -/
def groupPatches (items : List (Nat × BinPatchField)) : List BinPatchEntry :=
  (firsts (items.map (·.1))).map (fun p =>
    { path := p, fields := (items.filter (fun x => decide (x.1 = p))).map (·.2) })

end Cdtb.Spec
