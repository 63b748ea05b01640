import Verif.Py.Struct
/-!
# Specification: layout of WAD files

Offsets and widths of the fields of the file formats, written as encoders.
-/
namespace Cdtb.Spec
set_option autoImplicit false

/-- One file of a WAD archive -/
structure WadRecord where
  hash : Nat
  offset : Nat
  compressedSize : Nat
  size : Nat
  type : Nat
  subchunks : Nat
  duplicate : Bool
  first : Nat
  checksum : Nat

/-- Kinds of entry tables: version 1; versions 2 to 3.3; versions from 3.4. -/
inductive WadFormat where | v1 | v2 | v34
deriving DecidableEq

/-- Entry table of each supported version. -/
def wadFormat (major minor : Nat) : Option WadFormat :=
  if major = 1 then some .v1
  else if major = 2 then some .v2
  else if major = 3 then (if minor ≤ 3 then some .v2 else some .v34)
  else none

/-- Length of the part of the header that precedes the number of entries. -/
def wadHeaderLength (major : Nat) : Nat := if major = 1 then 8 else if major = 2 then 100 else 268

/-- Ranges of the fields: the type and the number of subchunks take 4 bits each. -/
structure WadRecord.Fits (f : WadFormat) (r : WadRecord) : Prop where
  hash : r.hash < 256 ^ 8
  offset : r.offset < 256 ^ 4
  compressedSize : r.compressedSize < 256 ^ 4
  size : r.size < 256 ^ 4
  type : r.type < 16
  subchunks : r.subchunks < 16
  first : match f with
    | .v1 => True
    | .v2 => r.first < 256 ^ 2
    | .v34 => r.first < 256 ^ 3
  checksum : r.checksum < 256 ^ 8

/-- Layout of an entry. -/
def WadRecord.encode (f : WadFormat) (r : WadRecord) : Bytes :=
  le 8 r.hash ++ le 4 r.offset ++ le 4 r.compressedSize ++ le 4 r.size ++
  match f with
  | .v1 => le 4 (16 * r.subchunks + r.type)
  | .v2 => le 1 (16 * r.subchunks + r.type) ++ [if r.duplicate then 1 else 0] ++ le 2 r.first ++ le 8 r.checksum
  | .v34 => le 1 (16 * r.subchunks + r.type) ++ le 1 (r.first / 65536) ++ le 2 (r.first % 65536) ++ le 8 r.checksum

/-- A WAD file: magic `RW`, version, the rest of the header, the number of entries, the entries, and
anything after that. -/
def wadFile (f : WadFormat) (major minor : Nat) (filler : Bytes) (rs : List WadRecord) (trailing : Bytes) : Bytes :=
  [0x52, 0x57] ++ le 1 major ++ le 1 minor ++ filler ++ le 4 rs.length ++
    (rs.map (WadRecord.encode f)).flatten ++ trailing

/-! ## Subchunks -/

/-- An entry of the table of subchunks. -/
structure SubchunkRecord where
  compressedSize : Nat
  size : Nat
  hash : Nat

/-- Layout of an entry of the table of subchunks. -/
def SubchunkRecord.encode (r : SubchunkRecord) : Bytes := le 4 r.compressedSize ++ le 4 r.size ++ le 8 r.hash

/-- Bytes `[a, b)`. -/
def slice (a b : Nat) (bs : Bytes) : Bytes := (bs.take b).drop a

/-- Entry number `i` of a table of subchunks. -/
def subchunkRecord (toc : Bytes) (i : Nat) : SubchunkRecord :=
  { compressedSize := leNat (slice (16 * i) (16 * i + 4) toc)
    size := leNat (slice (16 * i + 4) (16 * i + 8) toc)
    hash := leNat (slice (16 * i + 8) (16 * i + 16) toc) }

/-- Entries `first` to `first + count - 1`. -/
def subchunkRecords (toc : Bytes) (first count : Nat) : List SubchunkRecord :=
  (List.range count).map fun k => subchunkRecord toc (first + k)

/-- Consecutive pieces of the given sizes; shorter ones when there is not enough data. -/
def cut : List Nat → Bytes → List Bytes
  | [], _ => []
  | n :: ns, data => data.take n :: cut ns (data.drop n)

end Cdtb.Spec
