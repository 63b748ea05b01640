import Verif.Model.JsonRead
import Verif.Model.Wad
import Verif.Model.Cli
/-!
# `json.loads` on bytes (cdtb/wad.py:171; cdtb/patcher.py:391, 402), and JSON files

`json.loads` guesses the encoding (`json.detect_encoding`). As in `Model/JsonRead.lean`, lone surrogates are refused (Python decodes with `surrogatepass`), and the limits on
nesting and on digits of integers are not modelled.
-/
namespace Cdtb
set_option autoImplicit false
open Py

/-! ## Encodings -/

/-- Code units of UTF-16 (`bytes.decode('utf-16-be')`, `bytes.decode('utf-16-le')`; cdtb/wad.py:171) -/
def units16 (big : Bool) : Bytes → Option (List Nat)
  | [] => some []
  | [_] => none
  | a :: b :: r => do
    let l ← units16 big r
    some ((if big then a.toNat * 256 + b.toNat else b.toNat * 256 + a.toNat) :: l)

/-- Characters of code units (cdtb/wad.py:171) -/
def chars16 : List Nat → Option Str
  | [] => some []
  | [u] => if 0xD800 ≤ u ∧ u < 0xE000 then none else some [Char.ofNat u]
  | u :: v :: r =>
    if 0xD800 ≤ u ∧ u < 0xDC00 then
      if 0xDC00 ≤ v ∧ v < 0xE000 then do
        let s ← chars16 r
        some (Char.ofNat (0x10000 + (u - 0xD800) * 0x400 + (v - 0xDC00)) :: s)
      else none
    else if 0xDC00 ≤ u ∧ u < 0xE000 then none
    else do
      let s ← chars16 (v :: r)
      some (Char.ofNat u :: s)

/-- `bytes.decode('utf-16-be')` and `bytes.decode('utf-16-le')` (cdtb/wad.py:171) -/
def decode16 (big : Bool) (b : Bytes) : Option Str := do
  let l ← units16 big b
  chars16 l

/-- `bytes.decode('utf-32-be')` and `bytes.decode('utf-32-le')` (cdtb/wad.py:171) -/
def decode32 (big : Bool) : Bytes → Option Str
  | [] => some []
  | a :: b :: c :: d :: r =>
    let n := if big then ((a.toNat * 256 + b.toNat) * 256 + c.toNat) * 256 + d.toNat else ((d.toNat * 256 + c.toNat) * 256 + b.toNat) * 256 + a.toNat
    if n < 0xD800 ∨ (0xDFFF < n ∧ n < 0x110000) then do
      let s ← decode32 big r
      some (Char.ofNat n :: s)
    else none
  | _ => none

/-- `bytes.decode('utf-8')` (cdtb/wad.py:171) -/
def decode8 (b : Bytes) : Option Str := match utf8 b with
  | .ok s => some s
  | .error _ => none

/-- `b.decode(detect_encoding(b))` (cdtb/wad.py:171): byte order marks (of UTF-32 first), then null bytes -/
def decodeJson (b : Bytes) : Option Str :=
  if [0x00, 0x00, 0xFE, 0xFF].isPrefixOf b then decode32 true (b.drop 4)
  else if [0xFF, 0xFE, 0x00, 0x00].isPrefixOf b then decode32 false (b.drop 4)
  else if [0xFE, 0xFF].isPrefixOf b then decode16 true (b.drop 2)
  else if [0xFF, 0xFE].isPrefixOf b then decode16 false (b.drop 2)
  else if [0xEF, 0xBB, 0xBF].isPrefixOf b then decode8 (b.drop 3)
  else match b with
    | b0 :: b1 :: b2 :: b3 :: _ =>
      if b0 = 0 then if b1 ≠ 0 then decode16 true b else decode32 true b
      else if b1 = 0 then if b2 ≠ 0 ∨ b3 ≠ 0 then decode16 false b else decode32 false b
      else decode8 b
    | [b0, b1] => if b0 = 0 then decode16 true b else if b1 = 0 then decode16 false b else decode8 b
    | _ => decode8 b

/-- `json.loads(data)` with bytes (cdtb/wad.py:171); `none` for `JSONDecodeError` and `UnicodeDecodeError` -/
def loadsBytes (b : Bytes) : Option Json := do
  let s ← decodeJson b
  jsonLoads s

/-- The functions used by `wad.py`, with `json.loads` (cdtb/wad.py:170-174) -/
def Codecs.withJson (cx : Codecs) : Codecs := { cx with isJson := fun b => (loadsBytes b).isSome }

/-! ## Files -/

/-- Values of a configuration; others are not modelled: `ValueError` here (cdtb/storage.py:137). -/
def confValue : Json → Res CVal
  | .null => .ok .null
  | .bool b => .ok (.bool b)
  | .str s => .ok (.str s)
  | _ => .error .value

/-- `json.load(f)` for a storage configuration (cdtb/storage.py:136-137), a text file read as UTF-8. Values that are not objects are not modelled: `ValueError` here. -/
def confJson (b : Bytes) : Res Conf := do
  let s ← utf8 b
  match jsonLoads s with
  | some (.obj l) => l.mapM fun kv => do
    let v ← confValue kv.2
    .ok (kv.1, v)
  | _ => .error .value

/-- `json.load(f)['version']` (cdtb/storage.py:449-451), a text file read as UTF-8; `re.match` raises `TypeError` when it is not a text. -/
def metadataJson (b : Bytes) : Res Str := do
  let s ← utf8 b
  match jsonLoads s with
  | none => .error .value
  | some v => do
    let w ← v.field "version".toList
    match w with
    | .str x => .ok x
    | _ => .error .type

end Cdtb
