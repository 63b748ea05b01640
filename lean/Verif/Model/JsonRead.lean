import Verif.Model.GrepLcu
import Verif.Model.Releases
import Verif.Model.JsonText
/-!
# `json.loads` and `json.load` (cdtb/patcher.py:386, 391, 402, 481; cdtb/hashes.py:453, 700; cdtb/wad.py:171; cdtb/storage.py:137, 450)

The reader of the standard library (`_json.c`), a parameter of the other modules, is defined here. Numbers are given by their text. Not modelled: strings with
half of a surrogate pair (they are not texts; the model fails), the limit of the nesting (`RecursionError`) and the limit of the number of digits of integers.
-/
namespace Cdtb
set_option autoImplicit false
open Py

/-- Whitespace (`json.decoder.WHITESPACE`; cdtb/patcher.py:481) -/
def jsonWs (c : Char) : Bool := c = ' ' || c = '\t' || c = '\n' || c = '\r'

/-- Skip whitespace (cdtb/patcher.py:481) -/
def skipWs (t : Str) : Str := t.dropWhile jsonWs

/-! ## Strings -/

/-- Value of a hexadecimal digit (`\u` escapes; cdtb/patcher.py:481) -/
def hexVal (c : Char) : Option Nat :=
  if '0' ≤ c ∧ c ≤ '9' then some (c.toNat - 48)
  else if 'a' ≤ c ∧ c ≤ 'f' then some (c.toNat - 87)
  else if 'A' ≤ c ∧ c ≤ 'F' then some (c.toNat - 55)
  else none

/-- Four hexadecimal digits (`\u` escapes; cdtb/patcher.py:481) -/
def scanHex : Str → Option (Nat × Str)
  | a :: b :: c :: d :: r => do
    let x ← hexVal a
    let y ← hexVal b
    let z ← hexVal c
    let t ← hexVal d
    some (4096 * x + 256 * y + 16 * z + t, r)
  | _ => none

/-- Escapes with one letter (`json.decoder.BACKSLASH`; cdtb/patcher.py:481) -/
def jsonEscape (c : Char) : Option Char :=
  if c = '"' then some '"'
  else if c = '\\' then some '\\'
  else if c = '/' then some '/'
  else if c = 'b' then some '\x08'
  else if c = 'f' then some '\x0c'
  else if c = 'n' then some '\n'
  else if c = 'r' then some '\r'
  else if c = 't' then some '\t'
  else none

/-- The second half of a surrogate pair (cdtb/patcher.py:481) -/
def scanLow (hi : Nat) : Str → Option (Char × Str)
  | '\\' :: 'u' :: r => do
    let (lo, r) ← scanHex r
    if 0xDC00 ≤ lo ∧ lo < 0xE000 then some (Char.ofNat (0x10000 + (hi - 0xD800) * 0x400 + (lo - 0xDC00)), r) else none
  | _ => none

/-- What follows a backslash (cdtb/patcher.py:481) -/
def scanEscape : Str → Option (Char × Str)
  | [] => none
  | c :: r =>
    if c = 'u' then do
      let (n, r) ← scanHex r
      if 0xD800 ≤ n ∧ n < 0xDC00 then scanLow n r
      else if 0xDC00 ≤ n ∧ n < 0xE000 then none
      else some (Char.ofNat n, r)
    else do
      let d ← jsonEscape c
      some (d, r)

/-- A string after its opening quote, with fuel (`scanstring`; cdtb/patcher.py:481): control characters are errors. -/
def scanChars : Nat → Str → Option (Str × Str)
  | 0, _ => none
  | _ + 1, [] => none
  | fuel + 1, c :: r =>
    if c = '"' then some ([], r)
    else if c = '\\' then do
      let (d, r) ← scanEscape r
      let (s, r) ← scanChars fuel r
      some (d :: s, r)
    else if c.toNat < 32 then none
    else do
      let (s, r) ← scanChars fuel r
      some (c :: s, r)

/-- A string after its opening quote (cdtb/patcher.py:481) -/
def scanStr (t : Str) : Option (Str × Str) := scanChars (t.length + 1) t

/-! ## Numbers and constants -/

/-- A decimal digit (`_match_number_unicode`; cdtb/patcher.py:481) -/
def jsonDigit (c : Char) : Bool := '0' ≤ c && c ≤ '9'

/-- Digits and what follows (cdtb/patcher.py:481) -/
def spanDigits (t : Str) : Str × Str := (t.takeWhile jsonDigit, t.dropWhile jsonDigit)

/-- The integer part (cdtb/patcher.py:481): a zero is alone. -/
def scanInt : Str → Option (Str × Str)
  | [] => none
  | c :: r => if c = '0' then some (['0'], r) else if jsonDigit c then some (spanDigits (c :: r)) else none

/-- The fraction, if there is one (cdtb/patcher.py:481) -/
def scanFrac : Str → Str × Str
  | '.' :: r => if (spanDigits r).1.isEmpty then ([], '.' :: r) else ('.' :: (spanDigits r).1, (spanDigits r).2)
  | t => ([], t)

/-- The sign of an exponent (cdtb/patcher.py:481) -/
def scanSign : Str → Str × Str
  | '+' :: r => (['+'], r)
  | '-' :: r => (['-'], r)
  | t => ([], t)

/-- The exponent, if there is one (cdtb/patcher.py:481) -/
def scanExp : Str → Str × Str
  | [] => ([], [])
  | c :: r =>
    if c = 'e' ∨ c = 'E' then
      let s := scanSign r
      let d := spanDigits s.2
      if d.1.isEmpty then ([], c :: r) else (c :: s.1 ++ d.1, d.2)
    else ([], c :: r)

/-- The minus sign of a number (cdtb/patcher.py:481) -/
def scanMinus : Str → Str × Str
  | '-' :: r => (['-'], r)
  | t => ([], t)

/-- A number: its text, as long as it can be, and what follows (cdtb/patcher.py:481) -/
def scanNumber (t : Str) : Option (Str × Str) := do
  let m := scanMinus t
  let (i, r) ← scanInt m.2
  let f := scanFrac r
  let e := scanExp f.2
  some (m.1 ++ i ++ f.1 ++ e.1, e.2)

/-- Constants (`_scan_once_unicode`; cdtb/patcher.py:481) -/
def jsonConstants : List (Str × Json) :=
  [("null".toList, .null), ("true".toList, .bool true), ("false".toList, .bool false), ("NaN".toList, .num "NaN".toList),
    ("Infinity".toList, .num "Infinity".toList), ("-Infinity".toList, .num "-Infinity".toList)]

/-- A constant that the text starts with (cdtb/patcher.py:481) -/
def scanConstant (t : Str) : List (Str × Json) → Option (Json × Str)
  | [] => none
  | (n, v) :: l => if startsWith t n then some (v, t.drop n.length) else scanConstant t l

/-- A constant or a number (cdtb/patcher.py:481) -/
def scanWord (t : Str) : Option (Json × Str) :=
  match scanConstant t jsonConstants with
  | some x => some x
  | none => do
    let (n, r) ← scanNumber t
    some (.num n, r)

/-! ## Values -/

mutual
/-- A value, and what follows; with fuel (`_scan_once_unicode`; cdtb/patcher.py:481). Objects have all their members. -/
def scanValue : Nat → Str → Option (Json × Str)
  | 0, _ => none
  | _ + 1, [] => none
  | fuel + 1, c :: r =>
    if c = '"' then do
      let (s, r) ← scanStr r
      some (.str s, r)
    else if c = '[' then
      if (skipWs r).head? = some ']' then some (.arr [], (skipWs r).tail)
      else do
        let (l, r) ← scanItems fuel (skipWs r)
        some (.arr l, r)
    else if c = '{' then
      if (skipWs r).head? = some '}' then some (.obj [], (skipWs r).tail)
      else do
        let (l, r) ← scanMembers fuel (skipWs r)
        some (.obj l, r)
    else scanWord (c :: r)
/-- Items of an array, and the closing bracket (`_parse_array_unicode`; cdtb/patcher.py:481) -/
def scanItems : Nat → Str → Option (List Json × Str)
  | 0, _ => none
  | fuel + 1, t => do
    let (v, r) ← scanValue fuel t
    match skipWs r with
    | [] => none
    | c :: r =>
      if c = ']' then some ([v], r)
      else if c = ',' then do
        let (l, r) ← scanItems fuel (skipWs r)
        some (v :: l, r)
      else none
/-- Members of an object, and the closing bracket (`_parse_object_unicode`; cdtb/patcher.py:481) -/
def scanMembers : Nat → Str → Option (List (Str × Json) × Str)
  | 0, _ => none
  | _ + 1, [] => none
  | fuel + 1, q :: t =>
    if q = '"' then do
      let (k, r) ← scanStr t
      match skipWs r with
      | [] => none
      | c :: r =>
        if c = ':' then do
          let (v, r) ← scanValue fuel (skipWs r)
          match skipWs r with
          | [] => none
          | c :: r =>
            if c = '}' then some ([(k, v)], r)
            else if c = ',' then do
              let (l, r) ← scanMembers fuel (skipWs r)
              some ((k, v) :: l, r)
            else none
        else none
    else none
end

/-- `json.loads(t)` with all the members of objects (`JSONDecoder.decode`; cdtb/patcher.py:481): whitespace only around the value -/
def loadsAll (t : Str) : Option Json := do
  let (v, r) ← scanValue (t.length + 1) (skipWs t)
  if skipWs r = [] then some v else none

mutual
/-- Objects are dicts: one value for each name, the last one (cdtb/patcher.py:481). -/
def Json.dicts : Json → Json
  | .null => .null
  | .bool b => .bool b
  | .num t => .num t
  | .str s => .str s
  | .arr l => .arr (Json.dictsList l)
  | .obj l => .obj (Dict.ofList (Json.dictsObj l))
/-- In items of an array (cdtb/patcher.py:481) -/
def Json.dictsList : List Json → List Json
  | [] => []
  | v :: l => v.dicts :: Json.dictsList l
/-- In members of an object (cdtb/patcher.py:481) -/
def Json.dictsObj : List (Str × Json) → List (Str × Json)
  | [] => []
  | (k, v) :: l => (k, v.dicts) :: Json.dictsObj l
end

/-- `json.loads(t)`, `none` for `JSONDecodeError`: cdtb/patcher.py:386, 391, 402, 481, cdtb/hashes.py:453, cdtb/storage.py:137, 450 -/
def jsonLoads (t : Str) : Option Json := (loadsAll t).map Json.dicts

/-! ## Data of releases -/

/-- `json.dump(release_info, f)`, in a text file: cdtb/patcher.py:377-378. Non-ASCII characters are escaped, so the encoding does not matter.
There are no floats: their text (`showInt`) is not used. -/
def dumpRelease (d : RelData) : Bytes :=
  match (stdJson true fun b => showInt b).dumps 0 (.obj (d.map fun kv => (kv.1, .str kv.2))) with
  | .ok t => utf8Bytes t
  | .error _ => []

/-- Data of a release, given by a JSON value: cdtb/patcher.py:481. Other data is kept by the code, and not modelled: `ValueError` here. -/
def relData : Json → Res RelData
  | .obj l => l.mapM fun kv => match kv.2 with
    | .str s => .ok (kv.1, s)
    | _ => .error .value
  | _ => .error .value

/-- `json.load(f)` for `release.json`: cdtb/patcher.py:480-481. The file is read as UTF-8; `JSONDecodeError` is a `ValueError`. -/
def loadRelease (b : Bytes) : Res RelData := do
  let s ← utf8 b
  match jsonLoads s with
  | some v => relData v
  | none => .error .value

/-- The `json` module for releases: cdtb/patcher.py:378, 481 -/
def releaseJsonLib : JsonLib := { dump := dumpRelease, load := loadRelease }

end Cdtb
