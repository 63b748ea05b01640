import Verif.Py.Struct
import Verif.Py.Utf8
/-!
# Model of cdtb/rstfile.py
-/
namespace Cdtb
set_option autoImplicit false
open Py

/-- Library functions that are not modelled. -/
structure RstEnv where
  /-- `b.decode('utf-8', 'replace')` when `b` is not valid UTF-8 -/
  decodeInvalid : Bytes → Str
  /-- `b64encode(b).decode('utf-8', 'replace')` -/
  b64 : Bytes → Str
  /-- `xxh3_64_intdigest(s)` of a string -/
  xxh3 : Str → Nat
  /-- `xxh64_intdigest(s)` of a string -/
  xxh64 : Str → Nat
  /-- `str.lower()` -/
  lower : Str → Str

/-- `b.decode('utf-8', 'replace')` -/
def RstEnv.decode (env : RstEnv) (b : Bytes) : Str := match utf8 b with
  | .ok s => s
  | .error _ => env.decodeInvalid b

/-- `RstFile`: cdtb/rstfile.py:25-38 -/
structure Rst where
  fontConfig : Option Str
  entries : Dict Nat Str
  hashBits : Nat
  version : Nat
  gameVersion : Nat
deriving DecidableEq, Repr

/-- `data.find(b"\0", i)` -/
def findNul (data : Bytes) (i : Nat) : Option Nat :=
  match (data.drop i).findIdx? (· = 0) with
  | some k => some (i + k)
  | none => none

/-- `data[a:b]` with Python's meaning of `b = -1` (`none`) -/
def pySlice (data : Bytes) (a : Nat) (b : Option Nat) : Bytes :=
  match b with
  | some b => (data.take b).drop a
  | none => (data.take (data.length - 1)).drop a

/-- Text of a plain entry: cdtb/rstfile.py:104-106 -/
def rstPlain (env : RstEnv) (data : Bytes) (i : Nat) : Str := env.decode (pySlice data i (findNul data i))

/-- Text of an entry: cdtb/rstfile.py:99-106 -/
def rstText (env : RstEnv) (hasTrenc : Bool) (data : Bytes) (i : Nat) : Res Str :=
  if hasTrenc then
    match data[i]? with
    | none => .error .index
    | some b =>
      if b = 0xFF then
        .ok (env.b64 ((data.drop (i + 3)).take (leNat ((data.drop (i + 1)).take 2))))
      else .ok (rstPlain env data i)
  else .ok (rstPlain env data i)

/-- The loop on entries: cdtb/rstfile.py:98-106 -/
def rstFill (env : RstEnv) (hasTrenc : Bool) (data : Bytes) : Dict Nat Str → List (Nat × Nat) → Res (Dict Nat Str)
  | d, [] => .ok d
  | d, (i, h) :: r => match rstText env hasTrenc data i with
    | .error e => .error e
    | .ok t => rstFill env hasTrenc data (d.set h t) r

/-- Font configuration of version 2: cdtb/rstfile.py:68-72 -/
def rstFontConfig : Rd (Option Str) := do
  let has ← Rd.u 1
  if has ≠ 0 then do
    let n ← Rd.u 4
    let b ← Rd.raw n
    let s ← Rd.lift (utf8 b)
    pure (some s)
  else pure none

/-- Per-version part: the font configuration and the number of bits of hashes, cdtb/rstfile.py:67-81 -/
def rstVersion (version gameVersion : Nat) : Rd (Option Str × Nat) :=
  if version = 2 then do
    let c ← rstFontConfig
    pure (c, 40)
  else if version = 3 then pure (none, 40)
  else if version = 4 ∨ version = 5 then pure (none, if gameVersion ≥ 1502 then 38 else 39)
  else Rd.fail .value

/-- One word of the table: cdtb/rstfile.py:87-88 -/
def rstWord (bits : Nat) : Rd (Nat × Nat) := do
  let v ← Rd.u 8
  pure (v >>> bits, v &&& ((1 <<< bits) - 1))

/-- cdtb/rstfile.py:90-92 -/
def rstTrenc (version : Nat) : Rd Bool :=
  if version < 5 then do
    let b ← Rd.u 1
    pure (decide (b ≠ 0))
  else pure false

/-- cdtb/rstfile.py:64-65 -/
def rstMagic (magic : Bytes) : Rd Unit := if magic ≠ [0x52, 0x53, 0x54] then Rd.fail .value else pure ()

/-- `RstFile.parse_rst`: cdtb/rstfile.py:60-106 -/
def parseRst (env : RstEnv) (gameVersion : Nat) : Rd Rst := do
  let magic ← Rd.exact 3
  let version ← Rd.u 1
  rstMagic magic
  let cb ← rstVersion version gameVersion
  let count ← Rd.u 4
  let entries ← (rstWord cb.2).times count
  let trenc ← rstTrenc version
  let data ← Rd.rest
  let d ← Rd.lift (rstFill env trenc data [] entries)
  pure { fontConfig := cb.1, entries := d, hashBits := cb.2, version, gameVersion }

/-- Keys of lookups: strings, integers and values of other types. -/
inductive RstKey where
  | str (s : Str)
  | int (n : Int)
  | other
deriving DecidableEq, Repr

/-- `key_to_hash`: cdtb/rstfile.py:13-19; `n & mask` is a remainder, for negative integers too. -/
def keyToHash (env : RstEnv) (key : RstKey) (bits version : Nat) : Res Nat :=
  match key with
  | .str s => .ok ((if version ≥ 1415 then env.xxh3 (env.lower s) else env.xxh64 (env.lower s)) % 2 ^ bits)
  | .int n => .ok (n % (2 ^ bits : Nat)).toNat
  | .other => .error .type

/-- `RstFile.__getitem__`: cdtb/rstfile.py:40-45 -/
def Rst.getitem (env : RstEnv) (r : Rst) (key : RstKey) : Res Str :=
  match keyToHash env key r.hashBits r.gameVersion with
  | .error _ => .error .key
  | .ok h => match r.entries.get? h with
    | some t => .ok t
    | none => .error .key

/-- `RstFile.__contains__`: cdtb/rstfile.py:47-52 -/
def Rst.hasKey (env : RstEnv) (r : Rst) (key : RstKey) : Bool :=
  match keyToHash env key r.hashBits r.gameVersion with
  | .error _ => false
  | .ok h => r.entries.contains h

/-- `RstFile.get`: cdtb/rstfile.py:54-58 -/
def Rst.getD (env : RstEnv) (r : Rst) (key : RstKey) (default : Option Str) : Option Str :=
  match r.getitem env key with
  | .ok t => some t
  | .error _ => default

end Cdtb
