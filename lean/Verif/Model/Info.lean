import Verif.Py.Struct
import Verif.Py.Utf8
import Verif.Model.Tools
/-!
# Atlas and champion skins information (cdtb/export.py:789-874)

Floats are their 32-bit patterns.
-/
namespace Cdtb
set_option autoImplicit false
open Py

/-- `BinaryParser.unpack_string` (cdtb/tools.py:80-82): fewer bytes are read at the end of the file. -/
def unpackString : Rd Str := do
  let n ← Rd.u 4
  let b ← Rd.raw n
  Rd.lift (utf8 b)

/-- An item of the result (cdtb/export.py:821, 831) -/
structure AtlasItem where
  atlasPath : Str
  startX : Nat
  startY : Nat
  endX : Nat
  endY : Nat
deriving DecidableEq, Repr

/-- `l[i]` -/
def listItem {α : Type} (l : List α) (i : Nat) : Res α :=
  match l[i]? with
  | some x => .ok x
  | none => .error .index

/-- `f'{{{h:016x}}}'` -/
def bracedHash (h : Nat) : Str := '{' :: hexW 16 h ++ ['}']

/-- The coordinates and the atlas of a texture (cdtb/export.py:820-821, 830-831) -/
def atlasItem (atlases : List Str) (name : Str) : Rd (Str × AtlasItem) := do
  let b ← Rd.exact 20
  let atlas ← Rd.lift (listItem atlases (leNat ((b.drop 16).take 4)))
  pure (name, ⟨atlas, leNat (b.take 4), leNat ((b.drop 4).take 4), leNat ((b.drop 8).take 4), leNat ((b.drop 12).take 4)⟩)

/-- Hash based files, after the magic (cdtb/export.py:809-821); `hashes` is the content of the hash file. -/
def parseAtlasHashes (hashes : Dict Nat Str) : Rd (List (Str × AtlasItem)) := do
  let count ← Rd.u 4
  let atlasHashes ← Rd.times (Rd.u 8) count
  let atlases := atlasHashes.map (fun h => match hashes.get? h with
    | some p => convertCdragonPath p
    | none => bracedHash h)
  let textures ← Rd.u 4
  Rd.times (do
    let h ← Rd.u 8
    atlasItem atlases ((hashes.get? h).getD (bracedHash h))) textures

/-- String based files, after the number of atlases (cdtb/export.py:824-831) -/
def parseAtlasStrings (count : Nat) : Rd (List (Str × AtlasItem)) := do
  let atlases ← Rd.times (do
    let s ← unpackString
    pure (convertCdragonPath s)) count
  let textures ← Rd.u 4
  Rd.times (do
    let name ← unpackString
    atlasItem atlases name) textures

/-- `AtlasInfoConverter.parse_atlasinfo` (cdtb/export.py:803-833) -/
def parseAtlas (hashes : Dict Nat Str) : Rd (Dict Str AtlasItem) := do
  let magic ← Rd.raw 4
  if magic = [0x49, 0x4d, 0x41, 0x41] then do
    let l ← parseAtlasHashes hashes
    pure (Dict.ofList l)
  else if magic.length = 4 then do
    let l ← parseAtlasStrings (leNat magic)
    pure (Dict.ofList l)
  else Rd.fail .struct

/-- A skin (cdtb/export.py:870): name and prestige -/
structure SkinInfo where
  name : Str
  prestige : Bool
deriving DecidableEq, Repr

/-- One skin (cdtb/export.py:867-870) -/
def parseSkin : Rd (Nat × SkinInfo) := do
  let id ← Rd.u 4
  let flag ← Rd.u 1
  let name ← unpackString
  pure (id, ⟨name, decide (flag = 4)⟩)

/-- One champion (cdtb/export.py:863-872) -/
def parseChampion : Rd (Str × Dict Nat SkinInfo) := do
  let name ← unpackString
  let n ← Rd.u 4
  let skins ← Rd.times parseSkin n
  pure (name, Dict.ofList skins)

/-- The checks of the header (cdtb/export.py:852-857) -/
def checkSkins (magic : Bytes) : Rd Unit := do
  if magic ≠ [0x6d, 0x61, 0x68, 0x43] then Rd.fail .value
  else do
    let version ← Rd.u 4
    if version ≠ 2 then Rd.fail .value else pure ()

/-- `ChampionSkinInfoConverter.parse_championskininfo` (cdtb/export.py:848-874) -/
def parseChampionSkins : Rd (Dict Str (Dict Nat SkinInfo)) := do
  let magic ← Rd.exact 4
  checkSkins magic
  let n ← Rd.u 4
  let l ← Rd.times parseChampion n
  pure (Dict.ofList l)

end Cdtb
