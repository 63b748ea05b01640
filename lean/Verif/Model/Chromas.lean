import Verif.Model.GuessMore
import Verif.Model.JsonBytes
import Verif.Model.Latest
/-!
# Groups of skins from `skins.json` (cdtb/hashes.py:695-719)

`Model/GuessMore.lean` takes skins that are already read. Here they come from the response of the server. `r.json()` is `json.loads` on the content.
-/
namespace Cdtb
set_option autoImplicit false
open Py

/-- `int(i)`: cdtb/hashes.py:710. Numbers with a fraction or an exponent are not modelled: `ValueError` here. -/
def jsonInt : Json → Res Int
  | .num t => match int10 t with
    | some i => .ok i
    | none => .error .value
  | .bool b => .ok (if b then 1 else 0)
  | .str s => match int10 s with
    | some i => .ok i
    | none => .error .value
  | _ => .error .type

/-- The condition `if v`, where `None` is for a missing key: cdtb/hashes.py:708. Numbers with a fraction or an exponent are true here. -/
def Json.truth : Json → Bool
  | .null => false
  | .bool b => b
  | .num t => int10 t ≠ some 0
  | .str s => !s.isEmpty
  | .arr l => !l.isEmpty
  | .obj l => !l.isEmpty

/-- `skin_data['loadScreenPath'].lower()` needs a text: cdtb/hashes.py:705. -/
def loadScreenPath (skin : Json) : Res Str := do
  let p ← skin.field "loadScreenPath".toList
  match p with
  | .str s => .ok s
  | _ => .error .attribute

/-- `skin_data.get('chromas')`: cdtb/hashes.py:708, for a dict -/
def skinChromas (skin : Json) : Json := match skin.field "chromas".toList with
  | .ok v => v
  | .error _ => .null

/-- The identifiers of the chromas of a skin: cdtb/hashes.py:708-709 -/
def chromaIds (skin : Json) : Res (List Json) :=
  if (skinChromas skin).truth then do
    let l ← (skinChromas skin).items
    l.mapM (Json.field "id".toList)
  else .ok []

/-- The character and the skins of a group: cdtb/hashes.py:705-710 -/
def skinGroup (kv : Str × Json) : Res (Str × List Int) := do
  let path ← loadScreenPath kv.2
  let n ← chromaChar path
  let ids ← chromaIds kv.2
  let is ← (Json.str kv.1 :: ids).mapM jsonInt
  .ok (n, is.map (· % 1000))

/-- `data.items()`: cdtb/hashes.py:704 -/
def skinItems : Json → Res (List (Str × Json))
  | .obj l => .ok l
  | _ => .error .attribute

/-- The groups of all skins: cdtb/hashes.py:702-710 -/
def skinGroups (data : Json) : Res (List (Str × List Int)) := do
  let l ← skinItems data
  l.mapM skinGroup

/-- URL of `skins.json`: cdtb/hashes.py:700 -/
def skinsUrl : Str := "http://raw.communitydragon.org/pbe/plugins/rcp-be-lol-game-data/global/default/v1/skins.json".toList

/-- `requests.get(…).json()`: cdtb/hashes.py:700. The status of the response is not looked at. -/
def skinsData (web : Web) : Res Json := do
  let r ← web skinsUrl
  match loadsBytes r.body with
  | some v => .ok v
  | none => .error .value

/-- `GameHashGuesser.guess_skin_groups_bin_using_chromas`: cdtb/hashes.py:695-719 -/
def Guesser.guessChromasWeb (H : Str → Int) (g : Guesser) (web : Web) : Guesser × Res Unit :=
  match skinsData web with
  | .error e => (g, .error e)
  | .ok data => match skinGroups data with
    | .error e => (g, .error e)
    | .ok gs => ((gs.map (·.1)).dedup.foldl (fun g char => g.checkIter H (chromaNames char ((gs.filter fun x => x.1 = char).map (·.2)))) g, .ok ())

end Cdtb
