import Verif.Model.Cli
import Verif.Model.GrepLcu
/-!
# Latest release of a patcher storage (cdtb/patcher.py:77-88, 349-404)

Requests are given by a function from URLs to responses. Documents are decoded as UTF-8; `json.loads` is a parameter.
-/
namespace Cdtb
set_option autoImplicit false
open Py

/-- A response: status code and content -/
structure HttpResp where
  status : Nat
  body : Bytes
deriving DecidableEq, Repr

/-- `s.get(url)` (cdtb/storage.py:225-227, cdtb/patcher.py:389, 400): the request itself may fail. -/
abbrev Web := Str → Res HttpResp

/-- `r.raise_for_status()` (cdtb/patcher.py:390, 401), then the content of the response -/
def HttpResp.checked (r : HttpResp) : Res Bytes := if 400 ≤ r.status ∧ r.status < 600 then .error (.http r.status) else .ok r.body

/-- `s.get(url)`, `raise_for_status()` (cdtb/patcher.py:389-390, 400-401) -/
def Web.fetch (web : Web) (url : Str) : Res Bytes := do
  let r ← web url
  r.checked

/-- `json.load(f)` and `r.json()` (cdtb/patcher.py:386, 391, 402) -/
def parseDoc (loads : Str → Option Json) (b : Bytes) : Res Json := do
  let s ← utf8 b
  match loads s with
  | some v => .ok v
  | none => .error .value

/-- URL used without configuration (cdtb/patcher.py:388) -/
def clientConfigUrl : Str := "https://clientconfig.rpg.riotgames.com/api/v1/config/public?namespace=keystone.products.league_of_legends.patchlines".toList

/-- The document with the configurations of the client (cdtb/patcher.py:383-391). Values of `clientconfig_data` that are true and not texts have no
method `startswith`. -/
def clientConfigData (fs : FS) (web : Web) : CVal → Res Bytes
  | .null | .bool false | .str [] => web.fetch clientConfigUrl
  | .bool true => .error .attribute
  | .str s =>
    if !startsWith s "http://".toList && !startsWith s "https://".toList && (fs s).isSome then fs.readFile s
    else web.fetch s

/-- The loop on configurations (cdtb/patcher.py:393-396) -/
def findConfig (region : Str) : List Json → Res Json
  | [] => .error .value
  | c :: l => do
    let id ← c.field "id".toList
    if id.str? = some region then c.field "patch_url".toList else findConfig region l

/-- `get_latest_client_manifest` (cdtb/patcher.py:382-396) -/
def latestClient (fs : FS) (web : Web) (loads : Str → Option Json) (patchline : Str) (clientconfig : CVal) : Res Json := do
  let b ← clientConfigData fs web clientconfig
  let data ← parseDoc loads b
  let region := if patchline = "pbe".toList then "PBE".toList else "EUW".toList
  let p ← data.field ("keystone.products.league_of_legends.patchlines.".toList ++ patchline)
  let p ← p.field "platforms".toList
  let p ← p.field "win".toList
  let p ← p.field "configurations".toList
  let l ← p.items
  findConfig region l

/-- URL of the latest game releases (cdtb/patcher.py:399-400) -/
def gameUrl (patchline : Str) : Str :=
  "https://sieve.services.riotcdn.net/api/v1/products/lol/version-sets/".toList ++
    (if patchline = "pbe".toList then "PBE1".toList else "EUW1".toList) ++ "?q[platform]=windows&q[published]=true".toList

/-- `len(v)` (cdtb/patcher.py:403) -/
def Json.len : Json → Res Nat
  | .str s => .ok s.length
  | .arr l => .ok l.length
  | .obj d => .ok d.length
  | _ => .error .type

/-- `v[-1]` (cdtb/patcher.py:404): `-1` is not a key of an object. -/
def Json.last : Json → Res Json
  | .str s => match s.getLast? with
    | some c => .ok (.str [c])
    | none => .error .index
  | .arr l => match l.getLast? with
    | some v => .ok v
    | none => .error .index
  | .obj _ => .error .key
  | _ => .error .type

/-- `get_latest_game_manifest` (cdtb/patcher.py:398-404) -/
def latestGame (web : Web) (loads : Str → Option Json) (patchline : Str) : Res Json := do
  let b ← web.fetch (gameUrl patchline)
  let data ← parseDoc loads b
  let r ← data.field "releases".toList
  let n ← r.len
  if n ≠ 1 then .error .assertion
  else do
    let r ← r.last
    let r ← r.field "download".toList
    r.field "url".toList

/-- The URLs as texts; other values are not modelled and give `TypeError` here (cdtb/patcher.py:361-364). -/
def urlText (r : Res Json) : Res Str := do
  match ← r with
  | .str s => .ok s
  | _ => .error .type

/-- `fetch_latest_update` (cdtb/patcher.py:358-380), with the requests -/
def PCfg.fetchUpdate (cfg : PCfg) (js : JsonLib) (loads : Str → Option Json) (web : Web) (clientconfig : CVal) (time : Int) (f1 f2 : WriteFaults)
    (fs : FS) : FS × Res Unit :=
  cfg.fetchLatest js fs ⟨urlText (latestClient fs web loads cfg.patchline clientconfig), urlText (latestGame web loads cfg.patchline), time, f1, f2⟩

/-- The argument of `PatcherManifest` (cdtb/patcher.py:77) -/
inductive ManifestArg where
  | none
  | path (p : Str)
  | file (content : Bytes)
deriving DecidableEq, Repr

/-- `PatcherManifest.__init__` (cdtb/patcher.py:77-88): `none` is a manifest whose attributes are `None`. With a file object, the variable `f` has no value. -/
def manifestInit (zstd : Bytes → Res Bytes) (fs : FS) : ManifestArg → Res (Option Manifest)
  | .none => .ok Option.none
  | .path p => do
    let b ← fs.readFile p
    let m ← (parseRman zstd).run b
    .ok (some m)
  | .file _ => .error .name

end Cdtb
