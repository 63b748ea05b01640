import Verif.Model.Grep
import Verif.Model.Wad
import Verif.Py.Utf8
/-!
# Model of cdtb/hashes.py: paths found in the text files of the client (lines 354-367 and 441-503)
-/
namespace Cdtb
set_option autoImplicit false
open Py

/-! ## Text files -/

/-- `.decode('utf-8-sig')`: UTF-8, with an optional mark at the start -/
def decodeSig (b : Bytes) : Res Str := utf8 (if b.take 3 = [0xef, 0xbb, 0xbf] then b.drop 3 else b)

/-- Extensions of files that are not text: cdtb/hashes.py:360 -/
def binaryExts : List Str := ["png", "jpg", "ttf", "webm", "ogg", "dds", "tga"].map String.toList

/-- The body of the loop of `HashGuesser.wad_text_files`: cdtb/hashes.py:358-367. The text to search, or `none` for a file that is skipped.
`read_data` gives `None` for a redirection, whose attribute `decode` does not exist. -/
def textFile (cx : Codecs) (file : Bytes) (w : WadEntry) : Res (Option Str) :=
  if w.ext ∈ binaryExts.map some then .ok none
  else match readData cx w file none with
    | .error .unicode => .ok none
    | .error e => .error e
    | .ok none => .error .attribute
    | .ok (some b) => match decodeSig b with
      | .error _ => .ok none
      | .ok [] => .ok none
      | .ok (c :: s) => .ok (some (c :: s))

/-! ## Regular expressions that look at what is before -/

/-- `re.finditer`, for a pattern that depends on what is before: `m pre s` gives what is extracted from the match at the start of `s`, and the
length of this match (not 0). The other arguments are as in `finditer`. -/
def finditerAt {α : Type} (m : Str → Str → Option (α × Nat)) : Str → Nat → Str → List α
  | _, _, [] => []
  | pre, skip + 1, c :: r => finditerAt m (pre ++ [c]) skip r
  | pre, 0, c :: r => match m pre (c :: r) with
    | none => finditerAt m (pre ++ [c]) 0 r
    | some (x, n) => x :: finditerAt m (pre ++ [c]) (n - 1) r

/-- `\w`, with `uni` for characters that are not in ASCII -/
def isWord (uni : Char → Bool) (c : Char) : Bool := if c.toNat < 128 then c.isAlphanum || c = '_' else uni c

/-- `\b` before a letter -/
def wordStart (uni : Char → Bool) (pre : Str) : Bool := match pre.getLast? with
  | none => true
  | some c => !isWord uni c

/-- `\b` after a letter -/
def wordEnd (uni : Char → Bool) (s : Str) : Bool := match s.head? with
  | none => true
  | some c => !isWord uni c

/-- `[a-zA-Z0-9/_.-]`: cdtb/hashes.py:495 -/
def isRelChar (c : Char) : Bool := c.isAlphanum || c = '/' || c = '_' || c = '.' || c = '-'

/-- `[a-zA-Z0-9/_.@-]`: cdtb/hashes.py:486, 489, 492, 497 -/
def isUrlChar (c : Char) : Bool := isRelChar c || c = '@'

/-- `X+`: a nonempty run of characters -/
def matchRun (x : Char → Bool) (s : Str) : Option Str := if s.takeWhile x = [] then none else some (s.takeWhile x)

/-- `\bfe/([^/]+)/([a-zA-Z0-9/_.@-]+)`, and the path: cdtb/hashes.py:485-486 -/
def matchFe (uni : Char → Bool) (pre s : Str) : Option (Str × Nat) :=
  if wordStart uni pre then match afterPrefix "fe/".toList s with
    | none => none
    | some r => match split1 '/' r with
      | none => none
      | some (x, t) => match matchRun isUrlChar t with
        | none => none
        | some y => if x = [] then none
          else some (lower ("plugins/rcp-fe-".toList ++ x ++ "/global/default/".toList ++ y), 3 + x.length + 1 + y.length)
  else none

/-- A fixed text followed by `([a-zA-Z0-9/_.@-]+)`, and the path that starts with `out` -/
def matchUrl (tag out s : Str) : Option (Str × Nat) := match afterPrefix tag s with
  | none => none
  | some r => match matchRun isUrlChar r with
    | none => none
    | some y => some (lower (out ++ y), tag.length + y.length)

/-- `/DATA/([a-zA-Z0-9/_.@-]+)`: cdtb/hashes.py:488-489 -/
def matchData (_ s : Str) : Option (Str × Nat) := matchUrl "/DATA/".toList "plugins/rcp-be-lol-game-data/global/default/data/".toList s

/-- `\blol-game-data/assets/([a-zA-Z0-9/_.@-]+)`: cdtb/hashes.py:491-492 -/
def matchAssets (uni : Char → Bool) (pre s : Str) : Option (Str × Nat) :=
  if wordStart uni pre then matchUrl "lol-game-data/assets/".toList "plugins/rcp-be-lol-game-data/global/default/".toList s else none

/-- `(?:\.|\.\.)/[a-zA-Z0-9/_.-]+` -/
def matchDots (s : Str) : Option Str := match afterPrefix "./".toList s with
  | some r => (matchRun isRelChar r).map fun y => "./".toList ++ y
  | none => match afterPrefix "../".toList s with
    | some r => (matchRun isRelChar r).map fun y => "../".toList ++ y
    | none => none

/-- `[^a-zA-Z0-9/_.\\-]((?:\.|\.\.)/[a-zA-Z0-9/_.-]+)`: cdtb/hashes.py:495 -/
def matchRel (_ s : Str) : Option (Str × Nat) := match s with
  | [] => none
  | c :: r => if isRelChar c || c = '\\' then none else (matchDots r).map fun y => (y, 1 + y.length)

/-- The largest `k` at most `n` for which `f` gives a result -/
def lastSome {α : Type} (f : Nat → Option α) : Nat → Option α
  | 0 => f 0
  | n + 1 => match f (n + 1) with
    | some x => some x
    | none => lastSome f n

/-- `(?:js|json|webm|html|[a-z]{3})\b`: cdtb/hashes.py:497 -/
def matchExt (uni : Char → Bool) (s : Str) : Option Str :=
  match (["js", "json", "webm", "html"].map String.toList).find? fun e => startsWith s e && wordEnd uni (s.drop e.length) with
  | some e => some e
  | none =>
    let e := s.take 3
    if e.length = 3 && e.all (fun c => 'a' ≤ c && c ≤ 'z') && wordEnd uni (s.drop 3) then some e else none

/-- `\.(?:js|json|webm|html|[a-z]{3})\b` after the first `k` characters -/
def matchNameAt (uni : Char → Bool) (t : Str) (k : Nat) : Option Str := match afterPrefix ".".toList (t.drop k) with
  | none => none
  | some s => (matchExt uni s).map fun e => t.take k ++ '.' :: e

/-- `["']([a-zA-Z0-9][a-zA-Z0-9/_.@-]*\.(?:js|json|webm|html|[a-z]{3}))\b`: cdtb/hashes.py:497. The repetition is greedy. -/
def matchName (uni : Char → Bool) (_ s : Str) : Option (Str × Nat) := match s with
  | q :: a :: t =>
    if (q = '"' || q = '\'') && a.isAlphanum then
      (lastSome (matchNameAt uni t) (t.takeWhile isUrlChar).length).map fun y => (a :: y, 2 + y.length)
    else none
  | _ => none

/-- `-template-([^"]+)` after the first `k` characters -/
def matchTemplateAt (u : Str) (k : Nat) : Option Str := match afterPrefix "-template-".toList (u.drop k) with
  | none => none
  | some [] => none
  | some (c :: b) => some (c :: b)

/-- `<template id="[^"]*-template-([^"]+)"`: cdtb/hashes.py:499. The repetition is greedy. -/
def matchTemplate (_ s : Str) : Option (Str × Nat) := match afterPrefix "<template id=\"".toList s with
  | none => none
  | some r => match split1 '"' r with
    | none => none
    | some (u, _) => (lastSome (matchTemplateAt u) u.length).map fun b => (b ++ "/template.html".toList, 14 + u.length + 1)

/-- `.*?\.js\.map`: what is before the first `.js.map` of the line -/
def beforeMap : Str → Option Str
  | [] => none
  | c :: r => if startsWith (c :: r) ".js.map".toList then some []
    else if c = '\n' then none
    else (beforeMap r).map fun x => c :: x

/-- `sourceMappingURL=(.*?\.js)\.map`: cdtb/hashes.py:501 -/
def matchMap (_ s : Str) : Option (Str × Nat) := match afterPrefix "sourceMappingURL=".toList s with
  | none => none
  | some r => (beforeMap r).map fun x => (x ++ ".js".toList, 17 + x.length + 7)

/-- Full paths checked for a text: cdtb/hashes.py:485-492 -/
def textPaths (uni : Char → Bool) (data : Str) : List Str :=
  finditerAt (matchFe uni) [] 0 data ++ finditerAt matchData [] 0 data ++ finditerAt (matchAssets uni) [] 0 data

/-- Relative paths found in a text: cdtb/hashes.py:495-501 -/
def textRelpaths (uni : Char → Bool) (data : Str) : List Str :=
  finditerAt matchRel [] 0 data ++ finditerAt (matchName uni) [] 0 data ++ finditerAt matchTemplate [] 0 data ++ finditerAt matchMap [] 0 data

/-! ## JSON files -/

/-- A value given by `json.loads`. Numbers are given by their text. -/
inductive Json where
  | null
  | bool (b : Bool)
  | num (text : Str)
  | str (s : Str)
  | arr (l : List Json)
  | obj (l : List (Str × Json))

/-- What the model does not define: `json.loads` (`none` if it raises `JSONDecodeError`), `str` for lists and dicts, and `\w` for characters
that are not in ASCII -/
structure TextLib where
  loads : Str → Option Json
  repr : Json → Str
  uni : Char → Bool

/-- `f"{v}"` -/
def Json.format (repr : Json → Str) : Json → Str
  | .null => "None".toList
  | .bool true => "True".toList
  | .bool false => "False".toList
  | .num t => t
  | .str s => s
  | v => repr v

/-- The string of a value -/
def Json.str? : Json → Option Str
  | .str s => some s
  | _ => none

/-- `key in v` -/
def Json.has (key : Str) : Json → Res Bool
  | .str s => .ok (containsSub s key)
  | .arr l => .ok (l.any fun v => v.str? = some key)
  | .obj d => .ok (d.any fun kv => kv.1 = key)
  | _ => .error .type

/-- `v[key]`, for a string `key` -/
def Json.field (key : Str) : Json → Res Json
  | .obj d => match d.find? fun kv => kv.1 = key with
    | some kv => .ok kv.2
    | none => .error .key
  | _ => .error .type

/-- `for x in v` -/
def Json.items : Json → Res (List Json)
  | .str s => .ok (s.map fun c => .str [c])
  | .arr l => .ok l
  | .obj d => .ok (d.map fun kv => .str kv.1)
  | _ => .error .type

/-- `v.values()` -/
def Json.values : Json → Res (List Json)
  | .obj d => .ok (d.map fun kv => kv.2)
  | _ => .error .attribute

/-- `'a' in v and 'b' in v` -/
def Json.hasBoth (a b : Str) (v : Json) : Res Bool := do
  if ← v.has a then v.has b else .ok false

/-- Paths of the files of game data -/
def gameDataPrefix : Str := "plugins/rcp-be-lol-game-data/global/default".toList

/-- `-splash-([^.]+)`: cdtb/hashes.py:471 -/
def matchSplash (_ s : Str) : Option (Str × Nat) := match afterPrefix "-splash-".toList s with
  | none => none
  | some r => (matchRun (· ≠ '.') r).map fun y => (y, 8 + y.length)

/-- Argument of `re.findall` -/
def jsonText (v : Json) : Res Str := match v.str? with
  | some s => .ok s
  | none => .error .type

/-- The paths of a plugin description: cdtb/hashes.py:466-467 -/
def pluginFiles (name : Str) : List Str :=
  ["index.html", "init.js", "init.js.map", "bundle.js", "trans.json", "css/main.css", "license.json"].map fun s =>
    "plugins/".toList ++ name ++ "/global/default/".toList ++ s.toList

/-- The paths of a splash configuration: cdtb/hashes.py:471-473. The iteration order of the set of names is the one of the list. -/
def splashFiles (files : List Str) : List Str :=
  let names := (files.flatMap fun p => (finditerAt matchSplash [] 0 p).map lower).dedup
  let dir := fun name => "plugins/rcp-fe-lol-splash/global/default/splash-assets/".toList ++ name
  names.map (fun n => dir n ++ "/config.json".toList) ++ names.flatMap fun n => files.map fun p => dir n ++ '/' :: lower p

/-- The paths of the summary of champions: cdtb/hashes.py:476-478 -/
def championPaths (ids : List Str) : List Str :=
  ids.map (fun i => gameDataPrefix ++ "/v1/champions/".toList ++ i ++ ".json".toList) ++
  ids.map fun i => gameDataPrefix ++ "/v1/champion-splashes/".toList ++ i ++ "/metadata.json".toList

/-- `f'...{p.lower()}' for p in v`: candidates are checked until one that is not a string: cdtb/hashes.py:481 -/
def Guesser.checkDefaults (H : Str → Int) : Guesser → List Json → Guesser × Res Unit
  | g, [] => (g, .ok ())
  | g, v :: vs => match v.str? with
    | none => (g, .error .attribute)
    | some p => (g.checkIter H [gameDataPrefix ++ lower p]).checkDefaults H vs

/-- The description of a plugin: cdtb/hashes.py:462-467 -/
def pluginCandidates (lib : TextLib) (v : Json) : Res (List Str) := do
  let name ← v.field "name".toList
  .ok (pluginFiles (name.format lib.repr))

/-- A splash configuration: cdtb/hashes.py:468-473 -/
def splashCandidates (v : Json) : Res (List Str) := do
  let files ← v.field "files".toList
  let values ← files.values
  let texts ← values.mapM jsonText
  .ok (splashFiles texts)

/-- The summary of champions: cdtb/hashes.py:476-478 -/
def summaryCandidates (lib : TextLib) (v : Json) : Res (List Str) := do
  let items ← v.items
  let ids ← items.mapM fun v => v.field "id".toList
  .ok (championPaths (ids.map fun i => i.format lib.repr))

/-- The names of the items of the loot: cdtb/hashes.py:460 -/
def lootCandidates (lib : TextLib) (v : Json) : Res (List Str) := do
  let items ← v.items
  .ok (items.map fun k => gameDataPrefix ++ "/v1/hextech-images/".toList ++ k.format lib.repr ++ ".png".toList)

/-- Checks of candidates that are all computed before -/
def Guesser.checkRes (H : Str → Int) (g : Guesser) (skip : Bool) : Res (List Str) → Guesser × Res Bool
  | .error e => (g, .error e)
  | .ok l => (g.checkIter H l, .ok skip)

/-- Name of the file of the loot: cdtb/hashes.py:458 -/
def lootFile : Str := "plugins/rcp-fe-lol-loot/global/default/trans.json".toList

/-- Name of the summary of champions: cdtb/hashes.py:475 -/
def summaryFile : Str := "plugins/rcp-be-lol-game-data/global/default/v1/champion-summary.json".toList

/-- Recommended items of a champion: cdtb/hashes.py:479-481 -/
def Guesser.grepDefaults (H : Str → Int) (g : Guesser) (v : Json) : Guesser × Res Bool :=
  match v.has "recommendedItemDefaults".toList with
  | .error e => (g, .error e)
  | .ok false => (g, .ok false)
  | .ok true => match (v.field "recommendedItemDefaults".toList).bind Json.items with
    | .error e => (g, .error e)
    | .ok l => match g.checkDefaults H l with
      | (g', .error e) => (g', .error e)
      | (g', .ok ()) => (g', .ok false)

/-- What is done with the value of a JSON file: cdtb/hashes.py:457-481. The result is whether the text of the file is ignored. -/
def Guesser.grepJson (H : Str → Int) (lib : TextLib) (g : Guesser) (path : Option Str) (v : Json) : Guesser × Res Bool :=
  if path = some lootFile then g.checkRes H true (lootCandidates lib v)
  else match v.hasBoth "pluginDependencies".toList "name".toList with
    | .error e => (g, .error e)
    | .ok true => g.checkRes H false (pluginCandidates lib v)
    | .ok false => match v.hasBoth "musicVolume".toList "files".toList with
      | .error e => (g, .error e)
      | .ok true => g.checkRes H true (splashCandidates v)
      | .ok false =>
        if path = some summaryFile then g.checkRes H false (summaryCandidates lib v)
        else g.grepDefaults H v

/-- `jdata`: cdtb/hashes.py:449-455. `none` is `None`, which is also the value of the text `null`. -/
def parseJson (lib : TextLib) (ext : Option Str) (data : Str) : Option Json :=
  if ext = some "json".toList then match lib.loads data with
    | some .null => none
    | r => r
  else none

/-- Whether the value of a file makes its text ignored: cdtb/hashes.py:457-481 -/
def Guesser.grepValue (H : Str → Int) (lib : TextLib) (g : Guesser) (path : Option Str) : Option Json → Guesser × Res Bool
  | none => (g, .ok false)
  | some v => g.grepJson H lib path v

/-- The body of the loop of `grep_wad`, for a text: cdtb/hashes.py:449-501. Gives the relative paths. -/
def Guesser.grepText (H : Str → Int) (lib : TextLib) (g : Guesser) (w : WadEntry) (data : Str) : Guesser × Res (List Str) :=
  match g.grepValue H lib w.path (parseJson lib w.ext data) with
  | (g', .error e) => (g', .error e)
  | (g', .ok true) => (g', .ok [])
  | (g', .ok false) => (g'.checkIter H (textPaths lib.uni data), .ok (textRelpaths lib.uni data))

/-- The loop of `LcuHashGuesser.grep_wad`: cdtb/hashes.py:448-501 -/
def Guesser.grepTexts (H : Str → Int) (lib : TextLib) (cx : Codecs) (file : Bytes) : Guesser → List Str → List WadEntry → Guesser × Res (List Str)
  | g, rels, [] => (g, .ok rels)
  | g, rels, w :: ws => match textFile cx file w with
    | .error e => (g, .error e)
    | .ok none => g.grepTexts H lib cx file rels ws
    | .ok (some data) => match g.grepText H lib w data with
      | (g', .error e) => (g', .error e)
      | (g', .ok l) => g'.grepTexts H lib cx file (rels ++ l) ws

/-- `LcuHashGuesser.grep_wad`: cdtb/hashes.py:441-503. `file` is the content of the WAD file. -/
def Guesser.lcuGrepWad (H : Str → Int) (lib : TextLib) (cx : Codecs) (file : Bytes) (g : Guesser) (ws : List WadEntry) : Guesser × Res Unit :=
  match g.grepTexts H lib cx file [] ws with
  | (g', .error e) => (g', .error e)
  | (g', .ok rels) => (g'.checkBasenames H (rels.dedup.map lower), .ok ())

end Cdtb
