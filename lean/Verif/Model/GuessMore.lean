import Verif.Model.GuessPaths
import Verif.Model.Grep
/-!
# Model of cdtb/hashes.py: the other guessing methods (lines 195-203, 245-247, 382-428, 517-554, 582-599, 617-622, 695-719, 761-798)

Regular expressions are modelled by functions on characters. The order of sets is the order of lists. What is read from files or from
the network is an argument.
-/
namespace Cdtb
set_option autoImplicit false
open Py

/-! ## Files with hashes -/

/-- `int(h, 16)`: cdtb/hashes.py:202 -/
def hashOf (l : Str) : Res Int := match int16 l with
  | none => .error .value
  | some n => .ok n

/-- `HashGuesser.unknown_from_export`: cdtb/hashes.py:195-203, given the texts of the files `*.unknown.txt` -/
def unknownFromExport (texts : List Str) : Res (List Int) := do
  let l ← (texts.flatMap fun t => fileLines (universalNewlines t)).mapM hashOf
  pure l.dedup

/-- `l.split('"')[1]`: cdtb/hashes.py:247 -/
def xdbgPath (l : Str) : Res Str := match (splitChar '"' l)[1]? with
  | none => .error .index
  | some p => .ok p

/-- `HashGuesser.check_xdbg_hashes`: cdtb/hashes.py:245-247, given the text of the file -/
def Guesser.checkXdbg (H : Str → Int) (g : Guesser) (text : Str) : Guesser × Res Unit :=
  g.checkGen H (((fileLines (universalNewlines text)).filter fun l => startsWith l "hash: ".toList).map xdbgPath)

/-! ## Client paths -/

/-- `/[0-9a-f]{32}\.` at the start of a string: cdtb/hashes.py:383, 425 -/
def hexFileAt : Str → Bool
  | '/' :: r => (r.take 32).length = 32 && (r.take 32).all (fun c => ('0' ≤ c && c ≤ '9') || ('a' ≤ c && c ≤ 'f')) && (r.drop 32).head? = some '.'
  | _ => false

/-- `/[0-9a-f]{32}\.` somewhere: cdtb/hashes.py:383, 425 -/
def hexFile : Str → Bool
  | [] => false
  | c :: r => hexFileAt (c :: r) || hexFile r

/-- The paths ignored by `LcuHashGuesser.build_wordlist`: cdtb/hashes.py:383 -/
def lcuWordFilter (p : Str) : Bool := startsWith p "plugins/rcp-be-lol-game-data/global/default/data/characters/".toList || hexFile p

/-- `LcuHashGuesser.build_wordlist`: cdtb/hashes.py:382-385 -/
def Guesser.lcuWordlist (g : Guesser) : List Str := buildWordlist (g.known.values.filter fun p => !lcuWordFilter p)

/-- `if x` where `x` may be `None` -/
def truthy (x : Option Str) : Option Str := match x with
  | some s => if s ≠ [] then some s else none
  | none => none

/-- The paths of a plugin, in `LcuHashGuesser.substitute_basename_words`: cdtb/hashes.py:408-409 -/
def lcuOfPlugin (plugin : Option Str) (paths : List Str) : List Str := match truthy plugin with
  | some n => paths.filter fun p => startsWith p ("plugins/".toList ++ n ++ "/".toList)
  | none => paths

/-- The paths with an extension, in `LcuHashGuesser.substitute_basename_words`: cdtb/hashes.py:410-411 -/
def lcuWithExt (fileext : Option Str) (paths : List Str) : List Str := match truthy fileext with
  | some e => paths.filter fun p => endsWith p e
  | none => paths

/-- The paths of `LcuHashGuesser.substitute_basename_words`: cdtb/hashes.py:407-411 -/
def lcuSelected (paths : List Str) (plugin fileext : Option Str) : List Str := lcuWithExt fileext (lcuOfPlugin plugin paths)

/-- `LcuHashGuesser.substitute_basename_words`: cdtb/hashes.py:401-413 -/
def Guesser.lcuSubstituteWords (H : Str → Int) (g : Guesser) (plugin fileext : Option Str) (words : Option (List Str)) (nold nnew : Nat) :
    Guesser × Res Unit :=
  g.substituteWords H (lcuSelected g.known.values plugin fileext) (words.getD g.lcuWordlist) nold nnew

/-- `LcuHashGuesser.add_basename_word`: cdtb/hashes.py:415-416 -/
def Guesser.lcuAddWord (H : Str → Int) (g : Guesser) : Guesser × Res Unit := g.addWord H g.known.values g.lcuWordlist

/-- What follows `^plugins/rcp-be-lol-game-data/[^/]+/[^/]+/v1/`: cdtb/hashes.py:420, 423 -/
def afterGameDataV1 (p : Str) : Option Str := match afterPrefix "plugins/rcp-be-lol-game-data/".toList p with
  | none => none
  | some s => match matchDir s with
    | none => none
    | some (_, s) => match matchDir s with
      | none => none
      | some (_, s) => afterPrefix "v1/".toList s

/-- `champion-`, or in `champions` the file `-1.json` where the dot is any character: cdtb/hashes.py:420, 423 -/
def championFile (s : Str) : Bool :=
  startsWith s "champion-".toList ||
  match afterPrefix "champions/-1".toList s with
  | some (c :: r) => c ≠ '\n' && startsWith r "json".toList
  | _ => false

/-- The files of champions, ignored by `LcuHashGuesser.substitute_numbers`: cdtb/hashes.py:420, 423 -/
def championPath (p : Str) : Bool := match afterGameDataV1 p with
  | some s => championFile s
  | none => false

/-- `^plugins/rcp-be-lol-game-data/global/default/data/items/icons2d/\d+_`: cdtb/hashes.py:422 -/
def itemIcon (p : Str) : Bool := match afterPrefix "plugins/rcp-be-lol-game-data/global/default/data/items/icons2d/".toList p with
  | none => false
  | some s => s.takeWhile isDig ≠ [] && (s.dropWhile isDig).head? = some '_'

/-- The paths ignored by `LcuHashGuesser.substitute_numbers`: cdtb/hashes.py:419-426 -/
def lcuNumberFilter (p : Str) : Bool :=
  championPath p ||
  startsWith p "plugins/rcp-be-lol-game-data/global/default/data/characters/".toList ||
  startsWith p "plugins/rcp-be-lol-game-data/global/default/assets/characters/".toList ||
  itemIcon p || hexFile p

/-- `LcuHashGuesser.substitute_numbers`: cdtb/hashes.py:418-428 -/
def Guesser.lcuSubstituteNumbers (H : Str → Int) (g : Guesser) (nmax : Nat := 10000) (digits : DigitsArg := .none) : Guesser × Res Unit :=
  g.substituteNumbers H (g.known.values.filter fun p => !lcuNumberFilter p) nmax digits

/-- `perk_primary`: cdtb/hashes.py:524 -/
def perkPrimary : List Nat := (List.range 6).map fun i => 8000 + 100 * i

/-- `perk_secondary`: cdtb/hashes.py:526 -/
def perkSecondary (i : Nat) : List Nat := (List.range 100).map (i + ·)

/-- Inventory cards of perks: cdtb/hashes.py:527-530 -/
def perkCards (i : Nat) : List Str := (0 :: perkPrimary).flatMap fun j => (0 :: perkSecondary i).map fun k =>
  "plugins/rcp-fe-lol-perks/global/default/images/inventory-card/".toList ++ showNat 10 i ++ "/p".toList ++ showNat 10 i ++ "_s".toList ++
    showNat 10 j ++ "_k".toList ++ showNat 10 k ++ ".jpg".toList

/-- Other images of perks: cdtb/hashes.py:531-534 -/
def perkConstructs (i : Nat) : List Str :=
  (["environment.jpg".toList, "construct.png".toList] ++
    (perkSecondary i).map (fun j => "keystones/".toList ++ showNat 10 j ++ ".png".toList) ++
    perkPrimary.map (fun j => "second/".toList ++ showNat 10 j ++ ".png".toList)).map fun p =>
      "plugins/rcp-fe-lol-perks/global/default/images/construct/".toList ++ showNat 10 i ++ '/' :: p

/-- `x.split("_")[n]`: cdtb/hashes.py:542-543, 548. All the languages have two parts. -/
def langPart (n : Nat) (x : Str) : Str := (splitChar '_' x).getD n []

/-- Files of the sanitizer: cdtb/hashes.py:537-549 -/
def sanitizerFiles : List Str :=
  ((List.range 5).flatMap fun i => ["filter".toList, "unfilter".toList, "whitelist".toList].flatMap fun action =>
    let base := showNat 10 i ++ '.' :: action
    [base ++ ".csv".toList] ++
    languageNames.map (fun x => base ++ ".language.".toList ++ langPart 0 x ++ ".csv".toList) ++
    languageNames.map (fun x => base ++ ".country.".toList ++ langPart 1 x ++ ".csv".toList) ++
    regionNames.map (fun x => base ++ ".region.".toList ++ x ++ ".csv".toList) ++
    languageNames.map (fun x => base ++ ".locale.".toList ++ x ++ ".csv".toList)) ++
  (["allowedchars", "breakingchars", "projectedchars", "projectedchars1337", "punctuationchars", "variantaliases"].map String.toList).flatMap fun p =>
    languageNames.map (fun x => p ++ ".locale.".toList ++ x ++ ".txt".toList) ++
    languageNames.map fun x => p ++ ".language.".toList ++ langPart 0 x ++ ".txt".toList

/-- `LcuHashGuesser.guess_patterns`: cdtb/hashes.py:517-554 -/
def Guesser.guessPatterns (H : Str → Int) (g : Guesser) : Guesser × Res Unit :=
  let g := perkPrimary.foldl (fun g i => (g.checkIter H (perkCards i)).checkIter H (perkConstructs i)) g
  let g := g.checkIter H (sanitizerFiles.map fun p => "plugins/rcp-be-sanitizer/global/default/".toList ++ p)
  g.guessLoot H

/-! ## Game paths -/

/-- `GameHashGuesser.build_wordlist`: cdtb/hashes.py:582-583 -/
def Guesser.gameWordlist (g : Guesser) : List Str := buildWordlist g.known.values

/-- `^(?:assets/|data/)?characters/([^/.]+)(?:/|$)`: cdtb/hashes.py:586. If the name is followed by a dot then a part of the name is
followed by neither a slash nor the end. -/
def matchCharName (p : Str) : Option Str :=
  match (afterPrefix "assets/characters/".toList p).or ((afterPrefix "data/characters/".toList p).or (afterPrefix "characters/".toList p)) with
  | none => none
  | some s =>
    let n := s.takeWhile fun c => c ≠ '/' && c ≠ '.'
    let r := s.drop n.length
    if n ≠ [] && (r = [] || r.head? = some '/') then some n else none

/-- `GameHashGuesser.get_characters`: cdtb/hashes.py:585-592 -/
def Guesser.getCharacters (g : Guesser) : List Str := sortedSet (g.known.values.filterMap matchCharName)

/-- `GameHashGuesser.substitute_numbers`: cdtb/hashes.py:597-599 -/
def Guesser.gameSubstituteNumbers (H : Str → Int) (g : Guesser) (nmax : Nat := 100) (digits : DigitsArg := .none) : Guesser × Res Unit :=
  g.substituteNumbers H g.known.values nmax digits

/-- `GameHashGuesser.substitute_basename_words`: cdtb/hashes.py:617-618 -/
def Guesser.gameSubstituteWords (H : Str → Int) (g : Guesser) : Guesser × Res Unit :=
  g.substituteWords H g.known.values g.gameWordlist 1 1

/-- The paths ignored by `GameHashGuesser.add_basename_word`: cdtb/hashes.py:621 -/
def gameAddFilter (p : Str) : Bool :=
  ["assets/characters/".toList, "vo/".toList, "sfx/".toList, "skins_skin".toList].any fun part => containsSub p part

/-- `GameHashGuesser.add_basename_word`: cdtb/hashes.py:620-622 -/
def Guesser.gameAddWord (H : Str → Int) (g : Guesser) : Guesser × Res Unit :=
  g.addWord H (g.known.values.filter fun p => !gameAddFilter p) g.gameWordlist

/-- A skin of `skins.json`: its key, `loadScreenPath` and the ids of `chromas` (cdtb/hashes.py:704-709) -/
structure ChromaSkin where
  id : Str
  path : Str
  chromas : List Int

/-- The name of the character of a skin: cdtb/hashes.py:703, 705. `.group` of a failed match raises an error. -/
def chromaChar (path : Str) : Res Str := match afterPrefix "/lol-game-data/assets/assets/characters/".toList (lower path) with
  | none => .error .attribute
  | some s => match matchDir s with
    | none => .error .attribute
    | some (n, r) => if startsWith r "skins/".toList then .ok n else .error .attribute

/-- The character and the skins of a group: cdtb/hashes.py:705-710 -/
def chromaGroup (s : ChromaSkin) : Res (Str × List Int) := do
  let n ← chromaChar s.path
  match int10 s.id with
  | none => .error .value
  | some i => .ok (n, (i :: s.chromas).map (· % 1000))

/-- The candidates for a character: cdtb/hashes.py:714-719 -/
def chromaNames (char : Str) (groups : List (List Int)) : List Str :=
  let strGroups := groups.map (·.map fun i => "_skins_skin".toList ++ showInt i) ++ [["_skins_root".toList]]
  (List.range strGroups.length).flatMap fun n => (combinations strGroups (n + 1)).map fun p =>
    "data/".toList ++ char ++ (p.flatten.insertionSort (· ≤ ·)).flatten ++ ".bin".toList

/-- `GameHashGuesser.guess_skin_groups_bin_using_chromas`: cdtb/hashes.py:695-719, given the skins of `skins.json` -/
def Guesser.guessChromas (H : Str → Int) (g : Guesser) (skins : List ChromaSkin) : Guesser × Res Unit :=
  match skins.mapM chromaGroup with
  | .error e => (g, .error e)
  | .ok gs => ((gs.map (·.1)).dedup.foldl (fun g char => g.checkIter H (chromaNames char ((gs.filter fun x => x.1 = char).map (·.2)))) g, .ok ())

/-- The files checked for a character: cdtb/hashes.py:767-780 -/
def characterFiles (c : Str) : List Str := [
  "data/characters/".toList ++ c ++ "/skins/root.bin".toList,
  "data/characters/".toList ++ c ++ "/skins/base/".toList ++ c ++ ".skl".toList,
  "data/characters/".toList ++ c ++ "/skins/base/".toList ++ c ++ ".skn".toList,
  "data/characters/".toList ++ c ++ "/skins/base/".toList ++ c ++ "_tx_cm.dds".toList,
  "data/characters/".toList ++ c ++ "/tiers/root.bin".toList,
  "data/characters/".toList ++ c ++ "/".toList ++ c ++ ".bin".toList,
  "data/characters/".toList ++ c ++ "/".toList ++ c ++ ".ddf".toList,
  "data/characters/".toList ++ c ++ "/hud/".toList ++ c ++ "_circle.dds".toList,
  "data/characters/".toList ++ c ++ "/hud/".toList ++ c ++ "_square.dds".toList,
  "assets/characters/".toList ++ c ++ "/hud/".toList ++ c ++ "_circle.dds".toList,
  "assets/characters/".toList ++ c ++ "/hud/".toList ++ c ++ "_square.dds".toList,
  "characters/".toList ++ c]

/-- The loop of `guess_characters_files` for a character: cdtb/hashes.py:784-789 -/
def Guesser.guessCharacter (H : Str → Int) (g : Guesser) (c : Str) : Guesser :=
  let g := g.checkIter H (characterFiles c)
  let nskins := if c = "sightward".toList then 500 else 200
  let g := g.checkIter H ((List.range nskins).map fun i => "data/characters/".toList ++ c ++ "/skins/skin".toList ++ showNat 10 i ++ ".bin".toList)
  let g := g.checkIter H ((List.range nskins).map fun i => "data/characters/".toList ++ c ++ "/animations/skin".toList ++ showNat 10 i ++ ".bin".toList)
  if startsWith c "pet".toList then
    g.checkIter H ((List.range 10).map fun i => "data/characters/".toList ++ c ++ "/tiers/tier".toList ++ showNat 10 i ++ ".bin".toList)
  else g

/-- `GameHashGuesser.guess_characters_files`: cdtb/hashes.py:761-789 (`sorted` keeps duplicates, which change nothing) -/
def Guesser.guessCharacters (H : Str → Int) (g : Guesser) (chars : Option (List Str)) : Guesser :=
  ((chars.getD g.getCharacters).insertionSort (· ≤ ·)).foldl (fun g c => g.guessCharacter H c) g

/-- `\.[pv]s(_[23]_0|(?=$|[.-]))` at the start of a string, the matched text: cdtb/hashes.py:794 -/
def shaderExt (s : Str) : Option Str :=
  if startsWith s ".ps".toList || startsWith s ".vs".toList then
    let r := s.drop 3
    if startsWith r "_2_0".toList || startsWith r "_3_0".toList then some (s.take 7)
    else if r = [] || r = ['\n'] || r.head? = some '.' || r.head? = some '-' then some (s.take 3)
    else none
  else none

/-- `.*\.[pv]s(_[23]_0|(?=$|[.-]))`, the matched text: cdtb/hashes.py:794-795. The `.*` is greedy and stops at newlines. -/
def shaderBase : Str → Option Str
  | [] => none
  | c :: r => match (if c = '\n' then none else shaderBase r) with
    | some m => some (c :: m)
    | none => shaderExt (c :: r)

/-- `GameHashGuesser.guess_shader_variants`: cdtb/hashes.py:791-798 -/
def Guesser.guessShaders (H : Str → Int) (g : Guesser) : Guesser :=
  (sortedSet (g.known.values.filterMap shaderBase)).foldl (fun g path =>
    (g.checkIter H (shaderVariants.map fun v => path ++ v)).checkIter H
      (shaderVariants.flatMap fun v => (List.range 200).map fun n => path ++ v ++ '_' :: showNat 10 (100 * n))) g

end Cdtb
