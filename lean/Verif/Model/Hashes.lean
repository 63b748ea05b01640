import Verif.Model.Rads
import Verif.Model.Releases
import Verif.Py.Path
import Mathlib.Data.List.Dedup
/-!
# Model of cdtb/hashes.py: hash files (lines 53-77), word lists (113-125), the hash guesser (172-352) and some of the
guessing methods (505-515, 552-554, 601-615)

Sets are lists without duplicates. Text is modelled as characters: the encoding of files is not modelled.
-/
namespace Cdtb
set_option autoImplicit false
open Py

/-! ## Hash files -/

/-- `f"{h:0{w}x}"`: cdtb/hashes.py:58. The sign counts in the width. -/
def fmtHex (w : Nat) (h : Int) : Str :=
  if h < 0 then '-' :: hexW (w - 1) h.natAbs else hexW w h.natAbs

/-- A line of the saved file: cdtb/hashes.py:58, 74 -/
def hashLine (w : Nat) (kv : Int × Str) : Str := fmtHex w kv.1 ++ ' ' :: kv.2 ++ ['\n']

/-- `sorted(self.hashes.items(), key=lambda kv: kv[1])`: cdtb/hashes.py:73 -/
def sortByPath (d : Dict Int Str) : List (Int × Str) := d.insertionSort fun a b => a.2 ≤ b.2

/-- Text written by `HashFile.save`: cdtb/hashes.py:71-74 -/
def saveText (w : Nat) (d : Dict Int Str) : Str := ((sortByPath d).map (hashLine w)).flatten

/-- A line of a hash file: cdtb/hashes.py:65-66 -/
def parseHashLine (l : Str) : Res (Int × Str) := match split1 ' ' l with
  | none => .error .value
  | some (h, s) => match int16 h with
    | none => .error .value
    | some n => .ok (n, rstripChar '\n' s)

/-- What `HashFile.load` reads in a text: cdtb/hashes.py:64-66 -/
def loadText (text : Str) : Res (Dict Int Str) := do
  let l ← (fileLines (universalNewlines text)).mapM parseHashLine
  pure (Dict.ofList l)

/-- A `HashFile` (cdtb/hashes.py:56-59): content of the file if it exists, `hash_size` and `self.hashes` -/
structure HashFile where
  file : Option Str
  size : Nat
  hashes : Option (Dict Int Str)

/-- `HashFile.load`: cdtb/hashes.py:61-69 -/
def HashFile.load (hf : HashFile) (force : Bool) : HashFile × Res (Dict Int Str) :=
  match force, hf.hashes with
  | false, some d => (hf, .ok d)
  | _, _ => match hf.file with
    | none => (hf, .error .fileNotFound)
    | some text => match loadText text with
      | .error e => (hf, .error e)
      | .ok d => ({ hf with hashes := some d }, .ok d)

/-- `HashFile.save`: cdtb/hashes.py:71-74. The file is truncated before an `AttributeError` if nothing was loaded. -/
def HashFile.save (hf : HashFile) : HashFile × Res Unit :=
  match hf.hashes with
  | none => ({ hf with file := some [] }, .error .attribute)
  | some d => ({ hf with file := some (saveText hf.size d) }, .ok ())

/-! ## Word lists -/

/-- `^[0-9]{3,}$` (with `re.search`; `$` also matches before a final newline): cdtb/hashes.py:123-124 -/
def isLargeNumber (w : Str) : Bool :=
  let w' := if endsWith w ['\n'] then w.dropLast else w
  3 ≤ w'.length && w'.all fun c => '0'.toNat ≤ c.toNat && c.toNat ≤ '9'.toNat

/-- Words of a path: cdtb/hashes.py:119-120 -/
def pathWords (path : Str) : List Str :=
  (splitChar '-' (replaceChar '.' '-' (replaceChar '_' '-' (replaceChar '/' '-' path)))).dropLast

/-- `build_wordlist`: cdtb/hashes.py:113-125 -/
def buildWordlist (paths : List Str) : List Str :=
  ((paths.flatMap pathWords).dedup.filter fun w => !isLargeNumber w).insertionSort (· ≤ ·)

/-! ## The guesser -/

/-- A `HashGuesser` (cdtb/hashes.py:177-185). `known` is the dict of the hash file, `printed` is what was printed, `dirs`
is the cache of `directory_list`. -/
structure Guesser where
  known : Dict Int Str
  unknown : List Int
  printed : List (Int × Str)
  dirs : Option (List Str)

/-- `HashGuesser.__init__`: cdtb/hashes.py:177-185 -/
def Guesser.init (known : Dict Int Str) (hashes : List Int) : Guesser :=
  ⟨known, hashes.dedup.filter fun h => !known.contains h, [], none⟩

/-- `HashGuesser._add_known`: cdtb/hashes.py:208-211 (`set.remove` of an element that is there) -/
def Guesser.addKnown (g : Guesser) (h : Int) (p : Str) : Guesser :=
  { g with known := g.known.set h p, unknown := g.unknown.erase h, printed := g.printed ++ [(h, p)] }

/-- `HashGuesser.check`: cdtb/hashes.py:213-218. `H` is `xxh64_intdigest`. -/
def Guesser.check (H : Str → Int) (g : Guesser) (p : Str) : Guesser :=
  let h := H p
  if h ∈ g.unknown then g.addKnown h p else g

/-- `HashGuesser.is_known`: cdtb/hashes.py:220-227 -/
def Guesser.isKnown (H : Str → Int) (g : Guesser) (p : Str) : Guesser × Bool :=
  let h := H p
  if h ∈ g.unknown then (g.addKnown h p, true) else (g, g.known.contains h)

/-- The loop of `HashGuesser.check_iter`: cdtb/hashes.py:235-239, for an iterable that does not depend on the guesser -/
def Guesser.checkIter (H : Str → Int) (g : Guesser) : List Str → Guesser
  | [] => g
  | p :: ps =>
    let h := H p
    Guesser.checkIter H (if h ∈ g.unknown then g.addKnown h p else g) ps

/-- Argument of `check_iter` -/
inductive CandArg where
  | str (s : Str)
  | paths (l : List Str)

/-- `HashGuesser.check_iter`: cdtb/hashes.py:229-239 -/
def Guesser.checkIterArg (H : Str → Int) (g : Guesser) : CandArg → Guesser × Res Unit
  | .str _ => (g, .error .type)
  | .paths l => (g.checkIter H l, .ok ())

/-- `text.split()` -/
def splitWs : Str → List Str
  | [] => []
  | c :: r => if isSpace c then splitWs r
    else if (r.head?.map isSpace).getD true then [c] :: splitWs r
    else match splitWs r with
      | [] => [[c]]
      | w :: ws => (c :: w) :: ws

/-- `HashGuesser.check_text_list`: cdtb/hashes.py:241-243 -/
def Guesser.checkTextList (H : Str → Int) (g : Guesser) (text : Str) : Guesser :=
  g.checkIter H ((splitWs text).filter fun s => s ≠ [])

/-- The loop of `HashGuesser.directory_list`: cdtb/hashes.py:263-265, with at most `fuel` iterations -/
def dirLoop : Nat → List Str → List Str → Option (List Str)
  | fuel, bases, dirs =>
    if bases.length = 0 then some dirs else match fuel with
      | 0 => none
      | fuel + 1 =>
        let bases' := ((bases.map dirname).dedup).filter fun p => p ∉ dirs
        dirLoop fuel bases' (dirs ++ bases')

/-- Enough iterations (see `C47_terminates`) -/
def dirFuel (paths : List Str) : Nat := (paths.map List.length).sum + 2

/-- The computation of `directory_list` for some known paths: cdtb/hashes.py:260-266 -/
def computeDirs (paths : List Str) : List Str := (dirLoop (dirFuel paths) paths []).getD []

/-- `HashGuesser.directory_list`: cdtb/hashes.py:256-267 -/
def Guesser.directoryList (g : Guesser) (cached : Bool) : Guesser × List Str :=
  match cached, g.dirs with
  | true, some l => (g, l)
  | _, _ => ({ g with dirs := some (computeDirs g.known.values) }, computeDirs g.known.values)

/-! ## Guessing methods -/

/-- `sorted` on a set of strings -/
def sortedSet (l : List Str) : List Str := l.dedup.insertionSort (· ≤ ·)

/-- The loops of `check_basenames` and `substitute_basenames`: cdtb/hashes.py:253-254, 275-276 -/
def Guesser.checkNames (H : Str → Int) (g : Guesser) (dirs : List Str) (names : List Str) : Guesser :=
  names.foldl (fun g name => g.checkIter H (dirs.map fun dir => dir ++ '/' :: name)) g

/-- `HashGuesser.check_basenames`: cdtb/hashes.py:249-254 -/
def Guesser.checkBasenames (H : Str → Int) (g : Guesser) (names : List Str) : Guesser :=
  let r := g.directoryList true
  r.1.checkNames H r.2 (names.insertionSort (· ≤ ·))

/-- `HashGuesser.substitute_basenames`: cdtb/hashes.py:269-276 -/
def Guesser.substituteBasenames (H : Str → Int) (g : Guesser) : Guesser :=
  let names := sortedSet (g.known.values.map basename)
  let r := g.directoryList true
  r.1.checkNames H r.2 names

/-- `HashGuesser.substitute_extensions`: cdtb/hashes.py:339-352. The iteration order of the set of extensions is the one of
the list. -/
def Guesser.substituteExtensions (H : Str → Int) (g : Guesser) : Guesser :=
  let pe := g.known.values.map splitext
  let extensions := ((pe.map (·.2)).filter fun e => !endsWith e "00".toList).dedup
  (sortedSet (pe.map (·.1))).foldl (fun g prefix_ => g.checkIter H (extensions.map fun ext => prefix_ ++ ext)) g

/-- `LcuHashGuesser.guess_from_game_hashes`: cdtb/hashes.py:505-515, given the paths of the game hash file -/
def Guesser.guessFromGame (H : Str → Int) (g : Guesser) (paths : List Str) : Guesser :=
  paths.foldl (fun g path =>
    let base := "plugins/rcp-be-lol-game-data/global/default".toList
    let r := splitext path
    if r.2 = ".dds".toList then (g.check H (base ++ '/' :: (r.1 ++ ".png".toList))).check H (base ++ '/' :: (r.1 ++ ".jpg".toList))
    else if r.2 = ".json".toList then g.check H (base ++ '/' :: path)
    else g) g

/-- Iterating on the values of `self.known` while checking a candidate for some of them: `next` raises `RuntimeError` if
the size of the dict changed, even after the last value (cdtb/hashes.py:552-554). The list is the values that remain. -/
def Guesser.liveIter (H : Str → Int) (cand : Str → Option Str) : Guesser → List Str → Guesser × Res Unit
  | g, [] => (g, .ok ())
  | g, p :: ps => match cand p with
    | none => g.liveIter H cand ps
    | some c =>
      let g' := g.check H c
      if g'.known.length = g.known.length then g'.liveIter H cand ps else (g', .error .runtime)

/-- Candidate for a loot icon: cdtb/hashes.py:553-554 -/
def lootCandidate (p : Str) : Option Str :=
  if startsWith p "plugins/rcp-fe-lol-loot/global/default/assets/loot_item_icons/".toList then
    some (replaceGo ".png".toList "_splash.png".toList 0 p)
  else none

/-- The last loop of `LcuHashGuesser.guess_patterns`: cdtb/hashes.py:552-554 -/
def Guesser.guessLoot (H : Str → Int) (g : Guesser) : Guesser × Res Unit := g.liveIter H lootCandidate g.known.values

/-- Values of `GameHashGuesser.check_basename_prefixes`: cdtb/hashes.py:605-612 -/
def prefixedPaths (known prefixes : List Str) : List Str :=
  (known.flatMap fun p =>
    let r := psplit p
    let path := if r.1 ≠ [] then r.1 ++ ['/'] else r.1
    prefixes.map fun prefix_ => path ++ prefix_ ++ r.2).dedup

/-- `GameHashGuesser.check_basename_prefixes`: cdtb/hashes.py:601-615 -/
def Guesser.checkPrefixes (H : Str → Int) (g : Guesser) (prefixes : Option (List Str)) : Guesser :=
  g.checkIter H (prefixedPaths g.known.values (prefixes.getD ["2x_".toList, "2x_sd_".toList, "4x_".toList, "4x_sd_".toList, "sd_".toList]))

end Cdtb
