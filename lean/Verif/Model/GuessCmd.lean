import Verif.Model.WadCmd
import Verif.Model.GuessMore
import Verif.Model.GuessPaths
import Verif.Model.Grep
import Verif.Model.GrepLcu
/-!
# Model of the command that guesses hashes (cdtb/__main__.py:159-261), with the guessers made from WAD files (cdtb/hashes.py:187-193, 205-206,
370-380, 570-580)

The module-level `hashfile_lcu` and `hashfile_game` keep the dict of the first `load()`. The model loads the file each time: nothing
writes a hash file between the first load and the creation of its guesser.
-/
namespace Cdtb
set_option autoImplicit false
open Py

/-- Names of the methods: cdtb/__main__.py:160-172 -/
def guessMethods : List Str :=
  ["grep", "numbers", "basenames", "words", "ext", "regionlang", "plugin", "skin-num", "character", "prefixes"].map String.toList

/-- Arguments of `hashes-guess`: cdtb/__main__.py:434-443 -/
structure GuessArgs where
  dryRun : Bool := false
  methods : Option Str := none
  listMethods : Bool := false
  wad : List Str := []
deriving DecidableEq, Repr

/-- The methods to use: cdtb/__main__.py:182-188 -/
def methodNames (methods : Option Str) : Res (List Str) := match methods with
  | none | some [] => .ok (guessMethods.filter fun n => n ∉ ["basenames".toList, "words".toList])
  | some s =>
    let names := (splitChar ',' s).map strip
    if names.all (· ∈ guessMethods) then .ok names else .error .usage

/-- A component (cdtb/storage.py:457-480) as the command uses it: the paths that `fspaths()` generates for the elements of a patch, where an
exception ends the iteration, or something that is not a patch -/
inductive GuessComponent where
  | patch (paths : List (Res Str))
  | element

/-- `Wad(path)`: cdtb/wad.py:190-254, with the default hash file of the path -/
def openWadAt (cx : Codecs) (dir : Str) (fs : FS) (path : Str) : Res (Str × WadFile) := do
  let file ← fs.readFile path
  let (version, entries) ← parseHeaders.run file
  let hashes ← defaultHashfile dir path
  let d ← loadHashFile fs hashes
  let files := resolvePaths d entries
  let toc ← loadSubchunkToc cx file files
  .ok (path, { version, file, files, toc })

/-- The WADs of the elements of a patch: cdtb/__main__.py:205-206 -/
def openPatchWads (cx : Codecs) (dir : Str) (fs : FS) : List (Res Str) → Res (List (Str × WadFile))
  | [] => .ok []
  | .error e :: _ => .error e
  | .ok p :: ps =>
    if endsWith p ".wad".toList || endsWith p ".wad.client".toList then do
      let w ← openWadAt cx dir fs p
      let ws ← openPatchWads cx dir fs ps
      .ok (w :: ws)
    else openPatchWads cx dir fs ps

/-- The WADs of an argument: cdtb/__main__.py:193-206. `parse` is `parse_storage_component` for the storage of the command; only a patch has
an attribute `elements`. The error `.value` stands for `ValueError` and its subclasses, which are caught the same way. -/
def openArg (cx : Codecs) (dir : Str) (parse : Str → Res (Option GuessComponent)) (fs : FS) (arg : Str) : Res (List (Str × WadFile)) :=
  match parse arg with
  | .error .value => do
    let w ← openWadAt cx dir fs arg
    .ok [w]
  | .error e => .error e
  | .ok none => .ok []
  | .ok (some (.patch paths)) => openPatchWads cx dir fs paths
  | .ok (some .element) => .error .attribute

/-- All the WADs: cdtb/__main__.py:191-206 -/
def openArgs (cx : Codecs) (dir : Str) (parse : Str → Res (Option GuessComponent)) (fs : FS) : List Str → Res (List (Str × WadFile))
  | [] => .ok []
  | a :: as => do
    let ws ← openArg cx dir parse fs a
    let r ← openArgs cx dir parse fs as
    .ok (ws ++ r)

/-- `HashGuesser.from_wads`: cdtb/hashes.py:187-193, 374-380, 574-580. Each guesser uses the WADs with its extension. -/
def guesserOf (known : Dict Int Str) (wads : List WadFile) : Guesser :=
  Guesser.init known (wads.flatMap fun w => w.files.map fun f => (f.pathHash : Int))

/-- The WADs whose path has an extension: cdtb/hashes.py:380, 580 -/
def wadsWith (ext : Str) (wads : List (Str × WadFile)) : List WadFile := (wads.filter fun w => endsWith w.1 ext).map (·.2)

/-- A file of a WAD, for `GameHashGuesser.grep_wad`: cdtb/hashes.py:806-814. Files that are skipped are not read. -/
def grepEntryOf (cx : Codecs) (file : Bytes) (toc : Option Bytes) (w : WadEntry) : Res GrepEntry :=
  if w.type = 2 then .ok ⟨w.type, w.ext, w.path, none⟩
  else if w.ext ∈ skippedExts.map some then .ok ⟨w.type, w.ext, w.path, none⟩
  else match readFileData cx w file toc with
    | .error e => .error e
    | .ok data => .ok ⟨w.type, w.ext, w.path, data⟩

/-- `GameHashGuesser.grep_wad`: cdtb/hashes.py:800-883, with the reading of the files -/
def Guesser.gameGrepWad (H : Str → Int) (cx : Codecs) (file : Bytes) (toc : Option Bytes) : Guesser → List WadEntry → Guesser × Res Unit
  | g, [] => (g, .ok ())
  | g, w :: ws => match grepEntryOf cx file toc w with
    | .error e => (g, .error e)
    | .ok f => match g.grepEntry H f with
      | (g', .ok ()) => g'.gameGrepWad H cx file toc ws
      | (g', .error e) => (g', .error e)

/-- Guessed extensions, by hash: cdtb/wad.py:22 -/
abbrev ExtCache := Dict Nat (Option Str)

/-- The method `grep`: cdtb/__main__.py:212-215, 237-240 -/
def grepWads (cx : Codecs) (grep : WadFile → Guesser → Guesser × Res Unit) : ExtCache → Guesser → List WadFile → ExtCache × Guesser × Res Unit
  | cache, g, [] => (cache, g, .ok ())
  | cache, g, w :: ws => match guessExtensions cx w.file w.toc cache w.files with
    | (cache', _, .error e) => (cache', g, .error e)
    | (cache', files, .ok ()) => match grep { w with files := files } g with
      | (g', .error e) => (cache', g', .error e)
      | (g', .ok ()) => grepWads cx grep cache' g' ws

/-- The other methods of a guesser, in the order of the command: those that are in `names` are called -/
def runMethods (names : List Str) : List (Str × (Guesser → Guesser × Res Unit)) → Guesser → Guesser × Res Unit
  | [], g => (g, .ok ())
  | (n, f) :: r, g =>
    if n ∈ names then match f g with
      | (g', .ok ()) => runMethods names r g'
      | (g', .error e) => (g', .error e)
    else runMethods names r g

/-- Methods for hashes of the client: cdtb/__main__.py:216-227 -/
def lcuMethods (H : Str → Int) : List (Str × (Guesser → Guesser × Res Unit)) := [
  ("numbers".toList, fun g => g.lcuSubstituteNumbers H),
  ("basenames".toList, fun g => (g.substituteBasenames H, .ok ())),
  ("words".toList, fun g => g.lcuSubstituteWords H none none none 1 1),
  ("ext".toList, fun g => (g.substituteExtensions H, .ok ())),
  ("regionlang".toList, fun g => (g.substituteRegionLang H, .ok ())),
  ("plugin".toList, fun g => g.substitutePlugin H)]

/-- Methods for hashes of the game: cdtb/__main__.py:241-254 -/
def gameMethods (H : Str → Int) : List (Str × (Guesser → Guesser × Res Unit)) := [
  ("numbers".toList, fun g => g.gameSubstituteNumbers H),
  ("basenames".toList, fun g => (g.substituteBasenames H, .ok ())),
  ("words".toList, fun g => g.gameSubstituteWords H),
  ("ext".toList, fun g => (g.substituteExtensions H, .ok ())),
  ("skin-num".toList, fun g => g.substituteSkins H),
  ("character".toList, fun g => (g.substituteCharacter H, .ok ())),
  ("prefixes".toList, fun g => (g.checkPrefixes H none, .ok ()))]

/-- `HashFile.save` for the hash files of WADs (cdtb/hashes.py:71-74): the file is truncated, then written. With the fault `(n, e)`, the
write stops after `n` bytes, with `e`. -/
def saveHashFile (fs : FS) (path : Str) (d : Dict Int Str) (fault : Option (Nat × Err)) : FS × Res Unit := match fault with
  | none => (fs.set path (some (.file (utf8Bytes (saveText 16 d)))), .ok ())
  | some (n, e) => (fs.set path (some (.file ((utf8Bytes (saveText 16 d)).take n))), .error e)

/-- Result of the command: file system, lines that are printed, outcome -/
structure GuessRun where
  fs : FS
  out : List Str
  res : Res Unit

/-- What `_add_known` prints: cdtb/hashes.py:209 -/
def foundLine (x : Int × Str) : Str := fmtHex 16 x.1 ++ ' ' :: x.2

/-- All the methods of a guesser: cdtb/__main__.py:212-227, 237-254 -/
def runGuesser (cx : Codecs) (names : List Str) (grep : WadFile → Guesser → Guesser × Res Unit) (methods : List (Str × (Guesser → Guesser × Res Unit)))
    (cache : ExtCache) (g : Guesser) (wads : List WadFile) : ExtCache × Guesser × Res Unit :=
  match (if "grep".toList ∈ names then grepWads cx grep cache g wads else (cache, g, .ok ())) with
  | (cache', g', .error e) => (cache', g', .error e)
  | (cache', g', .ok ()) => match runMethods names methods g' with
    | (g'', r) => (cache', g'', r)

/-- The end of a phase: cdtb/__main__.py:229-233, 256-260. `label` is `LCU` or `game`. -/
def finishPhase (label : Str) (path : Str) (dryRun : Bool) (fault : Option (Nat × Err)) (fs : FS) (nunknown : Nat) (g : Guesser) : GuessRun :=
  if nunknown - g.unknown.length ≠ 0 then
    let out := g.printed.map foundLine ++ ["found ".toList ++ label ++ " hashes: ".toList ++ showNat 10 (nunknown - g.unknown.length)]
    if dryRun then ⟨fs, out, .ok ()⟩
    else ⟨(saveHashFile fs path g.known fault).1, out, (saveHashFile fs path g.known fault).2⟩
  else ⟨fs, g.printed.map foundLine, .ok ()⟩

/-- The hashes of one type: cdtb/__main__.py:208-233 for the client, 235-260 for the game -/
def guessPhase (cx : Codecs) (names : List Str) (grep : WadFile → Guesser → Guesser × Res Unit) (methods : List (Str × (Guesser → Guesser × Res Unit)))
    (label path : Str) (dryRun : Bool) (fault : Option (Nat × Err)) (fs : FS) (cache : ExtCache) (wads : List WadFile) : ExtCache × GuessRun :=
  match loadHashFile fs path with
  | .error e => (cache, ⟨fs, [], .error e⟩)
  | .ok d =>
    let g := guesserOf d wads
    if g.unknown.isEmpty then (cache, ⟨fs, [], .ok ()⟩)
    else match runGuesser cx names grep methods cache g wads with
      | (cache', g', .error e) => (cache', ⟨fs, g'.printed.map foundLine, .error e⟩)
      | (cache', g', .ok ()) => (cache', finishPhase label path dryRun fault fs g.unknown.length g')

/-- Paths of the hash files: cdtb/hashes.py:76-77 -/
def lcuHashes (dir : Str) : Str := pjoin dir "hashes.lcu.txt".toList

/-- Paths of the hash files: cdtb/hashes.py:76-77 -/
def gameHashes (dir : Str) : Str := pjoin dir "hashes.game.txt".toList

/-- Descriptions of the methods: cdtb/__main__.py:160-172 -/
def methodDescriptions : List Str :=
  ["search for hashes in WAD files", "substitute numbers in basenames", "substitute basenames", "substitute known words in basenames",
    "substitute extensions", "substitute region and lang (LCU only)", "substitute plugin name (LCU only)",
    "substitute skinNN numbers (game only)", "substitute character name (game only)", "check basename prefixes (game only)"].map String.toList

/-- `f"{name:{width}}"` for a string -/
def padRight (width : Nat) (s : Str) : Str := s ++ List.replicate (width - s.length) ' '

/-- `--list-methods`: cdtb/__main__.py:174-178 -/
def listMethods : List Str :=
  let width := (guessMethods.map List.length).foldl max 0
  (guessMethods.zip methodDescriptions).map fun x => "  ".toList ++ padRight width x.1 ++ "  ".toList ++ x.2

/-- The two phases: cdtb/__main__.py:208-260 -/
def guessPhases (H : Str → Int) (lib : TextLib) (cx : Codecs) (dir : Str) (faults : Option (Nat × Err) × Option (Nat × Err)) (fs : FS)
    (dryRun : Bool) (names : List Str) (wads : List (Str × WadFile)) : GuessRun :=
  match guessPhase cx names (fun w g => g.lcuGrepWad H lib cx w.file w.files) (lcuMethods H) "LCU".toList (lcuHashes dir) dryRun faults.1 fs []
      (wadsWith ".wad".toList wads) with
  | (_, ⟨fs', out, .error e⟩) => ⟨fs', out, .error e⟩
  | (cache, ⟨fs', out, .ok ()⟩) =>
    match guessPhase cx names (fun w g => g.gameGrepWad H cx w.file w.toc w.files) (gameMethods H) "game".toList (gameHashes dir) dryRun faults.2 fs' cache
        (wadsWith ".wad.client".toList wads) with
    | (_, ⟨fs'', out', r⟩) => ⟨fs'', out ++ out', r⟩

/-- `command_hashes_guess`: cdtb/__main__.py:159-261. `H` is `xxh64_intdigest`, `dir` the directory of hash files, and `faults` are those of
the two saves. -/
def commandGuess (H : Str → Int) (lib : TextLib) (cx : Codecs) (dir : Str) (parse : Str → Res (Option GuessComponent))
    (faults : Option (Nat × Err) × Option (Nat × Err)) (fs : FS) (args : GuessArgs) : GuessRun :=
  if args.listMethods then ⟨fs, listMethods, .ok ()⟩
  else if args.wad.isEmpty then ⟨fs, [], .error .usage⟩
  else match methodNames args.methods with
    | .error e => ⟨fs, [], .error e⟩
    | .ok names => match openArgs cx dir parse fs args.wad with
      | .error e => ⟨fs, [], .error e⟩
      | .ok wads => guessPhases H lib cx dir faults fs args.dryRun names wads

end Cdtb
