import Verif.Props.C44
import Verif.Props.C57
import Verif.Props.C69
import Verif.Props.C70
import Verif.Model.GuessCmd
/-! Specification of the command that guesses hashes, for C71. -/
namespace Cdtb
set_option autoImplicit false
open Py

/-- The WADs of an argument: a path that is not the name of a component, or the WADs of a patch -/
inductive Spec.WadOf (parse : Str → Res (Option GuessComponent)) (arg : Str) : Str → Prop
  | file : parse arg = .error .value → Spec.WadOf parse arg arg
  | patch (paths : List (Res Str)) (p q : Str) : parse arg = .ok (some (.patch paths)) → .ok p ∈ paths →
      (p = q ++ ".wad".toList ∨ p = q ++ ".wad.client".toList) → Spec.WadOf parse arg p

/-- Some WAD of the arguments, whose path has this extension, has a file with this hash -/
def Spec.InWads (parse : Str → Res (Option GuessComponent)) (fs : FS) (args : List Str) (ext : Str) (h : Int) : Prop :=
  ∃ a ∈ args, ∃ p, Spec.WadOf parse a (p ++ ext) ∧ ∃ b version entries e, fs (p ++ ext) = some (.file b) ∧
    parseHeaders.run b = .ok (version, entries) ∧ e ∈ entries ∧ (e.pathHash : Int) = h

/-- The table `d'` is `d` with new entries, for hashes of the WADs that were not known -/
structure Spec.NewEntries (H : Str → Int) (hashes : Int → Prop) (d d' : Dict Int Str) (new : List (Int × Str)) : Prop where
  entries : ∀ h p, d'.get? h = some p ↔ d.get? h = some p ∨ (h, p) ∈ new
  once : (new.map (·.1)).Nodup
  sound : ∀ h p, (h, p) ∈ new → hashes h ∧ d.get? h = none ∧ H p = h
  size : d'.length = d.length + new.length
  keys : d'.keys.Nodup

/-- What is printed for an entry: the hash with 16 hexadecimal digits, and the path -/
def Spec.Line (x : Int × Str) : Str := fmtHex 16 x.1 ++ ' ' :: x.2

/-- The number of entries that were found -/
def Spec.FoundLine (label : Str) (n : Nat) : Str := "found ".toList ++ label ++ " hashes: ".toList ++ Spec.dec n

/-- What the command does with a hash file, whose table is `d`: an exception of a method, nothing found, or some entries -/
inductive Spec.PhaseOf (H : Str → Int) (hashes : Int → Prop) (label path : Str) (dry : Bool) (fault : Option (Nat × Err)) (fs : FS) (d : Dict Int Str) :
    GuessRun → Prop
  | failed (d' : Dict Int Str) (new : List (Int × Str)) (e : Err) : Spec.NewEntries H hashes d d' new →
      Spec.PhaseOf H hashes label path dry fault fs d ⟨fs, new.map Spec.Line, .error e⟩
  | nothing : Spec.PhaseOf H hashes label path dry fault fs d ⟨fs, [], .ok ()⟩
  | listed (d' : Dict Int Str) (new : List (Int × Str)) : dry = true → new ≠ [] → Spec.NewEntries H hashes d d' new →
      Spec.PhaseOf H hashes label path dry fault fs d ⟨fs, new.map Spec.Line ++ [Spec.FoundLine label new.length], .ok ()⟩
  | saved (d' : Dict Int Str) (new : List (Int × Str)) : dry = false → new ≠ [] → Spec.NewEntries H hashes d d' new → fault = none →
      Spec.PhaseOf H hashes label path dry fault fs d ⟨fs.set path (some (.file (utf8Bytes (saveText 16 d')))),
        new.map Spec.Line ++ [Spec.FoundLine label new.length], .ok ()⟩
  | cut (d' : Dict Int Str) (new : List (Int × Str)) (n : Nat) (e : Err) : dry = false → new ≠ [] → Spec.NewEntries H hashes d d' new →
      fault = some (n, e) → Spec.PhaseOf H hashes label path dry fault fs d ⟨fs.set path (some (.file ((utf8Bytes (saveText 16 d')).take n))),
        new.map Spec.Line ++ [Spec.FoundLine label new.length], .error e⟩

/-- What the command does, once WADs are opened: the hashes of the client, then those of the game. An exception stops it. -/
inductive Spec.RunOf (H : Str → Int) (lcu game : Int → Prop) (lcuPath gamePath : Str) (dry : Bool) (faults : Option (Nat × Err) × Option (Nat × Err))
    (fs : FS) : GuessRun → Prop
  | noLcu (e : Err) : loadHashFile fs lcuPath = .error e → Spec.RunOf H lcu game lcuPath gamePath dry faults fs ⟨fs, [], .error e⟩
  | lcu (d : Dict Int Str) (fs' : FS) (out : List Str) (e : Err) : loadHashFile fs lcuPath = .ok d →
      Spec.PhaseOf H lcu "LCU".toList lcuPath dry faults.1 fs d ⟨fs', out, .error e⟩ →
      Spec.RunOf H lcu game lcuPath gamePath dry faults fs ⟨fs', out, .error e⟩
  | noGame (d : Dict Int Str) (fs' : FS) (out : List Str) (e : Err) : loadHashFile fs lcuPath = .ok d →
      Spec.PhaseOf H lcu "LCU".toList lcuPath dry faults.1 fs d ⟨fs', out, .ok ()⟩ → loadHashFile fs gamePath = .error e →
      Spec.RunOf H lcu game lcuPath gamePath dry faults fs ⟨fs', out, .error e⟩
  | game (d : Dict Int Str) (fs' : FS) (out : List Str) (d' : Dict Int Str) (fs'' : FS) (out' : List Str) (r : Res Unit) :
      loadHashFile fs lcuPath = .ok d → Spec.PhaseOf H lcu "LCU".toList lcuPath dry faults.1 fs d ⟨fs', out, .ok ()⟩ →
      loadHashFile fs gamePath = .ok d' → Spec.PhaseOf H game "game".toList gamePath dry faults.2 fs' d' ⟨fs'', out', r⟩ →
      Spec.RunOf H lcu game lcuPath gamePath dry faults fs ⟨fs'', out ++ out', r⟩

/-- The names of the methods -/
def Spec.methods : List Str :=
  ["grep".toList, "numbers".toList, "basenames".toList, "words".toList, "ext".toList, "regionlang".toList, "plugin".toList, "skin-num".toList,
    "character".toList, "prefixes".toList]

/-- The names separated by commas in an argument (without the spaces around them). Without argument, or if it is empty, all the methods except two. -/
def Spec.asked (methods : Option Str) (name : Str) : Prop :=
  if methods = none ∨ methods = some [] then name ∈ Spec.methods ∧ name ≠ "basenames".toList ∧ name ≠ "words".toList
  else ∃ s part, methods = some s ∧ part ∈ splitChar ',' s ∧ name = strip part

/-- The argument can be used: it is not an element of a patch, it does not raise, and its WADs can be opened -/
structure Spec.Usable (cx : Codecs) (dir : Str) (parse : Str → Res (Option GuessComponent)) (fs : FS) (arg : Str) : Prop where
  named : parse arg = .error .value ∨ parse arg = .ok none ∨ ∃ paths, parse arg = .ok (some (.patch paths)) ∧ ∀ e, .error e ∉ paths
  opens : ∀ p, Spec.WadOf parse arg p → ∃ w, openWadAt cx dir fs p = .ok w

/-- A path of a table -/
def Spec.PathOf (d : Dict Int Str) (p : Str) : Prop := ∃ h, d.get? h = some p

/-- Candidates of the methods for the client, from known paths `K` -/
def Spec.LcuMethodCand (K : Str → Prop) (m q : Str) : Prop :=
  (m = "numbers".toList ∧ ∃ p a d b n, K p ∧ ¬ Spec.LcuNoNumbers p ∧ Spec.NumberIn p a d b ∧ n < 10000 ∧ q = a ++ Spec.dec n ++ b) ∨
  (m = "basenames".toList ∧ ∃ p p' d, K p ∧ K p' ∧ Spec.Ancestor p d ∧ q = d ++ '/' :: basename p') ∨
  (m = "words".toList ∧ ∃ p a old b w, K p ∧ Spec.WordsIn 0 p a old b ∧ Spec.WordOf (fun p => K p ∧ ¬ Spec.LcuNoWords p) w ∧ q = a ++ w ++ b) ∨
  (m = "ext".toList ∧ ∃ p p', K p ∧ K p' ∧ (∀ e, (splitext p').2 ≠ e ++ ['0', '0']) ∧ q = (splitext p).1 ++ (splitext p').2) ∨
  (m = "regionlang".toList ∧ ∃ p a b c s r l, K p ∧ Spec.RegionLang p a b c s ∧ (r ∈ Spec.regions ∨ r = "global".toList) ∧
    (l ∈ Spec.languages ∨ l = "default".toList) ∧ q = "plugins/".toList ++ a ++ '/' :: r ++ '/' :: l ++ '/' :: s) ∨
  (m = "plugin".toList ∧ ∃ n s n' s', Spec.Name n ∧ Spec.Name n' ∧ K ("plugins/".toList ++ n ++ '/' :: s) ∧ K ("plugins/".toList ++ n' ++ '/' :: s') ∧
    q = "plugins/".toList ++ n' ++ '/' :: s)

/-- Candidates of the methods for the game, from known paths `K`. For skins, those of paths where the skin is once. -/
def Spec.GameMethodCand (K : Str → Prop) (m q : Str) : Prop :=
  (m = "numbers".toList ∧ ∃ p a d b n, K p ∧ Spec.NumberIn p a d b ∧ n < 100 ∧ q = a ++ Spec.dec n ++ b) ∨
  (m = "basenames".toList ∧ ∃ p p' d, K p ∧ K p' ∧ Spec.Ancestor p d ∧ q = d ++ '/' :: basename p') ∨
  (m = "words".toList ∧ ∃ p a old b w, K p ∧ Spec.WordsIn 0 p a old b ∧ Spec.WordOf K w ∧ q = a ++ w ++ b) ∨
  (m = "ext".toList ∧ ∃ p p', K p ∧ K p' ∧ (∀ e, (splitext p').2 ≠ e ++ ['0', '0']) ∧ q = (splitext p).1 ++ (splitext p').2) ∨
  (m = "skin-num".toList ∧ ∃ p char skin p' skin', K p ∧ Spec.SkinFile p char skin ∧ K p' ∧ Spec.SkinFile p' char skin' ∧
    Spec.Replaced Spec.SkinHere p [skin'] q) ∨
  (m = "character".toList ∧ ∃ p char p' char' n, K p ∧ Spec.CharacterFile p char ∧ K p' ∧ Spec.CharacterFile p' char' ∧
    Spec.Replaced (fun w _ => w = char) p (List.replicate n char') q) ∨
  (m = "prefixes".toList ∧ ∃ p x, K p ∧ x ∈ ["2x_".toList, "2x_sd_".toList, "4x_".toList, "4x_sd_".toList, "sd_".toList] ∧
    q = (if dirname p = [] then [] else dirname p ++ ['/']) ++ x ++ basename p)

/-- Paths that are not mistaken for formats, and files of plugins that are in a plugin -/
def Spec.Tidy (K : Str → Prop) : Prop :=
  ∀ p, K p → '%' ∉ p ∧ '{' ∉ p ∧ ((∃ t, p = "plugins/".toList ++ t) → ∃ n s, p = "plugins/".toList ++ n ++ '/' :: s ∧ Spec.Name n)

/-- A WAD of the arguments, once opened -/
def Spec.Opened (cx : Codecs) (dir : Str) (parse : Str → Res (Option GuessComponent)) (fs : FS) (args : List Str) (w : WadFile) : Prop :=
  ∃ a ∈ args, ∃ p, Spec.WadOf parse a p ∧ openWadAt cx dir fs p = .ok (p, w)

/-- An extension guessed for a hash: none, or the one guessed from the content of a file with this hash in one of the WADs -/
def Spec.GuessedFor (cx : Codecs) (opened : WadFile → Prop) (h : Nat) (ext : Option Str) : Prop := ext = none ∨
  ∃ w f data, opened w ∧ f ∈ w.files ∧ f.pathHash = h ∧ readFileData cx f w.file w.toc = .ok (some data) ∧ ext = guessExtension cx data

/-- A file with its extension, if it has one (from its path), or with a guessed one -/
def Spec.Retyped (cx : Codecs) (opened : WadFile → Prop) (f f' : WadEntry) : Prop :=
  ((∃ c e, f.ext = some (c :: e)) ∧ f' = f) ∨
  ((f.ext = none ∨ f.ext = some []) ∧ ∃ e, Spec.GuessedFor cx opened f.pathHash e ∧ f' = { f with ext := e })

/-- A file of a game WAD that does not stop the search -/
def Spec.GameFine (cx : Codecs) (w : WadFile) (f : WadEntry) : Prop := f.type = 2 ∨ (∃ e ∈ Spec.skippedExts, f.ext = some e) ∨
  ∃ data, readFileData cx f w.file w.toc = .ok data ∧ Spec.Greppable ⟨f.type, f.ext, f.path, data⟩

/-- Paths given by a file of a game WAD -/
def Spec.GameCand (cx : Codecs) (w : WadFile) (f : WadEntry) (q : Str) : Prop :=
  ∃ data, readFileData cx f w.file w.toc = .ok data ∧ Spec.GrepCand ⟨f.type, f.ext, f.path, data⟩ q

/-- Paths given by a file of a WAD of the client: full paths, and relative paths in the directories of known paths -/
def Spec.ClientCand (lib : TextLib) (cx : Codecs) (K : Str → Prop) (w : WadFile) (f : WadEntry) (q : Str) : Prop :=
  Spec.LcuCand lib cx w.file f q ∨ ∃ rel p d, Spec.LcuRel lib cx w.file f rel ∧ K p ∧ Spec.Ancestor p d ∧ q = d ++ '/' :: lower rel

end Cdtb
