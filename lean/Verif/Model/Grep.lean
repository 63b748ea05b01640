import Verif.Model.GuessPaths
import Verif.Py.Normpath
/-!
# Model of cdtb/hashes.py: paths found in the content of game files (lines 800-912)

The content of files is read as characters between 0 and 255, one per byte. Patterns are made of ASCII characters.
-/
namespace Cdtb
set_option autoImplicit false
open Py

/-- The characters of bytes -/
def latin1 (b : Bytes) : Str := b.map fun x => Char.ofNat x.toNat

/-- `.decode('ascii')` -/
def isAscii (s : Str) : Bool := s.all fun c => c.toNat < 128

/-- `(?:a|b|...)/`, at the start of a string; alternatives contain no slash: cdtb/hashes.py:818, 894 -/
def matchRoot (roots : List Str) (s : Str) : Option Nat :=
  (roots.find? fun r => startsWith s (r ++ ['/'])).map fun r => r.length + 1

/-- Prefixes of paths in bin files: cdtb/hashes.py:818 -/
def binRoots : List Str := ["ASSETS", "DATA", "Characters", "Shaders", "Maps", "Gameplay", "ClientStates", "Patching", "Loadouts"].map String.toList

/-- `data[i-2] + (data[i-1] << 8)`: cdtb/hashes.py:820. Indexes may be negative, which is an index from the end. -/
def lengthBefore (s : Str) (i : Nat) : Nat :=
  (s.getD ((i + s.length - 2) % s.length) '\x00').toNat + (s.getD ((i + s.length - 1) % s.length) '\x00').toNat * 256

/-- `GameHashGuesser.shader_extensions`: cdtb/hashes.py:594 -/
def shaderExtensions : List Str := [".ps_2_0", ".ps_3_0", ".vs_2_0", ".vs_3_0", ".ps", ".vs"].map String.toList

/-- `GameHashGuesser.shader_variants`: cdtb/hashes.py:595 -/
def shaderVariants : List Str := [".dx11", ".dx9", ".dx9sm3", ".glsl", ".metal", "-dx11", "-metal"].map String.toList

/-- `path.rsplit('/', 1)[0]` -/
def rsplitParent (p : Str) : Str := match rsplit1 '/' p with
  | none => p
  | some (a, _) => a

/-- `path[:-n]` for a suffix of `n` characters -/
def dropSuffix (n : Nat) (p : Str) : Str := p.take (p.length - n)

/-- Paths checked for a path found in a bin file: cdtb/hashes.py:825-847. `rsplit('/', 2)[0]` splits twice. -/
def binVariants (path : Str) : List Str :=
  if startsWith path "characters".toList then [path, "assets/".toList ++ path, "data/".toList ++ path]
  else if endsWith path ".lua".toList then
    [path, dropSuffix 4 path ++ ".luabin".toList, dropSuffix 4 path ++ ".luabin64".toList, dropSuffix 4 path ++ ".preload".toList]
  else if startsWith path "shaders".toList then
    shaderExtensions.map (fun ext => "assets/shaders/generated/".toList ++ path ++ ext) ++
    shaderExtensions.flatMap fun ext => shaderVariants.map fun v => "assets/shaders/generated/".toList ++ path ++ ext ++ v
  else if startsWith path "maps/mapgeometry/".toList then ["data/".toList ++ path ++ ".mapgeo".toList, "data/".toList ++ path ++ ".materials.bin".toList]
  else if startsWith path "clientstates".toList || startsWith path "patching".toList || startsWith path "loadouts".toList ||
      startsWith path "maps".toList then
    [path, rsplitParent path, rsplitParent (rsplitParent path)]
  else path :: if endsWith path ".png".toList then [dropSuffix 4 path ++ ".dds".toList] else []

/-- The path of a bin file at a position: cdtb/hashes.py:819-824 -/
def binPathAt (s : Str) (i : Nat) : Option Str :=
  let p := (s.drop i).take (lengthBefore s i)
  if isAscii p then some (lower p) else none

/-- `grep_wad`, for a bin file: cdtb/hashes.py:816-847 -/
def Guesser.grepBin (H : Str → Int) (g : Guesser) (data : Bytes) : Guesser :=
  let s := latin1 data
  (finditer (matchRoot binRoots) [] 0 s).foldl (fun g m => match binPathAt s m.1.length with
    | none => g
    | some p => g.checkIter H (binVariants p)) g

/-- `tag"([^"]+)"` at the start of a string: cdtb/hashes.py:851, 867 -/
def matchQuoted (tag : Str) (s : Str) : Option Nat := match afterPrefix (tag ++ ['"']) s with
  | none => none
  | some r =>
    let n := (r.takeWhile (· ≠ '"')).length
    if n ≠ 0 && (r.drop n).head? = some '"' then some (tag.length + 1 + n + 1) else none

/-- `m.group(1)` for the matches of a quoted text -/
def quotedTexts (tag : Str) (s : Str) : List Str :=
  (finditer (matchQuoted tag) [] 0 s).map fun m => (m.2.1.drop (tag.length + 1)).dropLast

/-- Checks for a name of a preload file: cdtb/hashes.py:852-861 -/
def Guesser.checkPreload (H : Str → Int) (g : Guesser) (path : Option Str) (name : Str) : Guesser × Res Unit :=
  if !isAscii name then (g, .error .unicode)
  else
    let p := lower name
    if endsWith p ".lua".toList then
      (g.checkIter H [p, dropSuffix 4 p ++ ".luabin".toList, dropSuffix 4 p ++ ".luabin64".toList], .ok ())
    else if endsWith p ".troy".toList then (g.checkIter H ["data/shared/particles/".toList ++ dropSuffix 5 p ++ ".troybin".toList], .ok ())
    else match path with
      | none => (g, .ok ())
      | some [] => (g, .ok ())
      | some wp => match pyFormat (dirname wp ++ "/%s.preload".toList) [.str p] with
        | .error e => (g, .error e)
        | .ok q => (g.checkIter H [q], .ok ())

/-- `grep_wad`, for a preload file: cdtb/hashes.py:849-861 -/
def Guesser.grepPreload (H : Str → Int) (path : Option Str) : Guesser → List Str → Guesser × Res Unit
  | g, [] => (g, .ok ())
  | g, name :: names => match g.checkPreload H path name with
    | (g', .ok ()) => g'.grepPreload H path names
    | (g', .error e) => (g', .error e)

/-- `grep_wad`, for a shader, in the directory `dir`: cdtb/hashes.py:863-869 -/
def Guesser.grepShader (H : Str → Int) (dir : Str) : Guesser → List Str → Guesser × Res Unit
  | g, [] => (g, .ok ())
  | g, name :: names =>
    if !isAscii name then (g, .error .unicode)
    else (g.checkIter H [(normpath (dir ++ '/' :: lower name)).map fun c => if c = '\\' then '/' else c]).grepShader H dir names

/-- `grep_wad`, for an atlas, in the directory `dir`: cdtb/hashes.py:871-879 -/
def Guesser.grepAtlas (H : Str → Int) (dir : Str) (g : Guesser) (data : Bytes) : Guesser :=
  g.checkIter H (((splitChar '\n' (latin1 data)).filter isAscii).map fun l => dir ++ '/' :: lower l)

/-- Prefixes of paths in other files: cdtb/hashes.py:894 -/
def fileRoots : List Str := ["ASSETS", "Common", "DATA", "DATA_SOON", "DATA_Soon", "Gameplay", "Global", "LEVELS", "Loadouts", "UX",
  "UIAutoAtlas"].map String.toList

/-- Digits, letters, `_`, `.`, space, `/` and `-`: cdtb/hashes.py:894 -/
def isPathChar (c : Char) : Bool := c.isAlphanum || c = '_' || c = '.' || c = ' ' || c = '/' || c = '-'

/-- The pattern of `grep_file`: cdtb/hashes.py:894 -/
def matchPath (s : Str) : Option Nat := match matchRoot fileRoots s with
  | none => none
  | some k =>
    let n := ((s.drop k).takeWhile isPathChar).length
    if n ≠ 0 then some (k + n) else none

/-- `path.replace("data_soon/", "data/")` -/
def dataSoon (p : Str) : Str := replaceGo "data_soon/".toList "data/".toList 0 p

/-- Little-endian value of the `k` characters before a position -/
def leBefore (pre : Str) (k : Nat) : Nat := (pre.drop (pre.length - k)).foldr (fun c n => c.toNat + 256 * n) 0

/-- Paths added for a match of `grep_file`: cdtb/hashes.py:895-903 -/
def filePaths (pre w : Str) : List Str :=
  let path := lower w
  dataSoon path :: if 2 ≤ pre.length then
    let n := leBefore pre 2
    let n := if n = 0 && 4 ≤ pre.length then leBefore pre 4 else n
    if n < path.length then [dataSoon (path.take n)] else []
  else []

/-- Paths checked for a path of `grep_file`: cdtb/hashes.py:906-912 -/
def fileVariants (p : Str) : List Str :=
  if endsWith p ".lua".toList then
    [p, dropSuffix 4 p ++ ".luabin".toList, dropSuffix 4 p ++ ".luabin64".toList, dropSuffix 4 p ++ ".preload".toList]
  else [p]

/-- `GameHashGuesser.grep_file`, with `data`: cdtb/hashes.py:885-912 -/
def Guesser.grepFile (H : Str → Int) (g : Guesser) (data : Bytes) : Guesser :=
  let paths := ((finditer matchPath [] 0 (latin1 data)).flatMap fun m => filePaths m.1 m.2.1).dedup
  paths.foldl (fun g p => g.checkIter H (fileVariants p)) g

/-- A file of a wad, and what `read_file_data` gives for it: cdtb/hashes.py:806-815 -/
structure GrepEntry where
  type : Nat
  ext : Option Str
  path : Option Str
  data : Option Bytes

/-- Extensions of files without paths: cdtb/hashes.py:809-811 -/
def skippedExts : List Str := ["dds", "jpg", "png", "tga", "ttf", "otf", "ogg", "webm", "anm", "skl", "skn", "scb", "sco", "troybin", "bnk", "wpk",
  "tex"].map String.toList

/-- `if wadfile.path:`, and its directory: cdtb/hashes.py:865-866, 873-874 -/
def dirOf : Option Str → Option Str
  | none => none
  | some [] => none
  | some p => some (dirname p)

/-- Search in the content of a file: cdtb/hashes.py:816-883 -/
def Guesser.grepContent (H : Str → Int) (g : Guesser) (ext path : Option Str) (data : Bytes) : Guesser × Res Unit := match ext with
  | none => (g.grepFile H data, .ok ())
  | some ext =>
    if ext = "bin".toList || ext = "inibin".toList then (g.grepBin H data, .ok ())
    else if ext = "preload".toList then g.grepPreload H path (quotedTexts "Name=".toList (latin1 data))
    else if ext ∈ ["hls".toList, "ps_2_0".toList, "ps_3_0".toList, "vs_2_0".toList, "vs_3_0".toList] then match dirOf path with
      | none => (g, .ok ())
      | some dir => g.grepShader H dir (quotedTexts "#include ".toList (latin1 data))
    else if ext = "atlas".toList then match dirOf path with
      | none => (g, .ok ())
      | some dir => (g.grepAtlas H dir data, .ok ())
    else (g.grepFile H data, .ok ())

/-- The body of the loop of `grep_wad`: cdtb/hashes.py:806-883 -/
def Guesser.grepEntry (H : Str → Int) (g : Guesser) (f : GrepEntry) : Guesser × Res Unit :=
  if f.type = 2 then (g, .ok ())
  else if f.ext ∈ skippedExts.map some then (g, .ok ())
  else match f.data with
    | none => (g, .ok ())
    | some data => g.grepContent H f.ext f.path data

/-- `GameHashGuesser.grep_wad`: cdtb/hashes.py:800-883 -/
def Guesser.grepWad (H : Str → Int) : Guesser → List GrepEntry → Guesser × Res Unit
  | g, [] => (g, .ok ())
  | g, f :: fs => match g.grepEntry H f with
    | (g', .ok ()) => g'.grepWad H fs
    | (g', .error e) => (g', .error e)

end Cdtb
