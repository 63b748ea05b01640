import Verif.Model.Export
import Verif.Spec.WadCmd
/-!
# Specification of what a patch export contains

Which files are converted and how they are named, which ones are kept.
-/
namespace Cdtb.Spec
set_option autoImplicit false
open Py

/-- The end of a path: a final newline is allowed. -/
def Eol (s : Str) : Prop := s = [] ∨ s = ['\n']

/-- `dir`, somewhere in the path, then anything on one line, then `suffix` at the end -/
def FileUnder (dir suffix path : Str) : Prop := ∃ pre mid post, path = pre ++ dir ++ mid ++ suffix ++ post ∧ '\n' ∉ mid ∧ Eol post

/-- Atlases: game files without an extension, and item atlases -/
def AtlasPath (path : Str) : Prop :=
  FileUnder "game/".toList ".cdtb".toList path ∨ FileUnder "game/assets/items/icons2d/autoatlas/".toList "/atlas_info.bin".toList path

/-- Texts of the game: `data/menu/….txt` or `data/menu/….stringtable`, in a directory of `game/` -/
def MenuPath (path : Str) : Prop :=
  ∃ pre dirs mid ext post, path = pre ++ "game/".toList ++ dirs ++ "data/menu/".toList ++ mid ++ ext ++ post ∧
    (dirs = [] ∨ ∃ d, dirs = d ++ ['/'] ∧ '\n' ∉ d) ∧ '\n' ∉ mid ∧ (ext = ".txt".toList ∨ ext = ".stringtable".toList) ∧ Eol post

/-- The files each conversion is meant for -/
def Handles (path : Str) : Converter → Prop
  | .image => HasExt path "dds".toList ∨ HasExt path "tga".toList
  | .tex => ∃ s, path = s ++ ".tex".toList
  | .atlas => AtlasPath path
  | .bin => FileUnder "game/".toList ".bin".toList path ∧ ¬ AtlasPath path
  | .skn => ∃ s, path = s ++ ".skn".toList
  | .rst => MenuPath path
  | .championSkin => path = "game/global/champions/championskins.info".toList
  | .copy => False

/-- The conversion of a path; files are copied when there is none. -/
def HandledBy (path : Str) (c : Converter) : Prop := Handles path c ∨ c = .copy ∧ ∀ c', ¬ Handles path c'

/-- The path without its extension, if there is one -/
def Root (path root : Str) : Prop := (∃ e, HasExt path e ∧ path = root ++ '.' :: e) ∨ (∀ e, ¬ HasExt path e) ∧ root = path

/-- `q` is one of the paths under which `path` is exported. -/
inductive ExportedAs (path : Str) : Str → Prop
  | image {root : Str} : HandledBy path .image ∨ HandledBy path .tex → Root path root → ExportedAs path (root ++ ".png".toList)
  | json : HandledBy path .atlas ∨ HandledBy path .bin ∨ HandledBy path .rst ∨ HandledBy path .championSkin →
      ExportedAs path (path ++ ".json".toList)
  | meshes {root : Str} : HandledBy path .skn → Root path root → ExportedAs path root
  | same : HandledBy path .copy ∨ HandledBy path .bin ∨ HandledBy path .skn ∨ HandledBy path .rst → ExportedAs path path

/-- The name has `_skins_` in it, and it is a bin file. -/
def SkinsBin (path : Str) : Prop := HasExt path "bin".toList ∧ "_skins_".toList <:+: path

/-- Game files that are kept: images, atlases, texts, fonts, JSON files, bin files except the ones of skins, and skins -/
inductive KeptInGame (path : Str) : Prop
  | image : HandledBy path .image ∨ HandledBy path .tex → KeptInGame path
  | json : HandledBy path .atlas ∨ HandledBy path .rst ∨ HandledBy path .championSkin → KeptInGame path
  | bin : HandledBy path .bin → ¬ SkinsBin path → KeptInGame path
  /-- (the directory of the meshes must not be called as a bin file of skins) -/
  | skn {root : Str} : HandledBy path .skn → path = root ++ ".skn".toList → HasExt path "skn".toList → ¬ SkinsBin root → KeptInGame path
  | same {e : Str} : HandledBy path .copy → HasExt path e →
      e ∈ ["png".toList, "txt".toList, "stringtable".toList, "json".toList, "ttf".toList, "otf".toList] → KeptInGame path
  /-- (only for paths with newlines, otherwise they are converted) -/
  | otherBin : HandledBy path .copy → HasExt path "bin".toList → ¬ SkinsBin path → KeptInGame path

/-- Executables and libraries are not exported. -/
def Executable (path : Str) : Prop := (∃ s, path = s ++ ".exe".toList) ∨ ∃ s, path = s ++ ".dll".toList

/-- The directory of a WAD of plugin assets, in lower case -/
def PluginDir (wp dir : Str) : Prop :=
  ∃ d base name stem digits post, wp = d ++ '/' :: base ∧ '/' ∉ base ∧ '\n' ∉ d ∧ dir = lower d ∧
    (∃ x, x ≠ [] ∧ dir = "plugins/rcp-".toList ++ x) ∧
    base = name ++ post ∧ Eol post ∧ lower name = stem ++ "assets".toList ++ digits ++ ".wad".toList ∧
    ∀ c ∈ digits, '0'.toNat ≤ c.toNat ∧ c.toNat ≤ '9'.toNat

/-- The directory of unknown files of a WAD -/
def UnknownDir (wp dir : Str) : Prop := (∃ d, PluginDir wp d ∧ dir = d ++ "/unknown".toList) ∨ (∀ d, ¬ PluginDir wp d) ∧ dir = "unknown".toList

/-- The name of a file in its WAD: the known one, or one made of its hash -/
inductive EntryName (wp : Str) (f : WadEntry) : Str → Prop
  | known {p : Str} : f.path = some p → p ≠ [] → EntryName wp f p
  | unknown {dir hex ext : Str} : f.path = none ∨ f.path = some [] → UnknownDir wp dir → Hex16 hex f.pathHash →
      (f.ext = none ∨ f.ext = some []) ∧ ext = [] ∨ (∃ e, f.ext = some e ∧ e ≠ [] ∧ ext = '.' :: e) → EntryName wp f (dir ++ '/' :: hex ++ ext)

/-- The WAD is one of the game. -/
def GameWad (wp : Str) : Prop := ∃ s, wp = s ++ ".wad.client".toList

/-- The WAD of a language, in lower case: `….xx_yy.wad.client` -/
def LangWad (wp lang : Str) : Prop :=
  ∃ s a b c d, wp = s ++ '.' :: [a, b, '_', c, d] ++ ".wad.client".toList ∧ '\n' ∉ [a, b, c, d] ∧ lang = lower [a, b, '_', c, d]

/-- The directory of the files of a game WAD; languages have their own one from patch 14.4. -/
def GameDir (langs : Prop) (wp dir : Str) : Prop :=
  (langs ∧ ∃ l, LangWad wp l ∧ dir = "game/".toList ++ l) ∨ (¬ (langs ∧ ∃ l, LangWad wp l) ∧ dir = "game".toList)

/-- `main`, and versions from 14.4 -/
def LangDirs (v : Version) : Prop := v.s = "main".toList ∨ ∃ t, v.t = .nums t ∧ [14, 4] ≤ t

/-- What becomes of the entry of a WAD: it is exported under a path. -/
def EntryExported (langs : Prop) (wp : Str) (f : WadEntry) (path : Str) : Prop :=
  ∃ name, EntryName wp f name ∧ ¬ Executable name ∧
    (¬ GameWad wp ∧ path = name ∨ GameWad wp ∧ KeptInGame path ∧ ∃ dir, GameDir langs wp dir ∧ path = dir ++ '/' :: name)

/-- Plain files that are exported -/
def PlainExported (path : Str) : Prop := path ≠ [] ∧ ¬ Executable path ∧ ¬ ∃ s, path = s ++ "/description.json".toList

/-- `q` is the path of a file of the export of `raw`. -/
def ExportPath (raw : Exporter) (v : Version) (q : Str) : Prop :=
  (∃ k src, raw.plain.get? k = some src ∧ PlainExported k ∧ ExportedAs k q) ∨
    ∃ wp w f path, raw.wads.get? wp = some w ∧ f ∈ w.files ∧ EntryExported (LangDirs v) wp f path ∧ ExportedAs path q

/-- What the export of patches is made for: each path has one source, hashes are on 64 bits, and versions are numbers or `main`. -/
structure Collected (raw : Exporter) (v : Version) : Prop where
  plain : raw.plain.WF
  wads : raw.wads.WF
  hashes : ∀ wp w, raw.wads.get? wp = some w → ∀ f ∈ w.files, f.pathHash < 2 ^ 64
  converters : raw.converters = patchConverters
  version : v.s = "main".toList ∨ ∃ t, v.t = .nums t

end Cdtb.Spec
