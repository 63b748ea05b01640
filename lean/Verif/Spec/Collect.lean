import Verif.Spec.ExportSelect
/-!
# Specification of the files of a patch, from the archives on disk

`l` is the list of paths of a patch: where each file is on disk, and its export path.
-/
namespace Cdtb.Spec
set_option autoImplicit false
open Py

/-- The file is an archive. -/
def IsWadFile (src : Str) : Prop := (∃ s, src = s ++ ".wad".toList) ∨ ∃ s, src = s ++ ".wad.client".toList

/-- The plain file exported as `dst` is `src`: the last one of the list. -/
def LastPlain (l : List (Str × Str)) (src dst : Str) : Prop :=
  ∃ before after, l = before ++ (src, dst) :: after ∧ ¬ IsWadFile src ∧ ∀ x ∈ after, x.2 = dst → IsWadFile x.1

/-- The archive exported as `dst` is `src`: the last one of the list. -/
def LastWad (l : List (Str × Str)) (src dst : Str) : Prop :=
  ∃ before after, l = before ++ (src, dst) :: after ∧ IsWadFile src ∧ ∀ x ∈ after, x.2 = dst → ¬ IsWadFile x.1

/-- Nothing tells the extension of the file: its path is unknown, has no extension, or an empty one (`name.`). -/
def WithoutExt (hashes : Dict Int Str) (r : WadRecord) : Prop := ∀ p, KnownAs hashes r p → ∀ e, HasExt p e → e = []

/-- `Completed p g q x`: the path `p`, completed with `.cdtb` and `g` if it has no extension, is `q`, with the extension `x` (with its dot). -/
def Completed (p g q x : Str) : Prop :=
  (q = p ∧ ∃ e, HasExt p e ∧ x = '.' :: e) ∨ ((∀ e, ¬ HasExt p e) ∧ x = ".cdtb".toList ++ g ∧ q = p ++ x)

/-- The name of a file of the archive exported as `wp`; `g` is the extension guessed from its data, with its dot (or nothing). -/
inductive ExportName (hashes : Dict Int Str) (wp : Str) (r : WadRecord) (g : Str) : Str → Prop
  | short (p q x : Str) : KnownAs hashes r p → p ≠ [] → Completed p g q x → (basename q).length < 250 → ExportName hashes wp r g q
  | long (p q x hex : Str) : KnownAs hashes r p → p ≠ [] → Completed p g q x → 250 ≤ (basename q).length → x.length ≤ 233 →
      Hex16 hex r.hash → ExportName hashes wp r g (pjoin (dirname q) ((basename q).take (233 - x.length) ++ '.' :: hex ++ x))
  | unknown (dir hex : Str) : (∀ p, KnownAs hashes r p → p = []) → UnknownDir wp dir → Hex16 hex r.hash →
      ExportName hashes wp r g (dir ++ '/' :: hex ++ g)

/-- The extension of a file, guessed from its data, when it is needed -/
def GuessOf (cx : Codecs) (hashes : Dict Int Str) (file : Bytes) (toc : Option Bytes) (f : WadFormat) (r : WadRecord) (g : Str) : Prop :=
  WithoutExt hashes r → ∃ c, Contains cx file toc f r c ∧ g = dotGuess cx (c.getD [])

/-- An extension with its dot, nothing if there is none -/
def dotted : Option Str → Str
  | none => []
  | some e => '.' :: e

/-- The archive can be opened, its files without extension can be read, and `ext` gives their extensions. -/
def ReadableWad (cx : Codecs) (dir : Str) (fs : FS) (ext : Nat → Option Str) (src : Str) : Prop :=
  ∃ hashes file f version rs toc, Opens cx dir fs src none hashes file f version rs toc ∧
    (∀ r ∈ rs, r.type ≠ 2 → WithoutExt hashes r → ∃ c, Contains cx file toc f r c ∧ dotGuess cx (c.getD []) = dotted (ext r.hash)) ∧
    ∀ r ∈ rs, ∀ p e, KnownAs hashes r p → HasExt p e → e.length ≤ 232

/-- `q` is the path of a file of the export. -/
def PatchExports (cx : Codecs) (dir : Str) (fs : FS) (l : List (Str × Str)) (v : Version) (q : Str) : Prop :=
  (∃ src dst, LastPlain l src dst ∧ PlainExported dst ∧ ExportedAs dst q) ∨
  ∃ src dst hashes file f version rs toc r g name path, LastWad l src dst ∧ Opens cx dir fs src none hashes file f version rs toc ∧
    r ∈ rs ∧ r.type ≠ 2 ∧ GuessOf cx hashes file toc f r g ∧ ExportName hashes dst r g name ∧ ¬ Executable name ∧
    (¬ GameWad dst ∧ path = name ∨ GameWad dst ∧ KeptInGame path ∧ ∃ d, GameDir (LangDirs v) dst d ∧ path = d ++ '/' :: name) ∧ ExportedAs path q

/-- The export has a file named `p` before conversion, and its content is `d`. -/
def ExportedFile (cx : Codecs) (dir : Str) (fs : FS) (l : List (Str × Str)) (v : Version) (p : Str) (d : Bytes) : Prop :=
  (∃ src, LastPlain l src p ∧ PlainExported p ∧ fs src = some (.file d)) ∨
  ∃ src dst hashes file f version rs toc r g name, LastWad l src dst ∧ Opens cx dir fs src none hashes file f version rs toc ∧
    r ∈ rs ∧ r.type ≠ 2 ∧ GuessOf cx hashes file toc f r g ∧ ExportName hashes dst r g name ∧ ¬ Executable name ∧
    (¬ GameWad dst ∧ p = name ∨ GameWad dst ∧ KeptInGame p ∧ ∃ sub, GameDir (LangDirs v) dst sub ∧ p = sub ++ '/' :: name) ∧
    Contains cx file toc f r (some d)

/-- The hash is the one of a file whose path is unknown. -/
def PatchUnknown (cx : Codecs) (dir : Str) (fs : FS) (l : List (Str × Str)) (n : Nat) : Prop :=
  ∃ src dst hashes file f version rs toc r, LastWad l src dst ∧ Opens cx dir fs src none hashes file f version rs toc ∧
    r ∈ rs ∧ r.type ≠ 2 ∧ r.hash = n ∧ ∀ p, KnownAs hashes r p → p = []

/-- The extensions guessed so far are right. -/
def RightCache (ext : Nat → Option Str) (cache : Dict Nat (Option Str)) : Prop := ∀ h e, cache.get? h = some e → e = ext h

end Cdtb.Spec
