import Verif.Model.WadCmd
import Verif.Spec.Wad
import Verif.Spec.Names
import Verif.Spec.ExportFiles
/-!
# Specification of WAD commands

What the archives hold, how their files are named, which ones are selected.
-/
namespace Cdtb
set_option autoImplicit false
open Py

/-- The bytes of a record in the archive -/
def Spec.packed (file : Bytes) (r : Spec.WadRecord) : Bytes := Spec.slice r.offset (r.offset + r.compressedSize) file

/-- `piece` is a subchunk described by `c`, and `plain` is its data. -/
def Spec.Chunk (cx : Codecs) (c : Spec.SubchunkRecord) (piece plain : Bytes) : Prop :=
  piece.length = c.compressedSize ∧ cx.xxh3 piece = c.hash ∧
    if c.compressedSize = c.size then plain = piece else cx.unzstd piece = .ok plain

/-- `Spec.Contains cx file toc f r c`: the file of the record `r` is `c`, or is not available (`none`: redirections and corrupted subchunks).
`toc` is the table of subchunks. -/
inductive Spec.Contains (cx : Codecs) (file : Bytes) (toc : Option Bytes) (f : Spec.WadFormat) (r : Spec.WadRecord) : Option Bytes → Prop
  | raw : r.type = 0 → Spec.Contains cx file toc f r (some (Spec.packed file r))
  | gzip (d : Bytes) : r.type = 1 → cx.gunzip (Spec.packed file r) = .ok d → Spec.Contains cx file toc f r (some d)
  | redirection (target : Str) (zeros : Nat) (tail : Bytes) : r.type = 2 → (∀ c ∈ target, c ≠ '\x00') →
      (utf8Bytes target).length + zeros < 256 ^ 4 →
      Spec.packed file r = le 4 ((utf8Bytes target).length + zeros) ++ utf8Bytes target ++ List.replicate zeros 0 ++ tail →
      Spec.Contains cx file toc f r none
  | zstd (d : Bytes) : r.type = 3 → cx.unzstd (Spec.packed file r) = .ok d → Spec.Contains cx file toc f r (some d)
  | whole (d : Bytes) : r.type = 4 → toc = none → cx.unzstd (Spec.packed file r) = .ok d → Spec.Contains cx file toc f r (some d)
  | noToc (e : Err) : r.type = 4 → toc = none → cx.unzstd (Spec.packed file r) = .error e → Spec.Contains cx file toc f r none
  | chunks (t : Bytes) (pieces : List (Bytes × Bytes)) (tail : Bytes) : r.type = 4 → toc = some t → f ≠ .v1 →
      r.subchunks = 0 ∨ 16 * (r.first + r.subchunks) ≤ t.length →
      List.Forall₂ (fun c p => Spec.Chunk cx c p.1 p.2) (Spec.subchunkRecords t r.first r.subchunks) pieces →
      Spec.packed file r = (pieces.map Prod.fst).flatten ++ tail → Spec.Contains cx file toc f r (some (pieces.map Prod.snd).flatten)
  | corrupted (t : Bytes) (good rest : List Spec.SubchunkRecord) (bad : Spec.SubchunkRecord) (pieces : List (Bytes × Bytes)) (tail : Bytes) :
      r.type = 4 → toc = some t → f ≠ .v1 → 16 * (r.first + r.subchunks) ≤ t.length →
      Spec.subchunkRecords t r.first r.subchunks = good ++ bad :: rest → List.Forall₂ (fun c p => Spec.Chunk cx c p.1 p.2) good pieces →
      Spec.packed file r = (pieces.map Prod.fst).flatten ++ tail →
      tail.length < bad.compressedSize ∨ cx.xxh3 (tail.take bad.compressedSize) ≠ bad.hash → Spec.Contains cx file toc f r none

/-- `p` is a path whose file name has the extension `e`: a dot that is not one of the leading dots of the name, then `e`. -/
def Spec.HasExt (p e : Str) : Prop :=
  ∃ dir stem, p = dir ++ stem ++ '.' :: e ∧ (dir = [] ∨ ∃ d, dir = d ++ ['/']) ∧ '/' ∉ stem ∧ '/' ∉ e ∧ '.' ∉ e ∧ ∃ c ∈ stem, c ≠ '.'

/-- The known path of a file -/
def Spec.KnownAs (hashes : Dict Int Str) (r : Spec.WadRecord) (p : Str) : Prop := hashes.get? (r.hash : Int) = some p

/-- The record is a table of subchunks. -/
def Spec.IsToc (hashes : Dict Int Str) (r : Spec.WadRecord) : Prop := ∃ s, Spec.KnownAs hashes r (s ++ ".subchunktoc".toList)

/-- The table of subchunks of an archive: the content of the first such file, if there is one -/
def Spec.TocOf (cx : Codecs) (hashes : Dict Int Str) (file : Bytes) (f : Spec.WadFormat) (rs : List Spec.WadRecord) (toc : Option Bytes) : Prop :=
  ((∀ r ∈ rs, ¬ Spec.IsToc hashes r) ∧ toc = none) ∨
  ∃ before r after t, rs = before ++ r :: after ∧ (∀ x ∈ before, ¬ Spec.IsToc hashes x) ∧ Spec.IsToc hashes r ∧
    Spec.Contains cx file none f r (some t) ∧ toc = some t

/-- An archive: the layout of the file, and its table of subchunks -/
structure Spec.IsArchive (cx : Codecs) (hashes : Dict Int Str) (file : Bytes) (f : Spec.WadFormat) (version : Nat × Nat) (rs : List Spec.WadRecord)
    (toc : Option Bytes) : Prop where
  format : Spec.wadFormat version.1 version.2 = some f
  minor : version.2 < 256
  fits : ∀ r ∈ rs, r.Fits f
  count : rs.length < 256 ^ 4
  layout : ∃ filler trailing, filler.length + 4 = Spec.wadHeaderLength version.1 ∧ file = Spec.wadFile f version.1 version.2 filler rs trailing
  table : Spec.TocOf cx hashes file f rs toc

/-- A dot and the extension guessed from the data, if there is one. -/
def Spec.dotGuess (cx : Codecs) (d : Bytes) : Str :=
  if d = [] then [] else match guessExtension cx d with
    | none => []
    | some e => '.' :: e

/-- `Spec.WithExt cx p d q x`: the path `p`, completed by an extension if it has none, is `q`, with the extension `x` (with its dot). -/
def Spec.WithExt (cx : Codecs) (p : Str) (d : Bytes) (q x : Str) : Prop :=
  (q = p ∧ ∃ e, Spec.HasExt p e ∧ x = '.' :: e) ∨
  ((∀ e, ¬ Spec.HasExt p e) ∧ x = ".cdtb".toList ++ Spec.dotGuess cx d ∧ q = p ++ x)

/-- The name under which a file, with content `d`, is extracted -/
inductive Spec.WadName (cx : Codecs) (hashes : Dict Int Str) (r : Spec.WadRecord) (d : Bytes) : Str → Prop
  | short (p q x : Str) : Spec.KnownAs hashes r p → p ≠ [] → Spec.WithExt cx p d q x → (basename q).length < 250 →
      Spec.WadName cx hashes r d q
  | long (p q x hex : Str) : Spec.KnownAs hashes r p → p ≠ [] → Spec.WithExt cx p d q x → 250 ≤ (basename q).length → x.length ≤ 233 →
      Spec.Hex16 hex r.hash →
      Spec.WadName cx hashes r d (pjoin (dirname q) ((basename q).take (233 - x.length) ++ '.' :: hex ++ x))
  | unknown (hex : Str) : (∀ p, Spec.KnownAs hashes r p → p = []) → Spec.Hex16 hex r.hash →
      Spec.WadName cx hashes r d ("unknown/".toList ++ hex ++ Spec.dotGuess cx d)

/-- The files selected by the options of `wad-extract` -/
structure Spec.Selected (fnmatch : Str → Str → Bool) (hashes : Dict Int Str) (args : WadArgs) (r : Spec.WadRecord) : Prop where
  only : args.unknown = .only → ∀ p, ¬ Spec.KnownAs hashes r p
  no : args.unknown = .no → ∃ p, Spec.KnownAs hashes r p
  pattern : args.patterns ≠ [] → ∃ p, Spec.KnownAs hashes r p ∧ ∃ pat ∈ args.patterns, fnmatch p pat = true

/-- The hash file used by WAD commands: the one given, or the default one for this kind of WAD -/
def Spec.HashFileOf (dir wad : Str) (hashes : Option Str) (path : Str) : Prop :=
  hashes = some path ∨ (hashes = none ∧ (∃ s, wad = s ++ ".wad.client".toList) ∧ path = pjoin dir "hashes.game.txt".toList) ∨
  (hashes = none ∧ (∃ s, wad = s ++ ".wad".toList) ∧ path = pjoin dir "hashes.lcu.txt".toList)

/-- The hashes and the archive a WAD command works on -/
structure Spec.Opens (cx : Codecs) (dir : Str) (fs : FS) (path : Str) (opt : Option Str) (hashes : Dict Int Str) (file : Bytes) (f : Spec.WadFormat)
    (version : Nat × Nat) (rs : List Spec.WadRecord) (toc : Option Bytes) : Prop where
  wad : fs path = some (.file file)
  known : ∃ hp text, Spec.HashFileOf dir path opt hp ∧ fs hp = some (.file (utf8Bytes text)) ∧ loadText text = .ok hashes
  archive : Spec.IsArchive cx hashes file f version rs toc

/-- The output directory of `wad-extract`: the one given, or the path of the WAD without its extension -/
def Spec.OutputOf (args : WadArgs) (out : Str) : Prop :=
  (args.output = some out ∧ out ≠ []) ∨ ((args.output = none ∨ args.output = some []) ∧
    ((∃ e, Spec.HasExt args.wad e ∧ args.wad = out ++ '.' :: e) ∨ ((∀ e, ¬ Spec.HasExt args.wad e) ∧ out = args.wad)))

/-- `Spec.Target ... r d x`: the file of the record `r`, with content `d`, is to be extracted at `x`. -/
def Spec.Target (cx : Codecs) (hashes : Dict Int Str) (file : Bytes) (toc : Option Bytes) (f : Spec.WadFormat) (out : Str) (r : Spec.WadRecord)
    (d : Bytes) (x : Str) : Prop :=
  Spec.Contains cx file toc f r (some d) ∧ ∃ name, Spec.WadName cx hashes r d name ∧ x = pjoin out name

end Cdtb
