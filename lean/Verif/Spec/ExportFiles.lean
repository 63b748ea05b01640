import Verif.Model.ExportFiles
import Mathlib.Data.List.Forall2
/-!
# Specification of exported files
-/
namespace Cdtb
set_option autoImplicit false
open Py

/-- A path with a file name: not empty, and not ending with a slash -/
def Spec.Named (p : Str) : Prop := ∃ q c, p = q ++ [c] ∧ c ≠ '/'

/-- `q` is a directory in which `x` is: the root, or the text of `x` before a slash -/
def Spec.DirOf (q x : Str) : Prop := (∀ c ∈ q, c = '/') ∨ ∃ r, x = q ++ '/' :: r

/-- The body of a `with` statement writes `b`, without raising. -/
def Spec.Writes (body : List BodyStep) (b : Bytes) : Prop := ∃ bs : List Bytes, body = bs.map .write ∧ b = bs.flatten

/-- The body writes something, then raises `e`. -/
def Spec.Raises (body : List BodyStep) (e : Err) : Prop := ∃ (bs : List Bytes) (rest : List BodyStep), body = bs.map .write ++ .raise e :: rest

/-- The result of a conversion: a file, or a directory of files -/
inductive Spec.Result where
  | file (b : Bytes)
  | dir (files : List (Str × Bytes))

/-- The OBJ file of a submesh -/
def Spec.ObjFile (lib : ConvLib) (e : SknEntry) (file : Str × Bytes) : Prop :=
  file.1 = e.name ++ ".obj".toList ∧ ∃ t, toObj lib.showF e = .ok t ∧ Spec.Writes (lib.text t) file.2

/-- `Spec.Converts lib c p d o r`: the converter `c` converts a file named `p`, with content `d`, to (among others) `r`, named `o`. -/
inductive Spec.Converts (lib : ConvLib) : Converter → Str → Bytes → Str → Spec.Result → Prop
  | copy (p : Str) (d : Bytes) : Spec.Converts lib .copy p d p (.file d)
  | image (p : Str) (d b : Bytes) : Spec.Writes (lib.image d) b →
      Spec.Converts lib .image p d ((splitext p).1 ++ ".png".toList) (.file b)
  | tex (p : Str) (d dds b : Bytes) : texToDds d = .ok dds → Spec.Writes (lib.image dds) b →
      Spec.Converts lib .tex p d ((splitext p).1 ++ ".png".toList) (.file b)
  | binCopy (p : Str) (d : Bytes) : Spec.Converts lib .bin p d p (.file d)
  | binJson (p : Str) (d b : Bytes) (bin : BinFile) (s : Ser) : parseBin (some lib.version) d = .ok bin → bin.ser lib.binEnv = .ok s →
      Spec.Writes (lib.binJson s) b → Spec.Converts lib .bin p d (p ++ ".json".toList) (.file b)
  | sknCopy (p : Str) (d : Bytes) : Spec.Converts lib .skn p d p (.file d)
  | sknDir (p : Str) (d : Bytes) (s : Skn) (files : List (Str × Bytes)) : parseSkn.run d = .ok s →
      List.Forall₂ (Spec.ObjFile lib) s.entries files → Spec.Converts lib .skn p d (splitext p).1 (.dir files)
  | rstCopy (p : Str) (d : Bytes) : Spec.Converts lib .rst p d p (.file d)
  | rstJson (p : Str) (d b : Bytes) (r : Rst) : (parseRst lib.rstEnv lib.version).run d = .ok r →
      Spec.Writes (lib.rstJson (rstEntries lib.rstHashes r) r.version) b → Spec.Converts lib .rst p d (p ++ ".json".toList) (.file b)
  | atlas (p : Str) (d b : Bytes) (a : Dict Str AtlasItem) : (parseAtlas lib.gameHashes).run d = .ok a → Spec.Writes (lib.atlasJson a) b →
      Spec.Converts lib .atlas p d (p ++ ".json".toList) (.file b)
  | skins (p : Str) (d b : Bytes) (a : Dict Str (Dict Nat SkinInfo)) : parseChampionSkins.run d = .ok a → Spec.Writes (lib.skinJson a) b →
      Spec.Converts lib .championSkin p d (p ++ ".json".toList) (.file b)

/-- The file is converted to all it should be. -/
def Spec.Convertible (lib : ConvLib) (c : Converter) (p : Str) (d : Bytes) : Prop :=
  ∀ o ∈ c.convertedPaths p, ∃ r, Spec.Converts lib c p d o r

/-- The errors of the image library that mean that an image cannot be converted -/
def Spec.ImageError (e : Err) : Prop := (∃ n, e = .os n) ∨ e = .fileNotFound ∨ e = .runtime ∨ e = .conversion

/-- The file is known not to be convertible: a warning is logged and the export goes on. -/
inductive Spec.Rejected (lib : ConvLib) : Converter → Bytes → Prop
  | image (d : Bytes) (e : Err) : Spec.Raises (lib.image d) e → Spec.ImageError e → Spec.Rejected lib .image d
  | tex (d : Bytes) : texToDds d = .error .conversion → Spec.Rejected lib .tex d
  | texImage (d dds : Bytes) (e : Err) : texToDds d = .ok dds → Spec.Raises (lib.image dds) e → Spec.ImageError e → Spec.Rejected lib .tex d
  | bin (d : Bytes) (e : Err) : parseBin (some lib.version) d = .error e → e = .value ∨ e = .unicode ∨ e = .conversion → Spec.Rejected lib .bin d

/-- The last of the files with a name -/
def Spec.fileNamed (files : List (Str × Bytes)) (n : Str) : Option Node := ((files.reverse.find? (fun f => decide (f.1 = n))).map fun f => .file f.2)

/-- The result is on disk, at `x`, complete, with nothing else in the case of a directory. -/
def Spec.OnDisk (fs : FS) (x : Str) : Spec.Result → Prop
  | .file b => fs x = some (.file b)
  | .dir files => fs x = some .dir ∧ ∀ n, fs (x ++ '/' :: n) = Spec.fileNamed files n

/-- The converter makes a directory from the file. -/
def Spec.IsTree (c : Converter) (p o : Str) : Prop := c = .skn ∧ o = (splitext p).1

/-- There is nothing at `x`; in the case of a directory, nothing inside it. -/
def Spec.Nothing (fs : FS) (c : Converter) (p o x : Str) : Prop := fs x = none ∧ (Spec.IsTree c p o → ∀ n, fs (x ++ '/' :: n) = none)

/-- The paths on disk that belong to an exported file -/
def Spec.Owns (output : Str) (c : Converter) (p q : Str) : Prop :=
  ∃ o ∈ c.convertedPaths p, q = pjoin output o ∨ (Spec.IsTree c p o ∧ ∃ n, q = pjoin output o ++ '/' :: n)

/-- Two exported files do not share paths on disk: their paths are different, and no one is a directory for the other. -/
def Spec.Apart (output : Str) (c : Converter) (p : Str) (c' : Converter) (p' : Str) : Prop :=
  ∀ x y, Spec.Owns output c p x → Spec.Owns output c' p' y → x ≠ y ∧ ¬ Spec.DirOf x y ∧ ¬ Spec.DirOf y x

/-- A file with an ordinary name, converted to different paths (it is not just `.skn`) -/
structure Spec.Ordinary (c : Converter) (p : Str) : Prop where
  named : Spec.Named p
  distinct : (c.convertedPaths p).Nodup

/-- The names of submeshes have no slashes. -/
def Spec.NamesOk (c : Converter) (d : Bytes) : Prop := c = .skn → ∀ s, parseSkn.run d = .ok s → ∀ e ∈ s.entries, '/' ∉ e.name

/-- `Exporter.export` exports a file named `p`, with content `d`. -/
def Spec.Exports (e : Exporter) (src : ExportSources) (p : Str) (d : Bytes) : Prop :=
  (∃ source, (p, source) ∈ e.plain ∧ src.plain source = .ok d) ∨
  ∃ w ∈ e.wads.values, ∃ wf ∈ w.files, wf.path = some p ∧ ∃ content toc, src.wad w.path = .ok (content, toc) ∧
    readFileData src.codecs wf content toc = .ok (some d)

/-- Every source file can be read. -/
def Spec.Readable (e : Exporter) (src : ExportSources) : Prop :=
  (∀ p source, (p, source) ∈ e.plain → ∃ d, src.plain source = .ok d) ∧
  ∀ w ∈ e.wads.values, ∃ content toc, src.wad w.path = .ok (content, toc) ∧
    ∀ wf ∈ w.files, wf.path ≠ none → ∃ d, readFileData src.codecs wf content toc = .ok d

/-- The paths of an exporter, with their converters, are ordinary. -/
structure Spec.Regular (e : Exporter) (src : ExportSources) (output : Str) : Prop where
  output : output ≠ []
  ordinary : ∀ p, some p ∈ e.paths → Spec.Ordinary (getConverter e.converters p) p
  names : ∀ p d, Spec.Exports e src p d → Spec.NamesOk (getConverter e.converters p) d

/-- Exported files do not share paths on disk. -/
def Spec.Separate (e : Exporter) (output : Str) : Prop :=
  (e.paths.filterMap id).Pairwise fun p q => Spec.Apart output (getConverter e.converters p) p (getConverter e.converters q) q

/-- What is on disk is not partial: each converted path has its right content, or is not there. -/
def Spec.CleanFile (lib : ConvLib) (output : Str) (fs : FS) (c : Converter) (p : Str) (d : Bytes) : Prop :=
  ∀ o ∈ c.convertedPaths p, Spec.Nothing fs c p o (pjoin output o) ∨ ∃ r, Spec.Converts lib c p d o r ∧ Spec.OnDisk fs (pjoin output o) r

/-- The results of conversions are on disk; there is nothing for those that are not possible. -/
def Spec.Complete (lib : ConvLib) (output : Str) (fs : FS) (c : Converter) (p : Str) (d : Bytes) : Prop :=
  ∀ o ∈ c.convertedPaths p, (∀ r, Spec.Converts lib c p d o r → Spec.OnDisk fs (pjoin output o) r) ∧
    ((∀ r, ¬ Spec.Converts lib c p d o r) → Spec.Nothing fs c p o (pjoin output o))

/-- Nothing is in the way: no directory in place of a file, no file in place of a directory. -/
def Spec.Free (output : Str) (fs : FS) (c : Converter) (p : Str) : Prop :=
  (∀ o ∈ c.convertedPaths p, (¬ Spec.IsTree c p o → fs (pjoin output o) ≠ some .dir) ∧
    (Spec.IsTree c p o → (∀ b, fs (pjoin output o) ≠ some (.file b)) ∧ (fs (pjoin output o) = none → ∀ n, fs (pjoin output o ++ '/' :: n) = none)))

/-- The directories of the converted files are not files. -/
def Spec.Reachable (output : Str) (fs : FS) (c : Converter) (p : Str) : Prop :=
  ∀ o ∈ c.convertedPaths p, ∀ q, Spec.DirOf q (pjoin output o) → ∀ b, fs q ≠ some (.file b)

end Cdtb
