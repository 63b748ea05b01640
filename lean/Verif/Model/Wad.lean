import Verif.Py.Struct
import Verif.Py.Utf8
import Verif.Model.Tools
/-!
# Model of cdtb/wad.py

The codecs (gzip, zstd), the xxh3 hash and the JSON parser are parameters.
-/
namespace Cdtb
set_option autoImplicit false
open Py

/-- External functions used by wad.py. -/
structure Codecs where
  /-- `gzip.decompress` (any error is reported as `.error`) -/
  gunzip : Bytes → Res Bytes
  /-- `pyzstd.decompress` -/
  unzstd : Bytes → Res Bytes
  /-- `xxh3_64_intdigest` -/
  xxh3 : Bytes → Nat
  /-- `json.loads(data)` succeeds -/
  isJson : Bytes → Bool

/-- `WadFileHeader` (cdtb/wad.py:75-87) -/
structure WadEntry where
  pathHash : Nat
  offset : Nat
  compressedSize : Nat
  size : Nat
  type : Nat
  subchunkCount : Nat
  duplicate : Bool
  firstSubchunk : Option Nat
  sha256 : Option Nat
  path : Option Str := none
  ext : Option Str := none
deriving DecidableEq, Repr

/-- `WadFileHeader.__init__`: cdtb/wad.py:75-87 -/
def wadEntry (pathHash offset compressedSize size type : Nat) (duplicate : Bool) (first sha : Option Nat) : WadEntry :=
  { pathHash, offset, size, subchunkCount := (type &&& 0xF0) >>> 4, type := type &&& 0xF, compressedSize,
    duplicate, firstSubchunk := first, sha256 := sha }

/-- Entry of version 1, `<QIIII`: cdtb/wad.py:221 -/
def readEntryV1 : Rd WadEntry := do
  let h ← Rd.u 8
  let offset ← Rd.u 4
  let csize ← Rd.u 4
  let size ← Rd.u 4
  let type ← Rd.u 4
  pure (wadEntry h offset csize size type false none none)

/-- Entry of versions 2.x to 3.3, `<QIIIB?HQ`: cdtb/wad.py:223 -/
def readEntryV2 : Rd WadEntry := do
  let h ← Rd.u 8
  let offset ← Rd.u 4
  let csize ← Rd.u 4
  let size ← Rd.u 4
  let type ← Rd.u 1
  let dup ← Rd.bool
  let first ← Rd.u 2
  let sha ← Rd.u 8
  pure (wadEntry h offset csize size type dup (some first) (some sha))

/-- Entry of versions from 3.4, `<QIIIBBHQ`: cdtb/wad.py:226-229 -/
def readEntryV34 : Rd WadEntry := do
  let h ← Rd.u 8
  let offset ← Rd.u 4
  let csize ← Rd.u 4
  let size ← Rd.u 4
  let type ← Rd.u 1
  let hi ← Rd.u 1
  let lo ← Rd.u 2
  let sha ← Rd.u 8
  pure (wadEntry h offset csize size type false (some (lo + (hi <<< 16))) (some sha))

/-- The skip to the number of entries: cdtb/wad.py:209-216. -/
def seekTable (major : Nat) : Rd Unit :=
  if major = 1 then Rd.seek 8
  else if major = 2 then Rd.seek 100
  else if major = 3 then Rd.seek 268
  else Rd.fail .value

/-- The table of entries: cdtb/wad.py:218-229. -/
def readTable (major minor count : Nat) : Rd (List WadEntry) :=
  if major = 1 then readEntryV1.times count
  else if major ≤ 2 ∨ (major = 3 ∧ minor ≤ 3) then readEntryV2.times count
  else readEntryV34.times count

/-- `raise ValueError` on a bad magic: cdtb/wad.py:205-206. -/
def checkMagic (magic : Bytes) : Rd Unit := if magic ≠ [0x52, 0x57] then Rd.fail .value else pure ()

/-- `Wad.parse_headers`: cdtb/wad.py:198-229. Gives the version and the files. -/
def parseHeaders : Rd ((Nat × Nat) × List WadEntry) := do
  let magic ← Rd.exact 2
  let major ← Rd.u 1
  let minor ← Rd.u 1
  checkMagic magic
  seekTable major
  let count ← Rd.u 4
  let files ← readTable major minor count
  pure ((major, minor), files)

/-! ## Data of an entry -/

/-- `b.rstrip(b'\0')` -/
def rstripNul (b : Bytes) : Bytes := (b.reverse.dropWhile (· = 0)).reverse

/-- The loop on subchunks: cdtb/wad.py:111-123; `k` subchunks from `index`. -/
def readSubchunks (cx : Codecs) (data toc : Bytes) : Nat → Nat → Nat → Res Bytes
  | 0, _, _ => .ok []
  | k + 1, index, offset => do
    let e := (toc.drop (16 * index)).take 16
    if e.length ≠ 16 then .error .struct
    else do
      let csize := leNat (e.take 4)
      let usize := leNat ((e.drop 4).take 4)
      let hash := leNat (e.drop 8)
      let sub := (data.drop offset).take csize
      if data.length < offset + csize ∨ cx.xxh3 sub ≠ hash then .error .malformedSubchunk
      else do
        let d ← if csize = usize then .ok sub else cx.unzstd sub
        let r ← readSubchunks cx data toc k (index + 1) (offset + csize)
        .ok (d ++ r)

/-- `WadFileHeader.read_data`: cdtb/wad.py:89-130. `none` is `None` (a redirection). -/
def readData (cx : Codecs) (w : WadEntry) (file : Bytes) (toc : Option Bytes) : Res (Option Bytes) :=
  let data := (file.drop w.offset).take w.compressedSize
  if w.type = 0 then .ok (some data)
  else if w.type = 1 then (cx.gunzip data).map some
  else if w.type = 2 then
    if (data.take 4).length ≠ 4 then .error .struct
    else match utf8 (rstripNul ((data.drop 4).take (leNat (data.take 4)))) with
      | .error e => .error e
      | .ok _ => .ok none
  else if w.type = 3 then (cx.unzstd data).map some
  else if w.type = 4 then
    match toc with
    | some t => match w.firstSubchunk with
      | none => .error .type
      | some first => (readSubchunks cx data t w.subchunkCount first 0).map some
    | none => match cx.unzstd data with
      | .ok d => .ok (some d)
      | .error _ => .error .malformedSubchunk
  else .error .value

/-- `Wad.read_file_data`: cdtb/wad.py:329-340 -/
def readFileData (cx : Codecs) (w : WadEntry) (file : Bytes) (toc : Option Bytes) : Res (Option Bytes) :=
  match readData cx w file toc with
  | .error .malformedSubchunk => .ok none
  | r => r

/-- `Wad.resolve_paths`: cdtb/wad.py:231-239, for a dict of hashes -/
def resolvePaths (hashes : Dict Int Str) (files : List WadEntry) : List WadEntry :=
  files.map fun w => match hashes.get? (w.pathHash : Int) with
    | some p => { w with path := some p, ext := some ((splitext p).2.drop 1) }
    | none => w

/-- `Wad.load_subchunk_toc`: cdtb/wad.py:241-254 -/
def loadSubchunkToc (cx : Codecs) (file : Bytes) : List WadEntry → Res (Option Bytes)
  | [] => .ok none
  | w :: ws => match w.path with
    | none => loadSubchunkToc cx file ws
    | some p => if endsWith p ".subchunktoc".toList then readData cx w file none else loadSubchunkToc cx file ws

/-! ## Extensions -/

/-- A matcher of the magic number table: a signature, or the test for JFIF/Exif. -/
inductive Matcher where
  | sig (b : Bytes)
  | jfif
deriving DecidableEq, Repr

/-- ASCII text as bytes -/
def asc (s : String) : Bytes := s.toList.map fun c => UInt8.ofNat c.toNat

/-- `WadFileHeader._magic_numbers_ext`: cdtb/wad.py:35-73 -/
def magicTable : List (Matcher × Str) := [
  (.sig [0xff, 0xd8, 0xff, 0xdb], "jpg".toList),
  (.sig [0xff, 0xd8, 0xff, 0xe1], "jpg".toList),
  (.jfif, "jpg".toList),
  (.sig [0x89, 0x50, 0x4e, 0x47, 0x0d, 0x0a, 0x1a, 0x0a], "png".toList),
  (.sig (asc "GIF87a"), "gif".toList),
  (.sig (asc "GIF89a"), "gif".toList),
  (.sig (asc "OggS"), "ogg".toList),
  (.sig [0x00, 0x01, 0x00, 0x00], "ttf".toList),
  (.sig [0x1a, 0x45, 0xdf, 0xa3], "webm".toList),
  (.sig (asc "true"), "ttf".toList),
  (.sig (asc "OTTO" ++ [0]), "otf".toList),
  (.sig (asc "\"use strict\";"), "min.js".toList),
  (.sig (asc "<template "), "template.html".toList),
  (.sig (asc "<!-- Elements -->"), "template.html".toList),
  (.sig (asc "<!DOCTYPE html>"), "html".toList),
  (.sig (asc "<html"), "html".toList),
  (.sig (asc "DDS "), "dds".toList),
  (.sig (asc "<svg"), "svg".toList),
  (.sig (asc "PROP"), "bin".toList),
  (.sig (asc "PTCH"), "bin".toList),
  (.sig (asc "BKHD"), "bnk".toList),
  (.sig (asc "r3d2Mesh"), "scb".toList),
  (.sig (asc "r3d2anmd"), "anm".toList),
  (.sig (asc "r3d2canm"), "anm".toList),
  (.sig (asc "r3d2sklt"), "skl".toList),
  (.sig (asc "r3d2"), "wpk".toList),
  (.sig [0x33, 0x22, 0x11, 0x00], "skn".toList),
  (.sig (asc "PreLoadBuildingBlocks = {"), "preload".toList),
  (.sig ([0x1b] ++ asc "LuaQ" ++ [0, 1, 4, 4]), "luabin".toList),
  (.sig ([0x1b] ++ asc "LuaQ" ++ [0, 1, 4, 8]), "luabin64".toList),
  (.sig [0x02, 0x3d, 0x00, 0x28], "troybin".toList),
  (.sig (asc "[ObjectBegin]"), "sco".toList),
  (.sig (asc "OEGM"), "mapgeo".toList),
  (.sig (asc "TEX" ++ [0]), "tex".toList),
  (.sig ([0] ++ asc "asm"), "wasm".toList),
  (.sig (asc "UnityFS"), "bundle".toList),
  (.sig (asc "UnityWebData1.0"), "data".toList)]

/-- cdtb/wad.py:162-166 and 38 -/
def Matcher.matches (m : Matcher) (data : Bytes) : Bool :=
  match m with
  | .sig b => b.isPrefixOf data
  | .jfif => let t := (data.drop 6).take 4; t = asc "JFIF" || t = asc "Exif"

/-- The loop of `guess_extension` on the table: cdtb/wad.py:161-167 -/
def firstMatch (data : Bytes) : List (Matcher × Str) → Option Str
  | [] => none
  | (m, ext) :: r => if m.matches data then some ext else firstMatch data r

/-- `WadFileHeader.guess_extension`: cdtb/wad.py:158-177 -/
def guessExtension (cx : Codecs) (data : Bytes) : Option Str :=
  match firstMatch data magicTable with
  | some e => some e
  | none => if cx.isJson data then some "json".toList else none

/-- `not wadfile.ext` -/
def noExt (e : Option Str) : Bool := match e with
  | none => true
  | some s => s.isEmpty

/-- First loop of `guess_extensions`: cdtb/wad.py:259-263 -/
def extsFromCache (cache : Dict Nat (Option Str)) (w : WadEntry) : WadEntry :=
  if noExt w.ext then { w with ext := (cache.get? w.pathHash).join } else w

/-- Second loop of `guess_extensions`: cdtb/wad.py:267-274; gives the new cache, the files (processed
so far) and the outcome. -/
def guessLoop (cx : Codecs) (file : Bytes) (toc : Option Bytes) :
    Dict Nat (Option Str) → List WadEntry → Dict Nat (Option Str) × List WadEntry × Res Unit
  | cache, [] => (cache, [], .ok ())
  | cache, w :: ws =>
    if noExt w.ext then
      match readFileData cx w file toc with
      | .error e => (cache, w :: ws, .error e)
      | .ok data =>
        match data with
        | none =>
          let (c, ws', r) := guessLoop cx file toc cache ws
          (c, w :: ws', r)
        | some d =>
          if d.isEmpty then
            let (c, ws', r) := guessLoop cx file toc cache ws
            (c, w :: ws', r)
          else
            let ext := guessExtension cx d
            let (c, ws', r) := guessLoop cx file toc (cache.set w.pathHash ext) ws
            (c, { w with ext := ext } :: ws', r)
    else
      let (c, ws', r) := guessLoop cx file toc cache ws
      (c, w :: ws', r)

/-- `Wad.guess_extensions`: cdtb/wad.py:256-274 -/
def guessExtensions (cx : Codecs) (file : Bytes) (toc : Option Bytes) (cache : Dict Nat (Option Str))
    (files : List WadEntry) : Dict Nat (Option Str) × List WadEntry × Res Unit :=
  let files := files.map (extsFromCache cache)
  if files.all (fun w => !noExt w.ext) then (cache, files, .ok ())
  else guessLoop cx file toc cache files

/-! ## Paths -/

/-- `wadfile.path` is `None` or empty -/
def noPath (p : Option Str) : Bool := match p with
  | none => true
  | some s => s.isEmpty

/-- `Wad.set_unknown_paths`: cdtb/wad.py:276-284 -/
def setUnknownPath (dir : Str) (w : WadEntry) : WadEntry :=
  if noPath w.path then
    if noExt w.ext then { w with path := some (dir ++ ['/'] ++ hexW 16 w.pathHash) }
    else { w with path := some (dir ++ ['/'] ++ hexW 16 w.pathHash ++ ['.'] ++ w.ext.getD []) }
  else w

/-- `s[:k]` with Python's meaning of a negative bound -/
def sliceTo (s : Str) (k : Int) : Str :=
  if 0 ≤ k then s.take k.toNat else s.take (s.length - k.natAbs)

/-- `Wad.sanitize_paths`: cdtb/wad.py:286-306 -/
def sanitizePath (w : WadEntry) : WadEntry :=
  match w.path with
  | none => w
  | some p =>
    if p.isEmpty then w
    else
      let e := (splitext p).2
      let ext := if e.isEmpty then
          ".cdtb".toList ++ (if noExt w.ext then [] else '.' :: w.ext.getD [])
        else e
      let p' := if e.isEmpty then p ++ ext else p
      let (dir, filename) := psplit p'
      if 250 ≤ filename.length then
        { w with path := some (pjoin dir (sliceTo filename (250 - 17 - (ext.length : Int)) ++ ['.'] ++ hexW 16 w.pathHash ++ ext)) }
      else { w with path := some p' }

/-! ## Extraction -/

/-- `e.errno in (errno.EINVAL, errno.ENAMETOOLONG)`: cdtb/wad.py:153 -/
def Err.isBadName : Err → Bool
  | .os n => n = 22 || n = 36
  | _ => false

/-- `WadFileHeader.extract`: cdtb/wad.py:132-156. Gives the file system and the outcome. -/
def extractEntry (cx : Codecs) (file : Bytes) (toc : Option Bytes) (fs : FS) (w : WadEntry) (output : Str)
    (f : WriteFaults) : FS × Res Unit :=
  match readData cx w file toc with
  | .error .malformedSubchunk => (fs, .ok ())
  | .error e => (fs, .error e)
  | .ok none => (fs, .ok ())
  | .ok (some data) =>
    match writeFileOrRemove fs output [.write data] f with
    | (fs', .ok ()) => (fs', .ok ())
    | (fs', .error e) => if e.isBadName then (fs', .ok ()) else (fs', .error e)

/-- The loop of `Wad.extract`: cdtb/wad.py:319-327; `faults` gives the faults of the writes, in order. -/
def extractLoop (cx : Codecs) (file : Bytes) (toc : Option Bytes) (output : Str) (overwrite : Bool) :
    FS → List (WadEntry × WriteFaults) → FS × Res Unit
  | fs, [] => (fs, .ok ())
  | fs, (w, f) :: ws =>
    let out := pjoin output (w.path.getD [])
    if !overwrite && (fs out).isSome then extractLoop cx file toc output overwrite fs ws
    else match extractEntry cx file toc fs w out f with
      | (fs', .ok ()) => extractLoop cx file toc output overwrite fs' ws
      | (fs', .error e) => (fs', .error e)

/-- `Wad.extract`: cdtb/wad.py:308-327 -/
def wadExtract (cx : Codecs) (file : Bytes) (toc : Option Bytes) (fs : FS) (output : Str) (overwrite : Bool)
    (files : List (WadEntry × WriteFaults)) : FS × Res Unit :=
  extractLoop cx file toc output overwrite fs
    (files.map fun wf => (setUnknownPath "unknown".toList (sanitizePath wf.1), wf.2))

end Cdtb
