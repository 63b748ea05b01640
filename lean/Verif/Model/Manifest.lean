import Verif.Py.Struct
import Verif.Py.Utf8
import Verif.Model.Info
/-!
# Manifests of the patcher (cdtb/patcher.py:27-263)

The body of a manifest is an `io.BytesIO`: seeking to a negative position raises `ValueError`
while a negative relative seek stops at the beginning.
Absent fields are `None`: values that may be absent are options.
-/
namespace Cdtb
set_option autoImplicit false
open Py

/-- `parser.seek(p)` on a `BytesIO` (cdtb/tools.py:64-65) -/
def seekAbs (p : Int) : Rd Unit := if p < 0 then Rd.fail .value else Rd.seek p.toNat

/-- `parser.skip(n)` on a `BytesIO` (cdtb/tools.py:67-68) -/
def skipRel (n : Int) : Rd Unit := do
  let pos ← Rd.tell
  Rd.seek ((pos : Int) + n).toNat

/-- One entry of a table (cdtb/patcher.py:155-160) -/
def tableEntry {α : Type} (p : Rd α) : Rd α := do
  let pos ← Rd.tell
  let offset ← Rd.i 4
  seekAbs (pos + offset)
  let a ← p
  Rd.seek (pos + 4)
  pure a

/-- `PatcherManifest._parse_table` (cdtb/patcher.py:151-160): `range` of a negative number is empty. -/
def parseTable {α : Type} (p : Rd α) : Rd (List α) := do
  let count ← Rd.i 4
  Rd.times (tableEntry p) count.toNat

/-- Formats of fields (cdtb/patcher.py:251-264): unsigned integers, `offset` and `str` -/
inductive Fmt where
  | u (w : Nat)
  | offset
  | str
deriving DecidableEq, Repr

/-- Values of fields -/
inductive FVal where
  | int (n : Nat)
  | pos (p : Int)
  | str (s : Str)
deriving DecidableEq, Repr

/-- The value of a field at a position (cdtb/patcher.py:255-264) -/
def parseField (pos : Nat) : Fmt → Rd FVal
  | .u w => do
    Rd.seek pos
    let n ← Rd.u w
    pure (.int n)
  | .offset => do
    Rd.seek pos
    let v ← Rd.i 4
    pure (.pos (pos + v))
  | .str => do
    Rd.seek pos
    let v ← Rd.i 4
    seekAbs (pos + v)
    let s ← unpackString
    pure (.str s)

/-- The value of the field `i`: `None` if it is beyond the table or if its offset is 0 (cdtb/patcher.py:252-264) -/
def slotValue (entry : Nat) (offsets : List Nat) (i : Nat) (fmt : Fmt) : Rd (Option FVal) :=
  match offsets[i]? with
  | none => pure none
  | some 0 => pure none
  | some (o + 1) => do
    let v ← parseField (entry + (o + 1)) fmt
    pure (some v)

/-- The loop on fields (cdtb/patcher.py:248-265) -/
def parseFields (entry : Nat) (offsets : List Nat) : Nat → List (Option (Str × Fmt)) → Rd (List (Str × Option FVal))
  | _, [] => pure []
  | i, none :: r => parseFields entry offsets (i + 1) r
  | i, some (name, fmt) :: r => do
    let v ← slotValue entry offsets i fmt
    let l ← parseFields entry offsets (i + 1) r
    pure ((name, v) :: l)

/-- The table of offsets (cdtb/patcher.py:244-247): a negative number of offsets is an invalid format. -/
def parseOffsets : Rd (List Nat) := do
  let size ← Rd.u 2
  skipRel 2
  if size < 4 then Rd.fail .struct
  else if (size - 4) / 2 = 0 then pure []
  else Rd.times (Rd.u 2) ((size - 4) / 2)

/-- `PatcherManifest._parse_field_table` (cdtb/patcher.py:238-266) -/
def parseFieldTable (fields : List (Option (Str × Fmt))) : Rd (Dict Str (Option FVal)) := do
  let entry ← Rd.tell
  let v ← Rd.i 4
  seekAbs (entry - v)
  let offsets ← parseOffsets
  let l ← parseFields entry offsets 0 fields
  pure (Dict.ofList l)

/-- `fields[name]`, for integers -/
def fieldNat (d : Dict Str (Option FVal)) (name : Str) : Option Nat :=
  match d.get? name with
  | some (some (.int n)) => some n
  | _ => none
/-- `fields[name]`, for texts -/
def fieldStr (d : Dict Str (Option FVal)) (name : Str) : Option Str :=
  match d.get? name with
  | some (some (.str s)) => some s
  | _ => none
/-- `parser.seek(fields[name])`: `None` raises `TypeError` (cdtb/patcher.py:180, 220) -/
def seekField (d : Dict Str (Option FVal)) (name : Str) : Rd Unit :=
  match d.get? name with
  | some (some (.pos p)) => seekAbs p
  | _ => Rd.fail .type

/-- `PatcherChunk` (cdtb/patcher.py:27-33); the bundle is given by its id. -/
structure PChunk where
  id : Option Nat
  bundle : Option Nat
  offset : Nat
  size : Option Nat
  target : Option Nat
deriving DecidableEq, Repr

/-- `PatcherBundle` (cdtb/patcher.py:35-38) -/
structure PBundle where
  id : Option Nat
  chunks : List PChunk
deriving DecidableEq, Repr

/-- `PatcherBundle.add_chunk` (cdtb/patcher.py:40-46): adding `None` raises `TypeError`. -/
def PBundle.addChunk (b : PBundle) (id size target : Option Nat) : Res PBundle :=
  match b.chunks.getLast? with
  | none => .ok { b with chunks := b.chunks ++ [⟨id, b.id, 0, size, target⟩] }
  | some last => match last.size with
    | none => .error .type
    | some s => .ok { b with chunks := b.chunks ++ [⟨id, b.id, last.offset + s, size, target⟩] }

/-- Chunks are added one by one (cdtb/patcher.py:181-182). -/
def PBundle.addChunks (b : PBundle) : List (Option Nat × Option Nat × Option Nat) → Res PBundle
  | [] => .ok b
  | (id, size, target) :: r => do
    let b' ← b.addChunk id size target
    b'.addChunks r

/-- `parse_chunklist` (cdtb/patcher.py:166-172) -/
def parseChunk : Rd (Option Nat × Option Nat × Option Nat) := do
  let d ← parseFieldTable [some ("chunk_id".toList, .u 8), some ("compressed_size".toList, .u 4), some ("uncompressed_size".toList, .u 4)]
  pure (fieldNat d "chunk_id".toList, fieldNat d "compressed_size".toList, fieldNat d "uncompressed_size".toList)

/-- `PatcherManifest._parse_bundle` (cdtb/patcher.py:162-184). Chunks are added once all are read
while the code adds them as they are read: only which of several exceptions is raised may differ. -/
def parseBundle : Rd PBundle := do
  let d ← parseFieldTable [some ("bundle_id".toList, .u 8), some ("chunks_offset".toList, .offset)]
  seekField d "chunks_offset".toList
  let l ← parseTable parseChunk
  Rd.lift (PBundle.addChunks ⟨fieldNat d "bundle_id".toList, []⟩ l)

/-- `PatcherManifest._parse_flag` (cdtb/patcher.py:186-191) -/
def parseFlag : Rd (Nat × Str) := do
  skipRel 4
  let b ← Rd.exact 8
  skipRel (leInt (b.drop 4) - 4)
  let s ← unpackString
  pure (leNat ((b.drop 3).take 1), s)

/-- A file entry (cdtb/patcher.py:196, 224) -/
structure PEntry where
  name : Option Str
  link : Option Str
  flagIds : Option (List Nat)
  dir : Option Nat
  size : Option Nat
  chunkIds : List Nat
deriving DecidableEq, Repr

/-- Ids of flags (cdtb/patcher.py:214-218) -/
def flagIds (mask : Option Nat) : Option (List Nat) :=
  match mask with
  | none => none
  | some 0 => none
  | some (n + 1) => some (((List.range 64).filter (fun i => (n + 1).testBit i)).map (· + 1))

/-- `PatcherManifest._parse_file_entry` (cdtb/patcher.py:193-224) -/
def parseFileEntry : Rd PEntry := do
  let d ← parseFieldTable [some ("file_id".toList, .u 8), some ("directory_id".toList, .u 8), some ("file_size".toList, .u 4),
    some ("name".toList, .str), some ("flags".toList, .u 8), none, none, some ("chunks".toList, .offset), none,
    some ("link".toList, .str), none, none, none]
  seekField d "chunks".toList
  let n ← Rd.u 4
  let ids ← Rd.times (Rd.u 8) n
  pure ⟨fieldStr d "name".toList, fieldStr d "link".toList, flagIds (fieldNat d "flags".toList),
    fieldNat d "directory_id".toList, fieldNat d "file_size".toList, ids⟩

/-- `PatcherManifest._parse_directory` (cdtb/patcher.py:226-236), giving (id, (name, parent)) as used at line 133 -/
def parseDirectory : Rd (Option Nat × Option Str × Option Nat) := do
  let d ← parseFieldTable [some ("directory_id".toList, .u 8), some ("parent_id".toList, .u 8), some ("name".toList, .str)]
  pure (fieldNat d "directory_id".toList, fieldStr d "name".toList, fieldNat d "parent_id".toList)

abbrev Directories := Dict (Option Nat) (Option Str × Option Nat)

/-- Formatting of an optional text -/
def fmtOpt (s : Option Str) : Str := s.getD "None".toList

/-- The `while` loop on parent directories (cdtb/patcher.py:138-140). `fuel` bounds the number of
iterations: the result is `none` if more are needed. -/
def fullName (dirs : Directories) : Nat → Option Nat → Option Str → Option (Res (Option Str))
  | _, none, name => some (.ok name)
  | 0, some _, _ => none
  | fuel + 1, some d, name => match dirs.get? (some d) with
    | none => some (.error .key)
    | some (dn, parent) => fullName dirs fuel parent (some (fmtOpt dn ++ '/' :: fmtOpt name))

/-- The loop with enough iterations: see `C36_cycle` for a justification of the bound. -/
def fullNameLoop (dirs : Directories) (dir : Option Nat) (name : Option Str) : Res (Option Str) :=
  (fullName dirs (dirs.length + 1) dir name).getD (.error .diverge)

/-- `PatcherFile` (cdtb/patcher.py:48-54) -/
structure PFile where
  name : Option Str
  size : Option Nat
  link : Option Str
  flags : Option (List Str)
  chunks : List PChunk
deriving DecidableEq, Repr

/-- `PatcherManifest` (cdtb/patcher.py:77-81) -/
structure Manifest where
  bundles : List PBundle
  chunks : Dict (Option Nat) PChunk
  flags : Dict Nat Str
  files : Dict (Option Str) PFile
deriving DecidableEq, Repr

/-- Flags of a file (cdtb/patcher.py:141-144) -/
def fileFlags (flags : Dict Nat Str) : Option (List Nat) → Res (Option (List Str))
  | none => .ok none
  | some ids => do
    let l ← ids.mapM (fun i => flags.get i)
    pure (some l)

/-- Merge of a file entry with directories, flags and chunks (cdtb/patcher.py:137-146) -/
def mergeFile (chunks : Dict (Option Nat) PChunk) (flags : Dict Nat Str) (dirs : Directories) (e : PEntry) : Res (Option Str × PFile) := do
  let name ← fullNameLoop dirs e.dir e.name
  let fl ← fileFlags flags e.flagIds
  let cs ← e.chunkIds.mapM (fun c => chunks.get (some c))
  pure (name, ⟨name, e.size, e.link, fl, cs⟩)

/-- Absolute offsets of tables (cdtb/patcher.py:117-119) -/
def tableOffset (base i : Nat) (b : Bytes) : Int := (base + 4 * i : Nat) + leInt ((b.drop (4 * i)).take 4)

/-- `PatcherManifest.parse_body` (cdtb/patcher.py:110-146) -/
def parseBody : Rd Manifest := do
  let n ← Rd.i 4
  skipRel n
  let base ← Rd.tell
  let b ← Rd.exact 24
  seekAbs (tableOffset base 0 b)
  let bundles ← parseTable parseBundle
  seekAbs (tableOffset base 1 b)
  let flags ← parseTable parseFlag
  seekAbs (tableOffset base 2 b)
  let entries ← parseTable parseFileEntry
  seekAbs (tableOffset base 3 b)
  let dirs ← parseTable parseDirectory
  let chunks := Dict.ofList (bundles.flatMap (fun b => b.chunks.map (fun c => (c.id, c))))
  let files ← Rd.lift (entries.mapM (mergeFile chunks (Dict.ofList flags) (Dict.ofList dirs)))
  pure ⟨bundles, chunks, Dict.ofList flags, Dict.ofList files⟩

/-- `PatcherManifest.parse_rman` (cdtb/patcher.py:94-108); the decompression is a parameter. -/
def parseRman (zstd : Bytes → Res Bytes) : Rd Manifest := do
  let h ← Rd.exact 6
  if h.take 4 ≠ [0x52, 0x4d, 0x41, 0x4e] then Rd.fail .value
  else if h.drop 4 ≠ [2, 0] ∧ h.drop 4 ≠ [2, 1] then Rd.fail .value
  else do
    let h ← Rd.exact 22
    if ¬ (leNat (h.take 2)).testBit 9 then Rd.fail .assertion
    else do
      let pos ← Rd.tell
      if leNat ((h.drop 2).take 4) ≠ pos then Rd.fail .assertion
      else do
        let z ← Rd.raw (leNat ((h.drop 6).take 4))
        let body ← Rd.lift (zstd z)
        Rd.lift (parseBody.run body)

/-- Predicate of `PatcherFile.langs_predicate` (cdtb/patcher.py:63-73). The parameter is `False`,
`True`, a language, or something else (for which there is no method `lower`). -/
inductive Langs where
  | none
  | all
  | lang (l : Str)
  | other
deriving DecidableEq, Repr

def langsPredicate : Langs → Res (PFile → Bool)
  | .none => .ok (fun f => match f.flags with
    | Option.none => true
    | some l => !(l.any (fun x => x.contains '_' && x.length == 5)))
  | .all => .ok (fun _ => true)
  | .lang l => .ok (fun f => match f.flags with
    | Option.none => false
    | some fl => fl.any (fun x => lower x == lower l))
  | .other => .error .attribute

/-- `PatcherManifest.filter_files` (cdtb/patcher.py:90-92) -/
def Manifest.filterFiles (m : Manifest) (langs : Langs) : Res (List PFile) := do
  let p ← langsPredicate langs
  pure (m.files.values.filter p)

end Cdtb
