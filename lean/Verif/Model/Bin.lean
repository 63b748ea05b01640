import Verif.Py.Struct
import Verif.Py.Utf8
import Verif.Py.Str
/-!
# Model of `cdtb/binfile.py`

Floats are their 32-bit patterns. The text representations (`repr`, `dump`) are not modelled.
-/
namespace Cdtb
set_option autoImplicit false
open Py

/-! ## Hashes -/

/-- `bytes.lower()`: ASCII letters only -/
def lowerByte (b : UInt8) : UInt8 := if 65 ≤ b ∧ b ≤ 90 then b + 32 else b

/-- `s.encode('ascii')`: raises `UnicodeEncodeError` -/
def encodeAscii (s : Str) : Res Bytes :=
  if s.all (fun c => decide (c.toNat < 128)) then .ok (s.map (fun c => UInt8.ofNat c.toNat)) else .error .unicode

/-- `compute_binhash` (cdtb/binfile.py:22-30) -/
def binHash (s : Str) : Res Nat :=
  match encodeAscii s with
  | .ok b => .ok ((b.map lowerByte).foldl (fun h b => ((h ^^^ b.toNat) * 0x01000193) % 0x100000000) 0x811c9dc5)
  | .error e => .error e

/-- Kinds of hashed values: subclasses of `BinHashBase` (cdtb/binfile.py:70-115). They differ by the list of
known hashes, and for `path` by the hash function and the width. -/
inductive BinHashKind where | hash | entry | field | type | path
deriving DecidableEq

/-- What the module depends on: the lists of hashes (`hashfile.load()`), and `xxh64_intdigest(s.lower())` -/
structure BinEnv where
  known : BinHashKind → Dict Nat Str
  xxh64Lower : Str → Nat

/-- A `BinHashBase` object: `s` is set when created (cdtb/binfile.py:37-39) -/
structure BinHash where
  kind : BinHashKind
  h : Nat
  s : Option Str
deriving DecidableEq

/-- `BinHashBase.__init__` (cdtb/binfile.py:37-39) -/
def BinEnv.mk' (env : BinEnv) (kind : BinHashKind) (h : Nat) : BinHash := { kind, h, s := (env.known kind).get? h }

/-- `compute_hash` (cdtb/binfile.py:63-65, 108-110) -/
def BinEnv.computeHash (env : BinEnv) (kind : BinHashKind) (s : Str) : Res Nat :=
  match kind with
  | .path => .ok (env.xxh64Lower s)
  | _ => binHash s

/-- `hex` (cdtb/binfile.py:67-68, 105-106) -/
def BinHash.hex (b : BinHash) : Str :=
  match b.kind with
  | .path => hexW 16 b.h
  | _ => hexW 8 b.h

/-- `__str__` and `to_serializable` (cdtb/binfile.py:52-58) -/
def BinHash.str (b : BinHash) : Str :=
  match b.s with
  | some s => s
  | none => '{' :: b.hex ++ ['}']

/-- What a hashed value can be compared to. -/
inductive BinOther where
  | hashed (b : BinHash)
  | str (s : Str)
  | int (n : Int)
  | other

/-- `BinHashBase.__eq__` (cdtb/binfile.py:41-50) -/
def BinHash.eq (env : BinEnv) (b : BinHash) : BinOther → Res Bool
  | .hashed o => .ok (b.h = o.h)
  | .str s => match b.s with
    | none => do
      let h ← env.computeHash b.kind s
      pure (b.h = h)
    | some t => .ok (t = s)
  | .int n => .ok ((b.h : Int) = n)
  | .other => .ok false

/-! ## Types -/

/-- `BinType` (cdtb/binfile.py:193-222) -/
inductive BinType where
  | empty | bool | s8 | u8 | s16 | u16 | s32 | u32 | s64 | u64 | float | vec2 | vec3 | vec4 | matrix | rgba | string
  | hash | path | list | list2 | struct | embedded | link | option | map | flag
deriving DecidableEq, Repr

/-- `BinType(v)`: raises `ValueError` (cdtb/binfile.py:193-222) -/
def BinType.ofCode : Nat → Res BinType
  | 0 => .ok .empty
  | 1 => .ok .bool
  | 2 => .ok .s8
  | 3 => .ok .u8
  | 4 => .ok .s16
  | 5 => .ok .u16
  | 6 => .ok .s32
  | 7 => .ok .u32
  | 8 => .ok .s64
  | 9 => .ok .u64
  | 10 => .ok .float
  | 11 => .ok .vec2
  | 12 => .ok .vec3
  | 13 => .ok .vec4
  | 14 => .ok .matrix
  | 15 => .ok .rgba
  | 16 => .ok .string
  | 17 => .ok .hash
  | 18 => .ok .path
  | 0x80 => .ok .list
  | 0x81 => .ok .list2
  | 0x82 => .ok .struct
  | 0x83 => .ok .embedded
  | 0x84 => .ok .link
  | 0x85 => .ok .option
  | 0x86 => .ok .map
  | 0x87 => .ok .flag
  | _ => .error .value

/-- `BinReader.parse_bintype` (cdtb/binfile.py:539-548) -/
def parseBinType (version v : Nat) : Res BinType :=
  let v := if version < 923 then (if v = 18 then 0x80 else if v ≥ 19 then 0x80 + v - 18 else v) else v
  let v := if version < 1008 then (if v ≥ 0x81 then v + 1 else v) else v
  BinType.ofCode v

/-- `self.btype_version = btype_version or 1008` (cdtb/binfile.py:392) -/
def btypeVersion (v : Option Nat) : Nat :=
  match v with
  | some n => if n = 0 then 1008 else n
  | none => 1008

/-! ## Values -/

mutual
/-- Values read from BIN files -/
inductive BinValue where
  /-- a tuple of integers: `EMPTY`, `RGBA` -/
  | tuple (l : List Nat)
  | bool (b : Bool)
  | int (n : Int)
  | float (bits : Nat)
  /-- a tuple of floats: `VEC2_FLOAT`, `VEC3_FLOAT`, `VEC4_FLOAT` -/
  | floats (l : List Nat)
  /-- a tuple of tuples of floats -/
  | matrix (rows : List (List Nat))
  | str (s : Str)
  /-- `BinHashValue`, `BinPathValue`, `BinEntryPath` -/
  | hashed (kind : BinHashKind) (h : Nat)
  /-- `BinList` -/
  | list (vtype : BinType) (values : List BinValue)
  /-- `BinStruct` -/
  | struct (htype : Nat) (fields : List BinField)
  /-- `BinEmbedded` -/
  | embedded (htype : Nat) (fields : List BinField)
  /-- `BinOption` -/
  | option (vtype : BinType) (value : Option BinValue)
  /-- `BinMap` -/
  | map (ktype vtype : BinType) (values : List BinPair)
/-- `BinField` (cdtb/binfile.py:295-301): the hash of its name, its type and its value -/
inductive BinField where
  | mk (name : Nat) (type : BinType) (value : BinValue)
/-- An item of the dict of a `BinMap` -/
inductive BinPair where
  | mk (key value : BinValue)
end

def BinField.name : BinField → Nat | .mk n _ _ => n
def BinField.type : BinField → BinType | .mk _ t _ => t
def BinField.value : BinField → BinValue | .mk _ _ v => v
def BinPair.key : BinPair → BinValue | .mk k _ => k
def BinPair.value : BinPair → BinValue | .mk _ v => v

/-- Equality of floats from their 32-bit patterns: NaN differs from everything, and the two zeros are equal. -/
def floatEq (a b : Nat) : Bool :=
  let nan (n : Nat) : Bool := decide (n % 2 ^ 31 > 0x7f800000)
  !nan a && !nan b && (decide (a = b) || (decide (a % 2 ^ 31 = 0) && decide (b % 2 ^ 31 = 0)))

/-- Equality of tuples of floats -/
def floatsEq : List Nat → List Nat → Bool
  | [], [] => true
  | a :: as, b :: bs => floatEq a b && floatsEq as bs
  | _, _ => false

/-- Equality of tuples of tuples of floats -/
def matrixEq : List (List Nat) → List (List Nat) → Bool
  | [], [] => true
  | a :: as, b :: bs => floatsEq a b && matrixEq as bs
  | _, _ => false

/-- Whether two keys of a dict are the same key: equal values, except for the classes that do not define
`__eq__` (`BinList`, `BinStruct`, `BinEmbedded`, `BinOption`, `BinMap`), whose objects are all different. Keys of
a map all have the same type, so equality between values of different types does not matter. -/
def BinValue.sameKey : BinValue → BinValue → Bool
  | .tuple a, .tuple b => decide (a = b)
  | .bool a, .bool b => decide (a = b)
  | .int a, .int b => decide (a = b)
  | .float a, .float b => floatEq a b
  | .floats a, .floats b => floatsEq a b
  | .matrix a, .matrix b => matrixEq a b
  | .str a, .str b => decide (a = b)
  | .hashed _ a, .hashed _ b => decide (a = b)
  | _, _ => false

/-- `d[k] = v` on the dict of a map -/
def mapSet (d : List BinPair) (k v : BinValue) : List BinPair :=
  match d with
  | [] => [.mk k v]
  | .mk k' v' :: r => if k'.sameKey k then .mk k' v :: r else .mk k' v' :: mapSet r k v

/-- `dict(pairs)` -/
def mapOfList (l : List BinPair) : List BinPair := l.foldl (fun d p => mapSet d p.key p.value) []

/-! ## Reading -/

/-- `read_string` (cdtb/binfile.py:491-492) -/
def binString : Rd Str := do
  let n ← Rd.u 2
  let b ← Rd.raw n
  Rd.lift (utf8 b)

/-- `read_field` (cdtb/binfile.py:534-537); `rv` is `read_bvalue` -/
def binField (version : Nat) (rv : BinType → Rd BinValue) : Rd BinField := do
  let name ← Rd.u 4
  let t ← Rd.u 1
  let type ← Rd.lift (parseBinType version t)
  let value ← rv type
  pure (.mk name type value)

/-- `read_list` (cdtb/binfile.py:506-509) -/
def binList (version : Nat) (rv : BinType → Rd BinValue) : Rd BinValue := do
  let t ← Rd.u 1
  let _ ← Rd.u 4
  let count ← Rd.u 4
  let vtype ← Rd.lift (parseBinType version t)
  let values ← Rd.times (rv vtype) count
  pure (.list vtype values)

/-- the number of fields of a struct (cdtb/binfile.py:513-516) -/
def binStructCount (htype : Nat) : Rd Nat :=
  if htype = 0 then pure 0
  else do
    let _ ← Rd.u 4
    Rd.u 2

/-- `read_struct` (cdtb/binfile.py:511-517) -/
def binStruct (version : Nat) (rv : BinType → Rd BinValue) : Rd BinValue := do
  let htype ← Rd.u 4
  let count ← binStructCount htype
  let fields ← Rd.times (binField version rv) count
  pure (.struct htype fields)

/-- `read_embedded` (cdtb/binfile.py:519-521) -/
def binEmbedded (version : Nat) (rv : BinType → Rd BinValue) : Rd BinValue := do
  let htype ← Rd.u 4
  let _ ← Rd.u 4
  let count ← Rd.u 2
  let fields ← Rd.times (binField version rv) count
  pure (.embedded htype fields)

/-- `self.read_bvalue(vtype) if has_value else None` (cdtb/binfile.py:526) -/
def binOptional (rv : Rd BinValue) : Bool → Rd (Option BinValue)
  | true => do
    let v ← rv
    pure (some v)
  | false => pure none

/-- `read_option` (cdtb/binfile.py:523-526) -/
def binOption (version : Nat) (rv : BinType → Rd BinValue) : Rd BinValue := do
  let t ← Rd.u 1
  let has ← Rd.bool
  let vtype ← Rd.lift (parseBinType version t)
  let value ← binOptional (rv vtype) has
  pure (.option vtype value)

/-- an item of a map (cdtb/binfile.py:532) -/
def binPair (rk rv : Rd BinValue) : Rd BinPair := do
  let k ← rk
  let v ← rv
  pure (.mk k v)

/-- `read_map` (cdtb/binfile.py:528-532) -/
def binMap (version : Nat) (rv : BinType → Rd BinValue) : Rd BinValue := do
  let kt ← Rd.u 1
  let vt ← Rd.u 1
  let _ ← Rd.u 4
  let count ← Rd.u 4
  let ktype ← Rd.lift (parseBinType version kt)
  let vtype ← Rd.lift (parseBinType version vt)
  let pairs ← Rd.times (binPair (rv ktype) (rv vtype)) count
  pure (.map ktype vtype (mapOfList pairs))

/-- A reader of a value made from what is read -/
def Rd.as {α β : Type} (p : Rd α) (f : α → β) : Rd β := do
  let a ← p
  pure (f a)

/-- `read_bvalue` and the readers of each type (cdtb/binfile.py:440-532, 551-579). Recursion is bounded by the
first argument: each level reads at least one byte before the next one, so the number of bytes of the file is
enough (`C22_fuel`). Python's own recursion limit is not modelled. -/
def binValue (version : Nat) : Nat → BinType → Rd BinValue
  | 0, _ => Rd.fail .diverge
  | fuel + 1, t => match t with
    | .empty => Rd.as (Rd.times (Rd.u 2) 3) .tuple
    | .bool => Rd.as Rd.bool .bool
    | .s8 => Rd.as (Rd.i 1) .int
    | .u8 => Rd.as (Rd.u 1) (fun n => .int n)
    | .s16 => Rd.as (Rd.i 2) .int
    | .u16 => Rd.as (Rd.u 2) (fun n => .int n)
    | .s32 => Rd.as (Rd.i 4) .int
    | .u32 => Rd.as (Rd.u 4) (fun n => .int n)
    | .s64 => Rd.as (Rd.i 8) .int
    | .u64 => Rd.as (Rd.u 8) (fun n => .int n)
    | .float => Rd.as (Rd.u 4) .float
    | .vec2 => Rd.as (Rd.times (Rd.u 4) 2) .floats
    | .vec3 => Rd.as (Rd.times (Rd.u 4) 3) .floats
    | .vec4 => Rd.as (Rd.times (Rd.u 4) 4) .floats
    | .matrix => Rd.as (Rd.times (Rd.times (Rd.u 4) 4) 4) .matrix
    | .rgba => Rd.as (Rd.times (Rd.u 1) 4) .tuple
    | .string => Rd.as binString .str
    | .hash => Rd.as (Rd.u 4) (.hashed .hash)
    | .path => Rd.as (Rd.u 8) (.hashed .path)
    | .list => binList version (binValue version fuel)
    | .list2 => binList version (binValue version fuel)
    | .struct => binStruct version (binValue version fuel)
    | .embedded => binEmbedded version (binValue version fuel)
    | .link => Rd.as (Rd.u 4) (.hashed .entry)
    | .option => binOption version (binValue version fuel)
    | .map => binMap version (binValue version fuel)
    | .flag => Rd.as (Rd.u 1) (fun n => .int n)

/-- `BinEntry` (cdtb/binfile.py:336-339) -/
structure BinEntry where
  path : Nat
  type : Nat
  fields : List BinField

/-- `BinPatchField` (cdtb/binfile.py:309-315) -/
structure BinPatchField where
  path : Str
  type : BinType
  value : BinValue

/-- `BinPatchEntry` (cdtb/binfile.py:324-327) -/
structure BinPatchEntry where
  path : Nat
  fields : List BinPatchField

/-- `BinFile` (cdtb/binfile.py:345-363) -/
structure BinFile where
  isPatch : Bool
  version : Nat
  linked : Option (List Str)
  entries : List BinEntry
  patches : Option (List BinPatchEntry)

/-- the linked files (cdtb/binfile.py:401-405) -/
def binLinked (version : Nat) : Rd (Option (List Str)) :=
  if version ≥ 2 then do
    let n ← Rd.u 4
    let l ← Rd.times binString n
    pure (some l)
  else pure none

/-- `assert cond` -/
def rdAssert (cond : Bool) : Rd Unit := if cond then pure () else Rd.fail .assertion

/-- `read_binfile_entry` (cdtb/binfile.py:410-418) -/
def binEntry (rf : Rd BinField) (type : Nat) : Rd BinEntry := do
  let p ← Rd.tell
  let pos := p + 4
  let length ← Rd.u 4
  let path ← Rd.u 4
  let count ← Rd.u 2
  let fields ← Rd.times rf count
  let p' ← Rd.tell
  rdAssert (decide ((p' : Int) - (pos : Int) = length))
  pure { path, type, fields }

/-- `[p(x) for x in l]` -/
def Rd.forList {α β : Type} (p : α → Rd β) : List α → Rd (List β)
  | [] => pure []
  | x :: l => do
    let b ← p x
    let bs ← Rd.forList p l
    pure (b :: bs)

/-- one item of the patch section (cdtb/binfile.py:426-429) -/
def binPatchItem (version : Nat) (rv : BinType → Rd BinValue) : Rd (Nat × BinPatchField) := do
  let hpath ← Rd.u 4
  let _ ← Rd.u 4
  let t ← Rd.u 1
  let type ← Rd.lift (parseBinType version t)
  let path ← binString
  let value ← rv type
  pure (hpath, { path, type, value })

/-- grouping by entry (cdtb/binfile.py:431-435) -/
def patchGroup (d : Dict Nat (List BinPatchField)) (x : Nat × BinPatchField) : Dict Nat (List BinPatchField) :=
  d.set x.1 ((d.get? x.1).getD [] ++ [x.2])

/-- `read_patch_section` (cdtb/binfile.py:420-437). The items are read, then grouped; the code does both in the
same loop. -/
def binPatches (version : Nat) (rv : BinType → Rd BinValue) : Rd (List BinPatchEntry) := do
  let count ← Rd.u 4
  let items ← Rd.times (binPatchItem version rv) count
  pure ((items.foldl patchGroup []).map (fun x => { path := x.1, fields := x.2 }))

/-- the header of patch files (cdtb/binfile.py:350-354): the magic code that follows -/
def binMagic (magic : Bytes) : Rd Bytes :=
  if magic = [80, 84, 67, 72] then do
    let a ← Rd.u 4
    let b ← Rd.u 4
    rdAssert (decide (a = 1 ∧ b = 0))
    Rd.raw 4
  else pure magic

/-- cdtb/binfile.py:355-356 -/
def binCheckMagic (magic : Bytes) : Rd Unit := if magic ≠ [80, 82, 79, 80] then Rd.fail .value else pure ()

/-- the patch section, when there is one (cdtb/binfile.py:360-363) -/
def binPatchSection (version : Nat) (rv : BinType → Rd BinValue) (present : Bool) : Rd (Option (List BinPatchEntry)) :=
  match present with
  | true => do
    let p ← binPatches version rv
    pure (some p)
  | false => pure none

/-- `BinFile.__init__` on a file object (cdtb/binfile.py:346-363), with bounded recursion -/
def parseBinFuel (fuel : Nat) (btype : Option Nat) : Rd BinFile := do
  let magic ← Rd.raw 4
  let isPatch := decide (magic = [80, 84, 67, 72])
  let magic ← binMagic magic
  binCheckMagic magic
  let rv := binValue (btypeVersion btype) fuel
  let version ← Rd.u 4
  let linked ← binLinked version
  let count ← Rd.u 4
  let types ← Rd.times (Rd.u 4) count
  let entries ← Rd.forList (binEntry (binField (btypeVersion btype) rv)) types
  let patches ← binPatchSection (btypeVersion btype) rv (isPatch && decide (version ≥ 3))
  pure { isPatch, version, linked, entries, patches }

/-- `BinFile(f, btype_version)` on the content of a file -/
def parseBin (btype : Option Nat) (data : Bytes) : Res BinFile := (parseBinFuel (data.length + 1) btype).run data

/-! ## Access to fields -/

/-- Keys accepted by `BinObjectWithFields` -/
inductive BinKey where
  | hashed (h : Nat)
  | str (s : Str)
  | int (n : Int)
  | other

/-- `key_to_hash` (cdtb/binfile.py:118-124): a number, or something that is not equal to any number -/
def binKeyHash : BinKey → Res (Option Int)
  | .hashed h => .ok (some h)
  | .str s => do
    let h ← binHash s
    pure (some (h : Int))
  | .int n => .ok (some n)
  | .other => .ok none

/-- the loop on fields: `v.name.h == h` -/
def findField (fields : List BinField) (h : Option Int) : Option BinField :=
  fields.find? (fun f => decide (some (f.name : Int) = h))

/-- `BinObjectWithFields.__getitem__` (cdtb/binfile.py:132-137) -/
def getField (fields : List BinField) (key : BinKey) : Res BinField := do
  let h ← binKeyHash key
  match findField fields h with
  | some f => pure f
  | none => .error .key

/-- the loop of `__setitem__` (cdtb/binfile.py:141-146) -/
def replaceField (fields : List BinField) (h : Option Int) (value : BinField) : List BinField :=
  match fields with
  | [] => [value]
  | f :: r => if some (f.name : Int) = h then value :: r else f :: replaceField r h value

/-- `__setitem__` (cdtb/binfile.py:139-146) -/
def setField (fields : List BinField) (key : BinKey) (value : BinField) : Res (List BinField) := do
  let h ← binKeyHash key
  pure (replaceField fields h value)

/-- `__contains__` (cdtb/binfile.py:148-153) -/
def hasField (fields : List BinField) (key : BinKey) : Res Bool := do
  let h ← binKeyHash key
  pure (fields.any (fun f => decide (some (f.name : Int) = h)))

/-- `get(key, default)` (cdtb/binfile.py:155-159); `none` is the default value -/
def getFieldD (fields : List BinField) (key : BinKey) : Res (Option BinField) :=
  match getField fields key with
  | .ok f => .ok (some f)
  | .error .key => .ok none
  | .error e => .error e

/-- Results of `getv` and `get_path`: Python values -/
inductive BinPy where
  /-- the `default` argument -/
  | default
  | none
  | value (v : BinValue)
  | list (l : List BinValue)
  | dict (l : List BinPair)
  /-- the object itself (`get_path` without arguments) -/
  | self

/-- `_to_python_type` (cdtb/binfile.py:585-593) -/
def toPython : BinValue → BinPy
  | .list _ l => .list l
  | .map _ _ l => .dict l
  | .option _ (some v) => .value v
  | .option _ none => .none
  | v => .value v

/-- `getv(key, default)` (cdtb/binfile.py:161-166) -/
def getv (fields : List BinField) (key : BinKey) : Res BinPy :=
  match getField fields key with
  | .ok f => .ok (toPython f.value)
  | .error .key => .ok .default
  | .error e => .error e

/-- `v[key].value` on a value: only structs can be indexed by field name. Indexing a tuple or a string by an
integer raises `AttributeError` or `IndexError` in the code, and `TypeError` in the model. -/
def BinValue.item (v : BinValue) (key : BinKey) : Res BinValue :=
  match v with
  | .struct _ fields => do
    let f ← getField fields key
    pure f.value
  | .embedded _ fields => do
    let f ← getField fields key
    pure f.value
  | _ => .error .type

/-- the loop of `get_path` after the first key (cdtb/binfile.py:172-173) -/
def walkPath (v : BinValue) : List BinKey → Res BinValue
  | [] => .ok v
  | k :: ks => do
    let v' ← v.item k
    walkPath v' ks

/-- `get_path(*args, default)` (cdtb/binfile.py:168-176) -/
def getPath (fields : List BinField) : List BinKey → Res BinPy
  | [] => .ok .self
  | k :: ks =>
    match (do let f ← getField fields k; walkPath f.value ks) with
    | .ok v => .ok (toPython v)
    | .error .key => .ok .default
    | .error e => .error e

/-! ## Serialization -/

/-- What `to_serializable` returns -/
inductive Ser where
  | none
  | bool (b : Bool)
  | int (n : Int)
  | float (bits : Nat)
  | tuple (l : List Nat)
  | floats (l : List Nat)
  | matrix (rows : List (List Nat))
  | str (s : Str)
  | list (l : List Ser)
  /-- a dict with string keys -/
  | obj (d : List (Str × Ser))
  /-- a dict from a map -/
  | dict (d : List (Ser × Ser))

/-- Whether a serialized value can be a key of a dict -/
def Ser.hashable : Ser → Bool
  | .list _ => false
  | .obj _ => false
  | .dict _ => false
  | _ => true

/-- Whether two serialized keys are the same key (those of a map have the same type) -/
def Ser.sameKey : Ser → Ser → Bool
  | .none, .none => true
  | .tuple a, .tuple b => decide (a = b)
  | .bool a, .bool b => decide (a = b)
  | .int a, .int b => decide (a = b)
  | .float a, .float b => floatEq a b
  | .floats a, .floats b => floatsEq a b
  | .matrix a, .matrix b => matrixEq a b
  | .str a, .str b => decide (a = b)
  | _, _ => false

/-- `d[k] = v`: raises `TypeError` when the key is not hashable -/
def serSet (d : List (Ser × Ser)) (k v : Ser) : List (Ser × Ser) :=
  match d with
  | [] => [(k, v)]
  | (k', v') :: r => if k'.sameKey k then (k', v) :: r else (k', v') :: serSet r k v

mutual
/-- `_to_serializable` (cdtb/binfile.py:582-583) and the `to_serializable` methods (cdtb/binfile.py:52-58,
178-179, 188-191, 254-255, 263-264, 280-281, 292-293, 306-307) -/
def ser (env : BinEnv) : BinValue → Res Ser
  | .tuple l => .ok (.tuple l)
  | .bool b => .ok (.bool b)
  | .int n => .ok (.int n)
  | .float b => .ok (.float b)
  | .floats l => .ok (.floats l)
  | .matrix l => .ok (.matrix l)
  | .str s => .ok (.str s)
  | .hashed k h => .ok (.str (env.mk' k h).str)
  | .list _ l => do
    let l' ← serList env l
    pure (.list l')
  | .struct htype fields => do
    let d ← serFields env [] fields
    pure (if htype = 0 then .none else .obj (d.set "__type".toList (.str (env.mk' .type htype).str)))
  | .embedded htype fields => do
    let d ← serFields env [] fields
    pure (.obj (d.set "__type".toList (.str (env.mk' .type htype).str)))
  | .option _ none => .ok .none
  | .option _ (some v) => ser env v
  | .map _ _ l => do
    let d ← serPairs env [] l
    pure (.dict d)
def serList (env : BinEnv) : List BinValue → Res (List Ser)
  | [] => .ok []
  | v :: l => do
    let s ← ser env v
    let l' ← serList env l
    pure (s :: l')
/-- `dict(f.to_serializable() for f in self.fields)` (cdtb/binfile.py:178-179) -/
def serFields (env : BinEnv) (d : Dict Str Ser) : List BinField → Res (Dict Str Ser)
  | [] => .ok d
  | .mk name _ v :: l => do
    let s ← ser env v
    serFields env (d.set (env.mk' .field name).str s) l
/-- `{_to_serializable(k): _to_serializable(v) for k,v in self.values.items()}` (cdtb/binfile.py:293) -/
def serPairs (env : BinEnv) (d : List (Ser × Ser)) : List BinPair → Res (List (Ser × Ser))
  | [] => .ok d
  | .mk k v :: l => do
    let sk ← ser env k
    let sv ← ser env v
    if sk.hashable then serPairs env (serSet d sk sv) l else .error .type
end

/-- `BinObjectWithFieldsAndType.to_serializable` on an entry (cdtb/binfile.py:188-191) -/
def BinEntry.ser (env : BinEnv) (e : BinEntry) : Res Ser := do
  let d ← serFields env [] e.fields
  pure (.obj (d.set "__type".toList (.str (env.mk' .type e.type).str)))

/-- the fields of a `BinPatchEntry` (cdtb/binfile.py:320-321, 333-334) -/
def serPatchFields (env : BinEnv) (d : Dict Str Ser) : List BinPatchField → Res (Dict Str Ser)
  | [] => .ok d
  | f :: l => do
    let s ← ser env f.value
    serPatchFields env (d.set f.path s) l

/-- `{entry.path.to_serializable(): entry.to_serializable() for entry in entries}` -/
def serEntries {α : Type} (env : BinEnv) (path : α → Nat) (f : α → Res Ser) (d : Dict Str Ser) : List α → Res (Dict Str Ser)
  | [] => .ok d
  | e :: l => do
    let s ← f e
    serEntries env path f (d.set (env.mk' .entry (path e)).str s) l

/-- `serialized["__linked"] = self.linked_files` (cdtb/binfile.py:367-368) -/
def serLinked (linked : Option (List Str)) (d : Dict Str Ser) : Dict Str Ser :=
  match linked with
  | some l => d.set "__linked".toList (.list (l.map .str))
  | none => d

/-- `serialized["__patches"] = ...` (cdtb/binfile.py:369-370) -/
def serPatches (env : BinEnv) (patches : Option (List BinPatchEntry)) (d : Dict Str Ser) : Res (Dict Str Ser) :=
  match patches with
  | some ps => do
    let p ← serEntries env (·.path) (fun e : BinPatchEntry => do
      let s ← serPatchFields env [] e.fields
      pure (.obj s)) [] ps
    pure (d.set "__patches".toList (.obj p))
  | none => .ok d

/-- `BinFile.to_serializable` (cdtb/binfile.py:365-371) -/
def BinFile.ser (env : BinEnv) (f : BinFile) : Res Ser := do
  let d ← serEntries env (·.path) (BinEntry.ser env) [] f.entries
  let d' ← serPatches env f.patches (serLinked f.linked d)
  pure (.obj d')

end Cdtb
