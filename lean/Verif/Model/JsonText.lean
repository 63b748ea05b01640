import Verif.Model.ExportFiles
import Verif.Model.BinDump
/-!
# Model of the JSON writer (`json_dump` and `json_dumps`: cdtb/tools.py:10-19) and of its uses

The functions come from `ujson`, or from the standard library when it is not installed. What differs between them is a parameter: spaces, text of floats, text of
keys that are not strings, and whether DEL is escaped. Slashes are never escaped (`escape_forward_slashes=False`).
-/
namespace Cdtb
set_option autoImplicit false
open Py

/-- Library and options (`indent`, `ensure_ascii`) -/
structure JsonWriter where
  /-- `ensure_ascii` -/
  ascii : Bool
  /-- Whether DEL is escaped (only with `ensure_ascii`) -/
  escDel : Bool
  /-- Text of a float -/
  showF : Nat → Str
  /-- Name of a key that is not a string: the standard library raises `TypeError` for tuples. -/
  keyText : Ser → Res Str
  /-- Spaces after the name of a member and after the colon -/
  colonWs : Str × Str
  /-- Spaces after an opening bracket, after a comma, before a closing bracket, for a nesting level -/
  openWs : Nat → Str
  commaWs : Nat → Str
  closeWs : Nat → Str

/-- `f"{n:04x}"` for `n < 65536` -/
def hex4 (n : Nat) : Str := [digitChar (n / 4096 % 16), digitChar (n / 256 % 16), digitChar (n / 16 % 16), digitChar (n % 16)]

/-- Text of a character in a string (`escape` options of the libraries; cdtb/tools.py:13, 15) -/
def JsonWriter.escape (lib : JsonWriter) (c : Char) : Str :=
  if c = '"' then ['\\', '"']
  else if c = '\\' then ['\\', '\\']
  else if c = '\n' then ['\\', 'n']
  else if c = '\r' then ['\\', 'r']
  else if c = '\t' then ['\\', 't']
  else if c = '\x0c' then ['\\', 'f']
  else if c = '\x08' then ['\\', 'b']
  else if c.toNat < 32 then '\\' :: 'u' :: hex4 c.toNat
  else if !lib.ascii then [c]
  else if c.toNat < 127 then [c]
  else if c.toNat = 127 then (if lib.escDel then '\\' :: 'u' :: hex4 c.toNat else [c])
  else if c.toNat < 0x10000 then '\\' :: 'u' :: hex4 c.toNat
  else '\\' :: 'u' :: hex4 (0xD800 + (c.toNat - 0x10000) / 0x400) ++ '\\' :: 'u' :: hex4 (0xDC00 + (c.toNat - 0x10000) % 0x400)

/-- A string -/
def JsonWriter.string (lib : JsonWriter) (s : Str) : Str := '"' :: s.flatMap lib.escape ++ ['"']

/-- Texts separated by commas -/
def JsonWriter.commas (lib : JsonWriter) (level : Nat) : List Str → Str
  | [] => []
  | [t] => t
  | t :: l => t ++ ',' :: lib.commaWs level ++ lib.commas level l

/-- An array or an object, from the texts of its items -/
def JsonWriter.brackets (lib : JsonWriter) (o c : Char) (level : Nat) (ts : List Str) : Str :=
  if ts.isEmpty then [o, c] else o :: lib.openWs (level + 1) ++ lib.commas (level + 1) ts ++ lib.closeWs level ++ [c]

/-- A member of an object -/
def JsonWriter.member (lib : JsonWriter) (k t : Str) : Str := lib.string k ++ lib.colonWs.1 ++ ':' :: lib.colonWs.2 ++ t

/-- Name of a key -/
def JsonWriter.key (lib : JsonWriter) : Ser → Res Str
  | .str s => .ok s
  | k => lib.keyText k

mutual
/-- `json_dumps(obj)`, at a nesting level (cdtb/tools.py:10-19, cdtb/export.py:730, 785, 801, 846) -/
def JsonWriter.dumps (lib : JsonWriter) (level : Nat) : Ser → Res Str
  | .none => .ok "null".toList
  | .bool true => .ok "true".toList
  | .bool false => .ok "false".toList
  | .int n => .ok (showInt n)
  | .float b => .ok (lib.showF b)
  | .tuple l => .ok (lib.brackets '[' ']' level (l.map fun n : Nat => showInt n))
  | .floats l => .ok (lib.brackets '[' ']' level (l.map lib.showF))
  | .matrix rows => .ok (lib.brackets '[' ']' level (rows.map fun l => lib.brackets '[' ']' (level + 1) (l.map lib.showF)))
  | .str s => .ok (lib.string s)
  | .list l => do
    let ts ← lib.dumpsList (level + 1) l
    .ok (lib.brackets '[' ']' level ts)
  | .obj d => do
    let ts ← lib.dumpsObj (level + 1) d
    .ok (lib.brackets '{' '}' level ts)
  | .dict d => do
    let ts ← lib.dumpsDict (level + 1) d
    .ok (lib.brackets '{' '}' level ts)
/-- The items of a list -/
def JsonWriter.dumpsList (lib : JsonWriter) (level : Nat) : List Ser → Res (List Str)
  | [] => .ok []
  | s :: l => do
    let t ← lib.dumps level s
    let ts ← lib.dumpsList level l
    .ok (t :: ts)
/-- The members of a dict with string keys -/
def JsonWriter.dumpsObj (lib : JsonWriter) (level : Nat) : List (Str × Ser) → Res (List Str)
  | [] => .ok []
  | (k, s) :: l => do
    let t ← lib.dumps level s
    let ts ← lib.dumpsObj level l
    .ok (lib.member k t :: ts)
/-- The members of a dict -/
def JsonWriter.dumpsDict (lib : JsonWriter) (level : Nat) : List (Ser × Ser) → Res (List Str)
  | [] => .ok []
  | (k, s) :: l => do
    let n ← lib.key k
    let t ← lib.dumps level s
    let ts ← lib.dumpsDict level l
    .ok (lib.member n t :: ts)
end

/-- `str(key)` of the standard library for keys that are not strings (`json.dumps`: numbers, booleans and `None`; `TypeError` otherwise) -/
def stdKey (showF : Nat → Str) : Ser → Res Str
  | .none => .ok "null".toList
  | .bool true => .ok "true".toList
  | .bool false => .ok "false".toList
  | .int n => .ok (showInt n)
  | .float b => .ok (showF b)
  | _ => .error .type

/-- The standard library without `indent` (cdtb/tools.py:17-19) -/
def stdJson (ascii : Bool) (showF : Nat → Str) : JsonWriter :=
  { ascii, escDel := true, showF, keyText := stdKey showF, colonWs := ([], [' ']), openWs := fun _ => [], commaWs := fun _ => [' '], closeWs := fun _ => [] }

/-- `ujson` without `indent` (cdtb/tools.py:12-15): no spaces, and keys that are not strings are given by `str` -/
def ujson (ascii : Bool) (showF : Nat → Str) (str : Ser → Str) : JsonWriter :=
  { ascii, escDel := false, showF, keyText := fun k => .ok (str k), colonWs := ([], []), openWs := fun _ => [], commaWs := fun _ => [], closeWs := fun _ => [] }

/-- `fout.write(json_dumps(...).encode('ascii'))`: cdtb/export.py:730 -/
def JsonWriter.binBody (lib : JsonWriter) (s : Ser) : List BodyStep :=
  match lib.dumps 0 s with
  | .error e => [.raise e]
  | .ok t => match encodeAscii t with
    | .error e => [.raise e]
    | .ok b => [.write b]

/-- `json_dump(..., fout, ensure_ascii=False)` in a text file, which is encoded in UTF-8 (the encoding of the system is not modelled): cdtb/export.py:785,
801, 846. The text is written at once (the standard library writes it in several parts). -/
def JsonWriter.textBody (lib : JsonWriter) (s : Ser) : List BodyStep :=
  match lib.dumps 0 s with
  | .error e => [.raise e]
  | .ok t => [.write (utf8Bytes t)]

/-- What `command_bin_dump` prints: cdtb/__main__.py:327-330 -/
def BinOutput.print (w : JsonWriter) : BinOutput → Res Str
  | .text s => .ok s
  | .json s => w.dumps 0 s

/-- `command_bin_dump`, and what it prints: cdtb/__main__.py:319-330 -/
def DumpLib.printed (lib : DumpLib) (w : JsonWriter) (fs : FS) (bin : Str) (version : Option Str) (json : Bool) : Res Str := do
  let out ← lib.command fs bin version json
  out.print w

/-- `rst_json`: cdtb/export.py:776-782 -/
def rstSer (entries : Dict Str Str) (version : Nat) : Ser :=
  .obj [("entries".toList, .obj (entries.map fun kv => (kv.1, .str kv.2))), ("version".toList, .int version)]

/-- The dict returned by `parse_atlasinfo`: cdtb/export.py:823, 833 -/
def atlasSer (a : Dict Str AtlasItem) : Ser :=
  .obj (a.map fun kv => (kv.1, .obj [("atlasPath".toList, .str kv.2.atlasPath), ("startX".toList, .float kv.2.startX),
    ("startY".toList, .float kv.2.startY), ("endX".toList, .float kv.2.endX), ("endY".toList, .float kv.2.endY)]))

/-- The dict returned by `parse_championskininfo`: cdtb/export.py:860-874 -/
def skinSer (a : Dict Str (Dict Nat SkinInfo)) : Ser :=
  .obj (a.map fun kv => (kv.1, .dict (kv.2.map fun x => (.int x.1, .obj [("name".toList, .str x.2.name), ("prestige".toList, .bool x.2.prestige)]))))

end Cdtb
