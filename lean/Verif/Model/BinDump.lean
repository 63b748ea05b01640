import Verif.Model.Bin
import Verif.Model.Cli
import Verif.Model.Version
import Verif.Py.FS
/-!
# Model of the text of BIN files (cdtb/binfile.py:7-13, 224-380) and of the command `bin-dump` (cdtb/__main__.py:319-330)
-/
namespace Cdtb
set_option autoImplicit false
open Py

/-- What the text depends on: known hashes, `str.isprintable` for one character (used above U+007E only), `repr` of the float with given 32 bits -/
structure DumpLib where
  env : BinEnv
  printable : Char → Bool
  floatRepr : Nat → Str

/-- A character in `repr(s)`, between quotes `q` (used at cdtb/binfile.py:8, 77, 87, 114) -/
def pyEscape (printable : Char → Bool) (q c : Char) : Str :=
  if c = q ∨ c = '\\' then ['\\', c]
  else if c = '\t' then ['\\', 't']
  else if c = '\n' then ['\\', 'n']
  else if c = '\r' then ['\\', 'r']
  else if c.toNat < 32 ∨ c.toNat = 127 then '\\' :: 'x' :: hexW 2 c.toNat
  else if c.toNat < 127 ∨ printable c then [c]
  else if c.toNat < 256 then '\\' :: 'x' :: hexW 2 c.toNat
  else if c.toNat < 65536 then '\\' :: 'u' :: hexW 4 c.toNat
  else '\\' :: 'U' :: hexW 8 c.toNat

/-- The quote of `repr(s)` -/
def pyQuote (s : Str) : Char := if '\'' ∈ s ∧ '"' ∉ s then '"' else '\''

/-- `repr(s)` of a text (used at cdtb/binfile.py:8, 77, 87, 114) -/
def pyRepr (printable : Char → Bool) (s : Str) : Str := pyQuote s :: s.flatMap (pyEscape printable (pyQuote s)) ++ [pyQuote s]

/-- `repr` of a tuple (no tuple has one item) -/
def tupleText (l : List Str) : Str := '(' :: join ", ".toList l ++ [')']

/-- `_repr_indent`: cdtb/binfile.py:7-8; from the result of `repr` -/
def reprIndent (s : Str) : Str := s.flatMap fun c => if c = '\n' then "\n  ".toList else [c]

/-- `_repr_indent_list`: cdtb/binfile.py:10-13; from the results of `repr` -/
def reprIndentList (l : List Str) : Str :=
  if l.isEmpty then "[]".toList else "[\n".toList ++ (l.flatMap fun s => "  ".toList ++ reprIndent s ++ "\n".toList) ++ "]".toList

/-- `BinType.name` (cdtb/binfile.py:193-222) -/
def BinType.name : BinType → Str
  | .empty => "EMPTY".toList | .bool => "BOOL".toList | .s8 => "S8".toList | .u8 => "U8".toList | .s16 => "S16".toList | .u16 => "U16".toList
  | .s32 => "S32".toList | .u32 => "U32".toList | .s64 => "S64".toList | .u64 => "U64".toList | .float => "FLOAT".toList
  | .vec2 => "VEC2_FLOAT".toList | .vec3 => "VEC3_FLOAT".toList | .vec4 => "VEC4_FLOAT".toList | .matrix => "MATRIX4X4".toList
  | .rgba => "RGBA".toList | .string => "STRING".toList | .hash => "HASH".toList | .path => "PATH".toList | .list => "LIST".toList
  | .list2 => "LIST2".toList | .struct => "STRUCT".toList | .embedded => "EMBEDDED".toList | .link => "LINK".toList
  | .option => "OPTION".toList | .map => "MAP".toList | .flag => "FLAG".toList

/-- `__repr__` of `BinHashValue`, `BinEntryPath` and `BinPathValue` (cdtb/binfile.py:75-78, 85-88, 112-115) -/
def DumpLib.hashRepr (lib : DumpLib) (b : BinHash) : Str := match b.s with
  | some s => pyRepr lib.printable s
  | none => '{' :: b.hex ++ ['}']

/-- `repr` of a value from `text`, what `format_binvalue` gives after the name of the type: `__repr__` of the classes (cdtb/binfile.py:251-252, 260-261, 269-270,
277-278, 289-290) always give the same name -/
def wrapRepr : BinValue → Str → Str
  | .list _ _, text => "<LIST".toList ++ text ++ ">".toList
  | .struct _ _, text => "<STRUCT ".toList ++ text ++ ">".toList
  | .embedded _ _, text => "<EMBEDDED ".toList ++ text ++ ">".toList
  | .option _ _, text => "<OPTION".toList ++ text ++ ">".toList
  | .map _ _ _, text => "<MAP".toList ++ text ++ ">".toList
  | _, text => text

/-- `format_binvalue` (cdtb/binfile.py:224-243) from what follows the name of the type. The match is on the class of the value instead of the type; values read from files have the class of
their type. -/
def typedText (t : BinType) : BinValue → Str → Str
  | .list _ _, text => t.name ++ text
  | .struct _ _, text => "STRUCT ".toList ++ text
  | .embedded _ _, text => "EMBEDDED ".toList ++ text
  | .option _ _, text => "OPTION".toList ++ text
  | .map _ _ _, text => "MAP".toList ++ text
  | _, text => t.name ++ " ".toList ++ text

/-- `str(k)` of a key from `text` (cdtb/binfile.py:240): texts and hashes are not quoted (cdtb/binfile.py:52-55) -/
def keyStr (lib : DumpLib) : BinValue → Str → Str
  | .str s, _ => s
  | .hashed kind h, _ => (lib.env.mk' kind h).str
  | v, text => wrapRepr v text

mutual
/-- What `format_binvalue` gives after the name of the type: cdtb/binfile.py:224-243 -/
def DumpLib.text (lib : DumpLib) : BinValue → Str
  | .tuple l => tupleText (l.map fun n : Nat => showInt (n : Int))
  | .bool b => if b then "True".toList else "False".toList
  | .int n => showInt n
  | .float b => lib.floatRepr b
  | .floats l => tupleText (l.map lib.floatRepr)
  | .matrix rows => tupleText (rows.map fun r => tupleText (r.map lib.floatRepr))
  | .str s => pyRepr lib.printable s
  | .hashed kind h => lib.hashRepr (lib.env.mk' kind h)
  | .list vt vs => "(".toList ++ vt.name ++ ") ".toList ++ reprIndentList (lib.reprs vs)
  | .struct h fs => if h = 0 then "None".toList else (lib.env.mk' .type h).str ++ " ".toList ++ reprIndentList (lib.fieldReprs fs)
  | .embedded h fs => (lib.env.mk' .type h).str ++ " ".toList ++ reprIndentList (lib.fieldReprs fs)
  | .option vt none => "(".toList ++ vt.name ++ ") None".toList
  | .option vt (some v) => "(".toList ++ vt.name ++ ") ".toList ++ wrapRepr v (lib.text v)
  | .map kt vt ps => "(".toList ++ kt.name ++ ",".toList ++ vt.name ++ ") {\n".toList ++ lib.pairsText ps ++ "}".toList
/-- `repr` of the items of a list -/
def DumpLib.reprs (lib : DumpLib) : List BinValue → List Str
  | [] => []
  | v :: vs => wrapRepr v (lib.text v) :: lib.reprs vs
/-- `BinField.__repr__`: cdtb/binfile.py:303-304 -/
def DumpLib.fieldReprs (lib : DumpLib) : List BinField → List Str
  | [] => []
  | .mk n t v :: fs => ("<".toList ++ (lib.env.mk' .field n).str ++ " ".toList ++ typedText t v (lib.text v) ++ ">".toList) :: lib.fieldReprs fs
/-- The items of a map: cdtb/binfile.py:240 -/
def DumpLib.pairsText (lib : DumpLib) : List BinPair → Str
  | [] => []
  | .mk k v :: ps => "  ".toList ++ keyStr lib k (lib.text k) ++ " => ".toList ++ reprIndent (wrapRepr v (lib.text v)) ++ "\n".toList ++ lib.pairsText ps
end

/-- `BinPatchField.__repr__`: cdtb/binfile.py:317-318 -/
def DumpLib.patchFieldRepr (lib : DumpLib) (f : BinPatchField) : Str :=
  "<".toList ++ f.path ++ " ".toList ++ typedText f.type f.value (lib.text f.value) ++ ">".toList

/-- `BinEntry.__repr__`: cdtb/binfile.py:341-343 -/
def DumpLib.entryRepr (lib : DumpLib) (e : BinEntry) : Str :=
  "<BinEntry ".toList ++ lib.hashRepr (lib.env.mk' .entry e.path) ++ " ".toList ++ (lib.env.mk' .type e.type).str ++ " ".toList ++
    reprIndentList (lib.fieldReprs e.fields) ++ ">".toList

/-- `BinPatchEntry.__repr__`: cdtb/binfile.py:329-331 -/
def DumpLib.patchEntryRepr (lib : DumpLib) (e : BinPatchEntry) : Str :=
  "<BinPatchEntry ".toList ++ lib.hashRepr (lib.env.mk' .entry e.path) ++ " ".toList ++ reprIndentList (e.fields.map lib.patchFieldRepr) ++ ">".toList

/-- The linked files in `BinFile.dump`: cdtb/binfile.py:374-375 -/
def DumpLib.linkedDump (lib : DumpLib) : Option (List Str) → Str
  | none => []
  | some l => "<Linked: ".toList ++ reprIndentList (l.map (pyRepr lib.printable)) ++ ">\n".toList

/-- `BinFile.dump`: cdtb/binfile.py:373-380; what is printed. Failures of the output are not modelled. -/
def DumpLib.dump (lib : DumpLib) (f : BinFile) : Str :=
  lib.linkedDump f.linked ++ (f.entries.flatMap fun e => lib.entryRepr e ++ "\n".toList) ++
    ((f.patches.getD []).flatMap fun e => lib.patchEntryRepr e ++ "\n".toList)

/-- What `command_bin_dump` prints: a text, or an object in JSON -/
inductive BinOutput where
  | text (s : Str)
  | json (s : Ser)

/-- The version given to the reader (cdtb/__main__.py:323); a negative number of version is not modelled. -/
def dumpVersion (arg : Option Str) : Res Nat := do
  let v ← patchVersion (.str (if (arg.getD []).isEmpty then "main".toList else arg.getD []))
  let n ← v.asInt
  .ok n.toNat

/-- `command_bin_dump`: cdtb/__main__.py:319-330. The conversion of the object to JSON is not modelled. -/
def DumpLib.command (lib : DumpLib) (fs : FS) (bin : Str) (version : Option Str) (json : Bool) : Res BinOutput :=
  match fs bin with
  | some (.file data) => do
    let n ← dumpVersion version
    let f ← parseBin (some n) data
    if json then do
      let s ← f.ser lib.env
      .ok (.json s)
    else .ok (.text (lib.dump f))
  | _ => .error .usage

end Cdtb
