import Verif.Model.BinDump
/-!
# Specification of the text of BIN files
-/
namespace Cdtb.Spec
set_option autoImplicit false
open Py

/-- Which values a type has -/
inductive BinShape where
  | tuple | bool | int | float | floats | matrix | str | hashed (kind : BinHashKind) | list | struct | embedded | option | map

def binShape : BinType → BinShape
  | .empty => .tuple | .rgba => .tuple | .bool => .bool | .float => .float | .vec2 => .floats | .vec3 => .floats | .vec4 => .floats
  | .matrix => .matrix | .string => .str | .hash => .hashed .hash | .path => .hashed .path | .link => .hashed .entry
  | .list => .list | .list2 => .list | .struct => .struct | .embedded => .embedded | .option => .option | .map => .map
  | .s8 => .int | .u8 => .int | .s16 => .int | .u16 => .int | .s32 => .int | .u32 => .int | .s64 => .int | .u64 => .int | .flag => .int

mutual
/-- Values of a type, at all levels -/
inductive OfType : BinType → BinValue → Prop
  | tuple {t : BinType} {l : List Nat} : binShape t = .tuple → OfType t (.tuple l)
  | bool {t : BinType} {b : Bool} : binShape t = .bool → OfType t (.bool b)
  | int {t : BinType} {n : Int} : binShape t = .int → OfType t (.int n)
  | float {t : BinType} {b : Nat} : binShape t = .float → OfType t (.float b)
  | floats {t : BinType} {l : List Nat} : binShape t = .floats → OfType t (.floats l)
  | matrix {t : BinType} {l : List (List Nat)} : binShape t = .matrix → OfType t (.matrix l)
  | str {t : BinType} {s : Str} : binShape t = .str → OfType t (.str s)
  | hashed {t : BinType} {k : BinHashKind} {h : Nat} : binShape t = .hashed k → OfType t (.hashed k h)
  | list {t vt : BinType} {vs : List BinValue} : binShape t = .list → AllOfType vt vs → OfType t (.list vt vs)
  | null {t : BinType} : binShape t = .struct → OfType t (.struct 0 [])
  | struct {t : BinType} {h : Nat} {fs : List BinField} : binShape t = .struct → h ≠ 0 → FieldsTyped fs → OfType t (.struct h fs)
  | embedded {t : BinType} {h : Nat} {fs : List BinField} : binShape t = .embedded → FieldsTyped fs → OfType t (.embedded h fs)
  | nothing {t vt : BinType} : binShape t = .option → OfType t (.option vt none)
  | something {t vt : BinType} {v : BinValue} : binShape t = .option → OfType vt v → OfType t (.option vt (some v))
  | map {t kt vt : BinType} {ps : List BinPair} : binShape t = .map → PairsTyped kt vt ps → OfType t (.map kt vt ps)
inductive AllOfType : BinType → List BinValue → Prop
  | nil {t : BinType} : AllOfType t []
  | cons {t : BinType} {v : BinValue} {vs : List BinValue} : OfType t v → AllOfType t vs → AllOfType t (v :: vs)
inductive FieldsTyped : List BinField → Prop
  | nil : FieldsTyped []
  | cons {n : Nat} {t : BinType} {v : BinValue} {fs : List BinField} : OfType t v → FieldsTyped fs → FieldsTyped (.mk n t v :: fs)
inductive PairsTyped : BinType → BinType → List BinPair → Prop
  | nil {kt vt : BinType} : PairsTyped kt vt []
  | cons {kt vt : BinType} {k v : BinValue} {ps : List BinPair} : OfType kt k → OfType vt v → PairsTyped kt vt ps → PairsTyped kt vt (.mk k v :: ps)
end

/-- A file whose values have the types of their fields -/
structure FileTyped (f : BinFile) : Prop where
  entries : ∀ e ∈ f.entries, FieldsTyped e.fields
  patches : ∀ e ∈ f.patches.getD [], ∀ x ∈ e.fields, OfType x.type x.value

/-- A text that cannot be confused with what surrounds it -/
def ClearWord (s : Str) : Prop := ' ' ∉ s ∧ '\n' ∉ s ∧ '>' ∉ s ∧ s.head? ≠ some '{'

/-- Known names: different hashes have different names; names of fields and of types are words -/
structure ClearNames (known : BinHashKind → Nat → Option Str) : Prop where
  distinct : ∀ k h h' s, known k h = some s → known k h' = some s → h = h'
  word : ∀ k h s, known k h = some s → k = .field ∨ k = .type → ClearWord s

/-- The 32 bits of a float which is not NaN -/
def IsNumber (b : Nat) : Prop := b < 2 ^ 32 ∧ b % 2 ^ 31 ≤ 0x7f800000

/-- What is assumed about `repr` of floats: digits, signs, letters; different numbers have different texts -/
structure FloatTexts (floatRepr : Nat → Str) : Prop where
  nonempty : ∀ b, floatRepr b ≠ []
  chars : ∀ b, ∀ c ∈ floatRepr b, c ∉ [' ', '\n', '>', ',', '(', ')', 'N']
  distinct : ∀ a b, IsNumber a → IsNumber b → floatRepr a = floatRepr b → a = b

/-- The text of a key of a map: no line break and no `>` (it is not quoted), and a known name does not look like an unknown hash -/
inductive ClearKey (known : BinHashKind → Nat → Option Str) : BinValue → Prop
  | tuple {l : List Nat} : ClearKey known (.tuple l)
  | bool {b : Bool} : ClearKey known (.bool b)
  | int {n : Int} : ClearKey known (.int n)
  | float {b : Nat} : IsNumber b → ClearKey known (.float b)
  | floats {l : List Nat} : (∀ b ∈ l, IsNumber b) → ClearKey known (.floats l)
  | matrix {l : List (List Nat)} : (∀ r ∈ l, ∀ b ∈ r, IsNumber b) → ClearKey known (.matrix l)
  | str {s : Str} : '\n' ∉ s → '>' ∉ s → ClearKey known (.str s)
  | hashed {k : BinHashKind} {h : Nat} : (∀ s, known k h = some s → '\n' ∉ s ∧ '>' ∉ s ∧ s.head? ≠ some '{') → ClearKey known (.hashed k h)

mutual
/-- Values without NaN, whose maps have clear keys, at all levels -/
inductive ClearValue (known : BinHashKind → Nat → Option Str) : BinValue → Prop
  | tuple {l : List Nat} : ClearValue known (.tuple l)
  | bool {b : Bool} : ClearValue known (.bool b)
  | int {n : Int} : ClearValue known (.int n)
  | float {b : Nat} : IsNumber b → ClearValue known (.float b)
  | floats {l : List Nat} : (∀ b ∈ l, IsNumber b) → ClearValue known (.floats l)
  | matrix {l : List (List Nat)} : (∀ r ∈ l, ∀ b ∈ r, IsNumber b) → ClearValue known (.matrix l)
  | str {s : Str} : ClearValue known (.str s)
  | hashed {k : BinHashKind} {h : Nat} : ClearValue known (.hashed k h)
  | list {vt : BinType} {vs : List BinValue} : ClearValues known vs → ClearValue known (.list vt vs)
  | struct {h : Nat} {fs : List BinField} : ClearFields known fs → ClearValue known (.struct h fs)
  | embedded {h : Nat} {fs : List BinField} : ClearFields known fs → ClearValue known (.embedded h fs)
  | nothing {vt : BinType} : ClearValue known (.option vt none)
  | something {vt : BinType} {v : BinValue} : ClearValue known v → ClearValue known (.option vt (some v))
  | map {kt vt : BinType} {ps : List BinPair} : ClearPairs known ps → ClearValue known (.map kt vt ps)
inductive ClearValues (known : BinHashKind → Nat → Option Str) : List BinValue → Prop
  | nil : ClearValues known []
  | cons {v : BinValue} {vs : List BinValue} : ClearValue known v → ClearValues known vs → ClearValues known (v :: vs)
inductive ClearFields (known : BinHashKind → Nat → Option Str) : List BinField → Prop
  | nil : ClearFields known []
  | cons {n : Nat} {t : BinType} {v : BinValue} {fs : List BinField} : ClearValue known v → ClearFields known fs → ClearFields known (.mk n t v :: fs)
inductive ClearPairs (known : BinHashKind → Nat → Option Str) : List BinPair → Prop
  | nil : ClearPairs known []
  | cons {k v : BinValue} {ps : List BinPair} : ClearKey known k → ClearValue known v → ClearPairs known ps → ClearPairs known (.mk k v :: ps)
end

/-- A file which the text shows without ambiguity -/
structure ClearFile (known : BinHashKind → Nat → Option Str) (f : BinFile) : Prop where
  entries : ∀ e ∈ f.entries, ClearFields known e.fields
  patches : ∀ e ∈ f.patches.getD [], ∀ x ∈ e.fields, ClearWord x.path ∧ ClearValue known x.value

/-! ## Layout: each level is indented by two spaces -/

/-- A line break, then the indentation of a level -/
def newline (d : Nat) : Str := '\n' :: List.replicate (2 * d) ' '

/-- Items of a list at level `d`, on their own lines -/
def listAt (d : Nat) (items : List Str) : Str :=
  if items.isEmpty then "[]".toList else "[".toList ++ (items.flatMap fun s => newline (d + 1) ++ s) ++ newline d ++ "]".toList

mutual
/-- Text of a value at a level, after the name of its type -/
def textAt (lib : DumpLib) (d : Nat) : BinValue → Str
  | .list vt vs => "(".toList ++ vt.name ++ ") ".toList ++ listAt d (itemsAt lib (d + 1) vs)
  | .struct h fs => if h = 0 then "None".toList else (lib.env.mk' .type h).str ++ " ".toList ++ listAt d (fieldsAt lib (d + 1) fs)
  | .embedded h fs => (lib.env.mk' .type h).str ++ " ".toList ++ listAt d (fieldsAt lib (d + 1) fs)
  | .option vt (some v) => "(".toList ++ vt.name ++ ") ".toList ++ wrapRepr v (textAt lib d v)
  | .map kt vt ps => "(".toList ++ kt.name ++ ",".toList ++ vt.name ++ ") {".toList ++ pairsAt lib (d + 1) ps ++ newline d ++ "}".toList
  | .option vt none => "(".toList ++ vt.name ++ ") None".toList
  | .tuple l => lib.text (.tuple l)
  | .bool b => lib.text (.bool b)
  | .int n => lib.text (.int n)
  | .float b => lib.text (.float b)
  | .floats l => lib.text (.floats l)
  | .matrix l => lib.text (.matrix l)
  | .str s => lib.text (.str s)
  | .hashed k h => lib.text (.hashed k h)
def itemsAt (lib : DumpLib) (d : Nat) : List BinValue → List Str
  | [] => []
  | v :: vs => wrapRepr v (textAt lib d v) :: itemsAt lib d vs
def fieldsAt (lib : DumpLib) (d : Nat) : List BinField → List Str
  | [] => []
  | .mk n t v :: fs => ("<".toList ++ (lib.env.mk' .field n).str ++ " ".toList ++ typedText t v (textAt lib d v) ++ ">".toList) :: fieldsAt lib d fs
def pairsAt (lib : DumpLib) (d : Nat) : List BinPair → Str
  | [] => []
  | .mk k v :: ps => newline d ++ keyStr lib k (lib.text k) ++ " => ".toList ++ wrapRepr v (textAt lib d v) ++ pairsAt lib d ps
end

/-- The text of the linked files -/
def linkedText (lib : DumpLib) : Option (List Str) → Str
  | none => []
  | some l => "<Linked: ".toList ++ listAt 0 (l.map (pyRepr lib.printable)) ++ ">\n".toList

/-- The text of a file: the linked files, then the entries and the patches, one after the other -/
def fileText (lib : DumpLib) (f : BinFile) : Str :=
  linkedText lib f.linked ++
  (f.entries.flatMap fun e => "<BinEntry ".toList ++ lib.hashRepr (lib.env.mk' .entry e.path) ++ " ".toList ++ (lib.env.mk' .type e.type).str ++ " ".toList ++
    listAt 0 (fieldsAt lib 1 e.fields) ++ ">\n".toList) ++
  ((f.patches.getD []).flatMap fun e => "<BinPatchEntry ".toList ++ lib.hashRepr (lib.env.mk' .entry e.path) ++ " ".toList ++
    listAt 0 (e.fields.map fun x => "<".toList ++ x.path ++ " ".toList ++ typedText x.type x.value (textAt lib 1 x.value) ++ ">".toList) ++ ">\n".toList)

/-- The opening line of a list at the end of a heading -/
def headList {α : Type} (l : List α) : Str := if l.isEmpty then "[]>".toList else "[".toList

def linkedHead : Option (List Str) → List Str
  | none => []
  | some l => ["<Linked: ".toList ++ headList l]

/-- The headings of a file: one line for the linked files, if any, then one line for each entry and for each patch, in order -/
def headings (lib : DumpLib) (f : BinFile) : List Str :=
  linkedHead f.linked ++
  (f.entries.map fun e => "<BinEntry ".toList ++ lib.hashRepr (lib.env.mk' .entry e.path) ++ " ".toList ++ (lib.env.mk' .type e.type).str ++ " ".toList ++ headList e.fields) ++
  ((f.patches.getD []).map fun e => "<BinPatchEntry ".toList ++ lib.hashRepr (lib.env.mk' .entry e.path) ++ " ".toList ++ headList e.fields)

end Cdtb.Spec
