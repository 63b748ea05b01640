import Verif.Model.GrepLcu
import Verif.Model.JsonText
import Verif.Spec.BinDump
/-!
# What a JSON text means (RFC 8259), and the data of a Python value

Numbers are their text (`JsonWriter` is only used to state what is expected from the libraries). A text is related to the value it denotes by a grammar; nothing here mentions how texts are written.
-/
namespace Cdtb
set_option autoImplicit false
open Py

/-- Whitespace between tokens -/
def Spec.JsonWs (w : Str) : Prop := ∀ c ∈ w, c = ' ' ∨ c = '\n' ∨ c = '\t' ∨ c = '\r'

/-- Decimal digits, at least one -/
def Spec.JsonDigits (t : Str) : Prop := t ≠ [] ∧ ∀ c ∈ t, c ∈ "0123456789".toList

/-- A number: sign, integer part without useless zeros, fraction, exponent -/
def Spec.JsonNumber (t : Str) : Prop := ∃ sign int frac exp, t = sign ++ int ++ frac ++ exp ∧ (sign = [] ∨ sign = ['-']) ∧
  (Spec.JsonDigits int ∧ (int = ['0'] ∨ ∀ ds, int ≠ '0' :: ds)) ∧ (frac = [] ∨ ∃ ds, frac = '.' :: ds ∧ Spec.JsonDigits ds) ∧
  (exp = [] ∨ ∃ e s ds, exp = e :: s ++ ds ∧ (e = 'e' ∨ e = 'E') ∧ (s = [] ∨ s = ['+'] ∨ s = ['-']) ∧ Spec.JsonDigits ds)

/-- Numbers as Python and JavaScript libraries write them: not a number and infinities have names (they are not in RFC 8259). -/
def Spec.JsonNum (t : Str) : Prop := Spec.JsonNumber t ∨ t = "NaN".toList ∨ t = "Infinity".toList ∨ t = "-Infinity".toList

/-- Value of a hexadecimal digit -/
def Spec.HexDigit (c : Char) (n : Nat) : Prop :=
  ("0123456789abcdef".toList[n]? = some c) ∨ ("0123456789ABCDEF".toList[n]? = some c)

/-- Value of four hexadecimal digits -/
def Spec.Hex4 (ds : Str) (n : Nat) : Prop := ∃ a b c d x y z t, ds = [a, b, c, d] ∧ Spec.HexDigit a x ∧ Spec.HexDigit b y ∧ Spec.HexDigit c z ∧
  Spec.HexDigit d t ∧ n = 4096 * x + 256 * y + 16 * z + t

/-- Escapes with one letter -/
def Spec.jsonEscapes : List (Char × Char) :=
  [('"', '"'), ('\\', '\\'), ('/', '/'), ('b', '\x08'), ('f', '\x0c'), ('n', '\n'), ('r', '\r'), ('t', '\t')]

/-- The text between the quotes of a string, and the string -/
inductive Spec.JsonChars : Str → Str → Prop
  | nil : Spec.JsonChars [] []
  | plain (c : Char) (t s : Str) : c ≠ '"' → c ≠ '\\' → 32 ≤ c.toNat → Spec.JsonChars t s → Spec.JsonChars (c :: t) (c :: s)
  | escape (e c : Char) (t s : Str) : (e, c) ∈ Spec.jsonEscapes → Spec.JsonChars t s → Spec.JsonChars ('\\' :: e :: t) (c :: s)
  | unicode (ds : Str) (c : Char) (t s : Str) : Spec.Hex4 ds c.toNat → Spec.JsonChars t s → Spec.JsonChars ('\\' :: 'u' :: ds ++ t) (c :: s)
  /-- a character outside of the basic plane, by a pair of surrogates -/
  | pair (ds ds' : Str) (hi lo : Nat) (c : Char) (t s : Str) : Spec.Hex4 ds hi → Spec.Hex4 ds' lo → 0xD800 ≤ hi → hi < 0xDC00 → 0xDC00 ≤ lo → lo < 0xE000 →
      c.toNat = 0x10000 + (hi - 0xD800) * 0x400 + (lo - 0xDC00) → Spec.JsonChars t s →
      Spec.JsonChars ('\\' :: 'u' :: ds ++ '\\' :: 'u' :: ds' ++ t) (c :: s)

/-- Constants and numbers -/
inductive Spec.JsonWord : Str → Json → Prop
  | null : Spec.JsonWord "null".toList .null
  | true : Spec.JsonWord "true".toList (.bool true)
  | false : Spec.JsonWord "false".toList (.bool false)
  | num (t : Str) : Spec.JsonNum t → Spec.JsonWord t (.num t)

mutual
/-- A text that denotes a value, without whitespace around it -/
inductive Spec.JsonText : Str → Json → Prop
  | word (t : Str) (v : Json) : Spec.JsonWord t v → Spec.JsonText t v
  | str (t s : Str) : Spec.JsonChars t s → Spec.JsonText ('"' :: t ++ ['"']) (.str s)
  | empty (w : Str) : Spec.JsonWs w → Spec.JsonText ('[' :: w ++ [']']) (.arr [])
  | arr (w t : Str) (l : List Json) : Spec.JsonWs w → Spec.JsonItems t l → Spec.JsonText ('[' :: w ++ t ++ [']']) (.arr l)
  | emptyObj (w : Str) : Spec.JsonWs w → Spec.JsonText ('{' :: w ++ ['}']) (.obj [])
  | obj (w t : Str) (l : List (Str × Json)) : Spec.JsonWs w → Spec.JsonMembers t l → Spec.JsonText ('{' :: w ++ t ++ ['}']) (.obj l)
/-- Items separated by commas -/
inductive Spec.JsonItems : Str → List Json → Prop
  | one (t w : Str) (v : Json) : Spec.JsonText t v → Spec.JsonWs w → Spec.JsonItems (t ++ w) [v]
  | more (t w w' t' : Str) (v : Json) (l : List Json) : Spec.JsonText t v → Spec.JsonWs w → Spec.JsonWs w' → Spec.JsonItems t' l →
      Spec.JsonItems (t ++ w ++ ',' :: w' ++ t') (v :: l)
/-- Names and values separated by commas -/
inductive Spec.JsonMembers : Str → List (Str × Json) → Prop
  | one (n k w1 w2 t w : Str) (v : Json) : Spec.JsonChars n k → Spec.JsonWs w1 → Spec.JsonWs w2 → Spec.JsonText t v → Spec.JsonWs w →
      Spec.JsonMembers ('"' :: n ++ '"' :: w1 ++ ':' :: w2 ++ t ++ w) [(k, v)]
  | more (n k w1 w2 t w w' t' : Str) (v : Json) (l : List (Str × Json)) : Spec.JsonChars n k → Spec.JsonWs w1 → Spec.JsonWs w2 → Spec.JsonText t v →
      Spec.JsonWs w → Spec.JsonWs w' → Spec.JsonMembers t' l →
      Spec.JsonMembers ('"' :: n ++ '"' :: w1 ++ ':' :: w2 ++ t ++ w ++ ',' :: w' ++ t') ((k, v) :: l)
end

mutual
/-- The JSON value of Python data: tuples and lists are arrays, dicts are objects in the same order. `num` is the text of a float, `name` the name for a key. -/
def Spec.jsonOf (num : Nat → Str) (name : Ser → Str) : Ser → Json
  | .none => .null
  | .bool b => .bool b
  | .int n => .num (showInt n)
  | .float b => .num (num b)
  | .tuple l => .arr (l.map fun n : Nat => .num (showInt n))
  | .floats l => .arr (l.map fun b => .num (num b))
  | .matrix rows => .arr (rows.map fun l => .arr (l.map fun b => .num (num b)))
  | .str s => .str s
  | .list l => .arr (Spec.jsonList num name l)
  | .obj d => .obj (Spec.jsonObj num name d)
  | .dict d => .obj (Spec.jsonDict num name d)
def Spec.jsonList (num : Nat → Str) (name : Ser → Str) : List Ser → List Json
  | [] => []
  | s :: l => Spec.jsonOf num name s :: Spec.jsonList num name l
def Spec.jsonObj (num : Nat → Str) (name : Ser → Str) : List (Str × Ser) → List (Str × Json)
  | [] => []
  | (k, s) :: l => (k, Spec.jsonOf num name s) :: Spec.jsonObj num name l
def Spec.jsonDict (num : Nat → Str) (name : Ser → Str) : List (Ser × Ser) → List (Str × Json)
  | [] => []
  | (k, s) :: l => (name k, Spec.jsonOf num name s) :: Spec.jsonDict num name l
end

/-- What is expected from a library that writes JSON: floats are numbers, and spaces are spaces -/
structure Spec.GoodWriter (lib : JsonWriter) : Prop where
  floats : ∀ b, Spec.JsonNum (lib.showF b)
  colon : Spec.JsonWs lib.colonWs.1 ∧ Spec.JsonWs lib.colonWs.2
  open_ : ∀ n, Spec.JsonWs (lib.openWs n)
  comma : ∀ n, Spec.JsonWs (lib.commaWs n)
  close : ∀ n, Spec.JsonWs (lib.closeWs n)

/-- Names of the members of an object are distinct, at all levels: a reader that keeps one value for each name loses nothing. -/
inductive Spec.DistinctNames : Json → Prop
  | null : Spec.DistinctNames .null
  | bool (b : Bool) : Spec.DistinctNames (.bool b)
  | num (t : Str) : Spec.DistinctNames (.num t)
  | str (s : Str) : Spec.DistinctNames (.str s)
  | arr (l : List Json) : (∀ v ∈ l, Spec.DistinctNames v) → Spec.DistinctNames (.arr l)
  | obj (l : List (Str × Json)) : (l.map Prod.fst).Nodup → (∀ kv ∈ l, Spec.DistinctNames kv.2) → Spec.DistinctNames (.obj l)

/-- Types of keys of maps in practice: integers, booleans, strings, hashes -/
def Spec.SimpleKeyType (t : BinType) : Prop := Spec.binShape t = .int ∨ Spec.binShape t = .bool ∨ Spec.binShape t = .str ∨ ∃ k, Spec.binShape t = .hashed k

mutual
/-- All the maps in a value have keys of these types. -/
def Spec.SimpleMaps : BinValue → Prop
  | .list _ l => Spec.SimpleMapsList l
  | .struct _ fs => Spec.SimpleMapsFields fs
  | .embedded _ fs => Spec.SimpleMapsFields fs
  | .option _ none => True
  | .option _ (some v) => Spec.SimpleMaps v
  | .map kt _ ps => Spec.SimpleKeyType kt ∧ Spec.SimpleMapsPairs ps
  | .tuple _ => True
  | .bool _ => True
  | .int _ => True
  | .float _ => True
  | .floats _ => True
  | .matrix _ => True
  | .str _ => True
  | .hashed _ _ => True
def Spec.SimpleMapsList : List BinValue → Prop
  | [] => True
  | v :: l => Spec.SimpleMaps v ∧ Spec.SimpleMapsList l
def Spec.SimpleMapsFields : List BinField → Prop
  | [] => True
  | .mk _ _ v :: l => Spec.SimpleMaps v ∧ Spec.SimpleMapsFields l
def Spec.SimpleMapsPairs : List BinPair → Prop
  | [] => True
  | .mk _ v :: l => Spec.SimpleMaps v ∧ Spec.SimpleMapsPairs l
end

/-- A file with simple maps only -/
structure Spec.SimpleFile (f : BinFile) : Prop where
  entries : ∀ e ∈ f.entries, Spec.SimpleMapsFields e.fields
  patches : ∀ e ∈ f.patches.getD [], ∀ x ∈ e.fields, Spec.SimpleMaps x.value

/-- Names of keys of maps: texts are their own name, integers are written in base 10 -/
structure Spec.KeyNames (lib : JsonWriter) (name : Ser → Str) : Prop where
  given : ∀ k n, lib.key k = .ok n → name k = n
  ints : ∀ n, lib.keyText (.int n) = .ok (showInt n)
  bools : ∃ a b, lib.keyText (.bool true) = .ok a ∧ lib.keyText (.bool false) = .ok b ∧ a ≠ b

end Cdtb
