import Verif.Spec.Names
/-! # Python literals of texts, as `repr` writes them -/
namespace Cdtb
set_option autoImplicit false
namespace Spec

/-- Characters which are shown as they are: those of ASCII from space to `~`, and others that are printable -/
def ShownAsIs (printable : Char → Bool) (c : Char) : Prop := (32 ≤ c.toNat ∧ c.toNat ≤ 126) ∨ (128 ≤ c.toNat ∧ printable c = true)

/-- `s` is the number `n` with `w` hexadecimal digits -/
structure HexN (w : Nat) (s : Str) (n : Nat) : Prop where
  length : s.length = w
  digits : ∀ c ∈ s, c ∈ hexDigits
  value : hexValue s = n

/-- How a character is written between quotes `q` -/
inductive LiteralChar (printable : Char → Bool) (q : Char) : Char → Str → Prop
  | plain (c : Char) : ShownAsIs printable c → c ≠ q → c ≠ '\\' → LiteralChar printable q c [c]
  | quote : LiteralChar printable q q ['\\', q]
  | backslash : LiteralChar printable q '\\' ['\\', '\\']
  | tab : LiteralChar printable q '\t' ['\\', 't']
  | newline : LiteralChar printable q '\n' ['\\', 'n']
  | return : LiteralChar printable q '\r' ['\\', 'r']
  | hex2 (c : Char) (x : Str) : ¬ ShownAsIs printable c → c ∉ ['\t', '\n', '\r'] → c.toNat ≤ 0xff → HexN 2 x c.toNat → LiteralChar printable q c ('\\' :: 'x' :: x)
  | hex4 (c : Char) (x : Str) : ¬ ShownAsIs printable c → 0xff < c.toNat → c.toNat ≤ 0xffff → HexN 4 x c.toNat → LiteralChar printable q c ('\\' :: 'u' :: x)
  | hex8 (c : Char) (x : Str) : ¬ ShownAsIs printable c → 0xffff < c.toNat → HexN 8 x c.toNat → LiteralChar printable q c ('\\' :: 'U' :: x)

/-- The characters of a text, in order -/
inductive LiteralBody (printable : Char → Bool) (q : Char) : Str → Str → Prop
  | nil : LiteralBody printable q [] []
  | cons {c : Char} {t s r : Str} : LiteralChar printable q c t → LiteralBody printable q s r → LiteralBody printable q (c :: s) (t ++ r)

/-- The literal of a text: double quotes are used only when the text has a single quote and no double quote. -/
inductive Literal (printable : Char → Bool) (s : Str) : Str → Prop
  | single (t : Str) : ('\'' ∉ s ∨ '"' ∈ s) → LiteralBody printable '\'' s t → Literal printable s ('\'' :: t ++ ['\''])
  | double (t : Str) : '\'' ∈ s → '"' ∉ s → LiteralBody printable '"' s t → Literal printable s ('"' :: t ++ ['"'])

end Spec
end Cdtb
