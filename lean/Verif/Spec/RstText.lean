import Verif.Py.Utf8
import Verif.Py.Struct
/-!
# Specification: texts of string tables
-/
namespace Cdtb.Spec
set_option autoImplicit false
open Py

/-! ## UTF-8 with errors -/

/-- Bytes that start the encoding of some character -/
def Starts (m : Bytes) : Prop := ∃ c : Char, m <+: String.utf8EncodeChar c

/-- Bytes and their text: encoded characters, and sequences that are not one, each replaced by U+FFFD. Such a sequence is as long as it may be the start
of a character (at least one byte). -/
inductive Decodes : Bytes → Str → Prop
  | done : Decodes [] []
  | char (c : Char) (r : Bytes) (s : Str) : Decodes r s → Decodes (String.utf8EncodeChar c ++ r) (c :: s)
  | bad (m r : Bytes) (s : Str) : m ≠ [] → (∀ c, ¬ String.utf8EncodeChar c <+: m ++ r) → (m.length = 1 ∨ Starts m) →
      (∀ b r', r = b :: r' → ¬ Starts (m ++ [b])) → Decodes r s → Decodes (m ++ r) (Char.ofNat 0xFFFD :: s)

/-! ## Base 64 -/

/-- Letters of RFC 4648, in the order of their values -/
def letters : Str := "ABCDEFGHIJKLMNOPQRSTUVWXYZabcdefghijklmnopqrstuvwxyz0123456789+/".toList

/-- The letter with a value -/
def Letter (c : Char) (v : Nat) : Prop := letters[v]? = some c

/-- Bytes and their text in base 64: three bytes are the number written by four letters; `=` completes the last group, whose missing bytes are zero -/
inductive Base64 : Bytes → Str → Prop
  | done : Base64 [] []
  | three (a b c : UInt8) (r : Bytes) (w x y z : Char) (s : Str) (i j k l : Nat) : Letter w i → Letter x j → Letter y k → Letter z l →
      a.toNat * 2 ^ 16 + b.toNat * 2 ^ 8 + c.toNat = i * 2 ^ 18 + j * 2 ^ 12 + k * 2 ^ 6 + l → Base64 r s →
      Base64 (a :: b :: c :: r) (w :: x :: y :: z :: s)
  | two (a b : UInt8) (w x y : Char) (i j k : Nat) : Letter w i → Letter x j → Letter y k →
      a.toNat * 2 ^ 16 + b.toNat * 2 ^ 8 = i * 2 ^ 18 + j * 2 ^ 12 + k * 2 ^ 6 → Base64 [a, b] [w, x, y, '=']
  | one (a : UInt8) (w x : Char) (i j : Nat) : Letter w i → Letter x j →
      a.toNat * 2 ^ 16 = i * 2 ^ 18 + j * 2 ^ 12 → Base64 [a] [w, x, '=', '=']

/-! ## Texts of a table -/

/-- The text at an offset of the texts of a table: the bytes up to the next NUL; or, in a table with encrypted texts and after a byte 255, the base 64 of
as many bytes as given by two bytes -/
inductive TableText (encrypted : Bool) (texts : Bytes) (offset : Nat) : Str → Prop
  | plain (raw rest : Bytes) (s : Str) : texts.drop offset = raw ++ 0 :: rest → (0 : UInt8) ∉ raw → (encrypted = true → raw.head? ≠ some 255) →
      Decodes raw s → TableText encrypted texts offset s
  | coded (size payload rest : Bytes) (s : Str) : encrypted = true → texts.drop offset = 255 :: size ++ payload ++ rest →
      size = le 2 payload.length → payload.length < 2 ^ 16 → Base64 payload s → TableText encrypted texts offset s

end Cdtb.Spec
