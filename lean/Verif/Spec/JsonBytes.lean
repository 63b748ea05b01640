import Verif.Py.Utf8
/-!
# Encodings of texts (Unicode): UTF-8, UTF-16, UTF-32
-/
namespace Cdtb
set_option autoImplicit false
open Py

/-- An encoding, with the order of bytes -/
inductive Spec.Utf where
  | utf8
  | utf16 (big : Bool)
  | utf32 (big : Bool)

/-- Bytes of a number, the largest first or last -/
def Spec.ordered (big : Bool) (bytes : List Nat) : Bytes := (if big then bytes else bytes.reverse).map UInt8.ofNat

/-- Code units of a character in UTF-16 -/
def Spec.codeUnits (c : Char) : List Nat :=
  if c.toNat < 0x10000 then [c.toNat] else [0xD800 + (c.toNat - 0x10000) / 0x400, 0xDC00 + (c.toNat - 0x10000) % 0x400]

/-- Bytes of a character -/
def Spec.Utf.char : Spec.Utf → Char → Bytes
  | .utf8, c => String.utf8EncodeChar c
  | .utf16 big, c => (Spec.codeUnits c).flatMap fun u => Spec.ordered big [u / 256, u % 256]
  | .utf32 big, c => Spec.ordered big [0, c.toNat / 65536, c.toNat / 256 % 256, c.toNat % 256]

/-- Bytes of a text -/
def Spec.Utf.encode (u : Spec.Utf) (s : Str) : Bytes := s.flatMap u.char

/-- The byte order mark -/
def Spec.bom : Char := Char.ofNat 0xFEFF

end Cdtb
