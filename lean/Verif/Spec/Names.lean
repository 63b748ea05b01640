import Verif.Py.Basic
/-!
# Specification: hexadecimal names
-/
namespace Cdtb.Spec
set_option autoImplicit false

/-- Hexadecimal digits, in order of value -/
def hexDigits : Str := "0123456789abcdef".toList

/-- Value of a hexadecimal text -/
def hexValue (s : Str) : Nat := s.foldl (fun a c => 16 * a + hexDigits.idxOf c) 0

/-- `s` is the representation of `n` on exactly 16 lowercase hexadecimal digits. -/
structure Hex16 (s : Str) (n : Nat) : Prop where
  length : s.length = 16
  digits : ∀ c ∈ s, c ∈ hexDigits
  value : hexValue s = n

end Cdtb.Spec
