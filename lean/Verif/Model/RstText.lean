import Verif.Model.Rst
/-!
# Texts of cdtb/rstfile.py: `b.decode('utf-8', 'replace')` and `b64encode(b)` (lines 99-106)

These functions of the standard library are parameters of Model/Rst.lean; they are defined here.
-/
namespace Cdtb
set_option autoImplicit false
open Py

/-! ## Decoding -/

/-- A continuation byte (used at cdtb/rstfile.py:106) -/
def isCont (b : UInt8) : Bool := decide (0x80 ≤ b.toNat) && decide (b.toNat < 0xC0)

/-- The second byte of a sequence of three (used at cdtb/rstfile.py:106): neither an overlong sequence nor a surrogate -/
def second3 (b0 b1 : UInt8) : Bool :=
  isCont b1 && (if b1.toNat < 0xA0 then decide (b0.toNat ≠ 0xE0) else decide (b0.toNat ≠ 0xED))

/-- The second byte of a sequence of four (used at cdtb/rstfile.py:106): neither an overlong sequence nor a code over U+10FFFF -/
def second4 (b0 b1 : UInt8) : Bool :=
  isCont b1 && (if b1.toNat < 0x90 then decide (b0.toNat ≠ 0xF0) else decide (b0.toNat ≠ 0xF4))

/-- The sequence that starts with a byte, as in the decoder of Python (used at cdtb/rstfile.py:106): its character, or `none` when it is invalid, and
the number of the next bytes that are part of it -/
def utf8Head (b0 : UInt8) (rest : Bytes) : Option Char × Nat :=
  if b0.toNat < 0x80 then (some (Char.ofNat b0.toNat), 0)
  else if b0.toNat < 0xC2 then (none, 0)
  else if b0.toNat < 0xE0 then match rest with
    | [] => (none, 0)
    | b1 :: _ => if isCont b1 then (some (Char.ofNat ((b0.toNat - 0xC0) * 64 + (b1.toNat - 0x80))), 1) else (none, 0)
  else if b0.toNat < 0xF0 then match rest with
    | [] => (none, 0)
    | b1 :: rest => if second3 b0 b1 then match rest with
        | [] => (none, 1)
        | b2 :: _ =>
          if isCont b2 then (some (Char.ofNat ((b0.toNat - 0xE0) * 4096 + (b1.toNat - 0x80) * 64 + (b2.toNat - 0x80))), 2) else (none, 1)
      else (none, 0)
  else if b0.toNat < 0xF5 then match rest with
    | [] => (none, 0)
    | b1 :: rest => if second4 b0 b1 then match rest with
        | [] => (none, 1)
        | b2 :: rest => if isCont b2 then match rest with
            | [] => (none, 2)
            | b3 :: _ =>
              if isCont b3 then
                (some (Char.ofNat ((b0.toNat - 0xF0) * 262144 + (b1.toNat - 0x80) * 4096 + (b2.toNat - 0x80) * 64 + (b3.toNat - 0x80))), 3)
              else (none, 2)
          else (none, 1)
      else (none, 0)
  else (none, 0)

/-- Decoding (used at cdtb/rstfile.py:106): the second argument is the number of bytes that are part of the previous sequence -/
def decodeFrom : Bytes → Nat → Str
  | [], _ => []
  | _ :: r, k + 1 => decodeFrom r k
  | b :: r, 0 => (utf8Head b r).1.getD (Char.ofNat 0xFFFD) :: decodeFrom r (utf8Head b r).2

/-- `b.decode('utf-8', 'replace')`: used at cdtb/rstfile.py:102, 106 -/
def decodeReplace (b : Bytes) : Str := decodeFrom b 0

/-! ## Base 64 -/

/-- The 64 characters of `b64encode` (used at cdtb/rstfile.py:101) -/
def b64Char (n : Nat) : Char :=
  if n < 26 then Char.ofNat (65 + n)
  else if n < 52 then Char.ofNat (97 + (n - 26))
  else if n < 62 then Char.ofNat (48 + (n - 52))
  else if n = 62 then '+' else '/'

/-- `b64encode(b).decode()`: used at cdtb/rstfile.py:101-102 -/
def b64encode : Bytes → Str
  | [] => []
  | [a] => [b64Char (a.toNat / 4), b64Char (a.toNat % 4 * 16), '=', '=']
  | [a, b] => [b64Char (a.toNat / 4), b64Char (a.toNat % 4 * 16 + b.toNat / 16), b64Char (b.toNat % 16 * 4), '=']
  | a :: b :: c :: r => b64Char (a.toNat / 4) :: b64Char (a.toNat % 4 * 16 + b.toNat / 16) :: b64Char (b.toNat % 16 * 4 + c.toNat / 64) ::
      b64Char (c.toNat % 64) :: b64encode r

/-- The functions of cdtb/rstfile.py:99-106; hashes and `str.lower` are still parameters -/
def rstEnv (xxh3 xxh64 : Str → Nat) (lower : Str → Str) : RstEnv :=
  { decodeInvalid := decodeReplace, b64 := b64encode, xxh3, xxh64, lower }

end Cdtb
