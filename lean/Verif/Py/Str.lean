import Verif.Py.Basic
/-!
# Python `str` operations and `int()`
-/

namespace Cdtb
set_option autoImplicit false
namespace Py

/-- `str.lower()` restricted to ASCII (other characters are left unchanged). -/
def lowerChar (c : Char) : Char :=
  if 'A'.toNat ≤ c.toNat ∧ c.toNat ≤ 'Z'.toNat then Char.ofNat (c.toNat + 32) else c
def lower (s : Str) : Str := s.map lowerChar

/-- `s.startswith(p)` -/
def startsWith (s p : Str) : Bool := p.isPrefixOf s
/-- `s.endswith(p)` -/
def endsWith (s p : Str) : Bool := p.isSuffixOf s

/-- `s.split(c)` for a one-character separator: always at least one part. -/
def splitChar (c : Char) : Str → List Str
  | [] => [[]]
  | x :: xs =>
    if x = c then [] :: splitChar c xs
    else match splitChar c xs with
      | [] => [[x]]            -- impossible
      | p :: ps => (x :: p) :: ps

/-- First occurrence of `c`: the text before and after it (`s.split(c, 1)` when there is one). -/
def split1 (c : Char) : Str → Option (Str × Str)
  | [] => none
  | x :: xs =>
    if x = c then some ([], xs)
    else match split1 c xs with
      | some (a, b) => some (x :: a, b)
      | none => none

/-- Last occurrence of `c`: the text before and after it (`s.rsplit(c, 1)` when there is one). -/
def rsplit1 (c : Char) : Str → Option (Str × Str)
  | [] => none
  | x :: xs =>
    match rsplit1 c xs with
    | some (a, b) => some (x :: a, b)
    | none => if x = c then some ([], xs) else none

/-- `sep.join(parts)` -/
def join (sep : Str) : List Str → Str
  | [] => []
  | [p] => p
  | p :: q :: ps => p ++ sep ++ join sep (q :: ps)

/-- `s.rstrip(c)` for one character -/
def rstripChar (c : Char) (s : Str) : Str := (s.reverse.dropWhile (· = c)).reverse

/-- `s.replace(a, b)` for one-character strings -/
def replaceChar (a b : Char) (s : Str) : Str := s.map (fun c => if c = a then b else c)

/-- `sub in s` -/
def containsSub : Str → Str → Bool
  | [], sub => sub.isEmpty
  | c :: s, sub => sub.isPrefixOf (c :: s) || containsSub s sub

/-- ASCII whitespace stripped by `str.strip()` and `int()` (non-ASCII whitespace is not modelled). -/
def isSpace (c : Char) : Bool :=
  (9 ≤ c.toNat && c.toNat ≤ 13) || (28 ≤ c.toNat && c.toNat ≤ 32)

/-- `s.strip()` -/
def strip (s : Str) : Str := ((s.dropWhile isSpace).reverse.dropWhile isSpace).reverse

/-! ## Numbers -/

/-- Digit character, lowercase. -/
def digitChar (d : Nat) : Char :=
  if d < 10 then Char.ofNat (48 + d) else Char.ofNat (87 + d)

/-- Digits of `n` in base `b`, least significant first (`fuel` bounds the number of digits). -/
def digitsRev (b : Nat) : Nat → Nat → List Nat
  | 0, _ => []
  | fuel + 1, n => if n < b then [n] else (n % b) :: digitsRev b fuel (n / b)

/-- `format(n, 'd')` / `format(n, 'x')` of a natural number. -/
def showNat (b n : Nat) : Str := ((digitsRev b (n + 1) n).map digitChar).reverse

/-- `str(n)` of an int -/
def showInt (n : Int) : Str :=
  if n < 0 then '-' :: showNat 10 n.natAbs else showNat 10 n.natAbs

/-- Zero padding on the left: `f"{...:0w}"` -/
def zpad (w : Nat) (s : Str) : Str := List.replicate (w - s.length) '0' ++ s

/-- `f"{n:0{w}x}"` for a natural number -/
def hexW (w n : Nat) : Str := zpad w (showNat 16 n)

/-- `str.upper()` on ASCII letters -/
def upperChar (c : Char) : Char :=
  if 'a'.toNat ≤ c.toNat ∧ c.toNat ≤ 'z'.toNat then Char.ofNat (c.toNat - 32) else c

/-- `f"{n:0{w}X}"` -/
def hexWU (w n : Nat) : Str := (hexW w n).map upperChar

/-- Value of a digit in base `b` (ASCII only). -/
def digitVal (b : Nat) (c : Char) : Option Nat :=
  let n := c.toNat
  let v := if 48 ≤ n ∧ n ≤ 57 then some (n - 48)
    else if 97 ≤ n ∧ n ≤ 122 then some (n - 87)
    else if 65 ≤ n ∧ n ≤ 90 then some (n - 55)
    else none
  match v with
  | some d => if d < b then some d else none
  | none => none

/-- Digits, possibly separated by single underscores (PEP 515). -/
def digitsGo (b : Nat) : Nat → Bool → Str → Option Nat
  | acc, prev, [] => if prev then some acc else none
  | acc, prev, c :: cs =>
    if c = '_' then (if prev then digitsGo b acc false cs else none)
    else match digitVal b c with
      | some d => digitsGo b (acc * b + d) true cs
      | none => none

/-- `int(s)`: whitespace, optional sign, decimal digits (non-ASCII digits are not modelled). -/
def int10 (s : Str) : Option Int :=
  match strip s with
  | '-' :: ds => (digitsGo 10 0 false ds).map fun (n : Nat) => -(n : Int)
  | '+' :: ds => (digitsGo 10 0 false ds).map fun (n : Nat) => (n : Int)
  | ds => (digitsGo 10 0 false ds).map fun (n : Nat) => (n : Int)

/-- Optional `0x` prefix accepted by `int(s, 16)`, with an optional underscore after it. -/
def dropHexPrefix : Str → Str
  | '0' :: 'x' :: '_' :: ds => ds
  | '0' :: 'X' :: '_' :: ds => ds
  | '0' :: 'x' :: ds => ds
  | '0' :: 'X' :: ds => ds
  | ds => ds

/-- `int(s, 16)` -/
def int16 (s : Str) : Option Int :=
  match strip s with
  | '-' :: ds => (digitsGo 16 0 false (dropHexPrefix ds)).map fun (n : Nat) => -(n : Int)
  | '+' :: ds => (digitsGo 16 0 false (dropHexPrefix ds)).map fun (n : Nat) => (n : Int)
  | ds => (digitsGo 16 0 false (dropHexPrefix ds)).map fun (n : Nat) => (n : Int)

end Py
end Cdtb
