import Verif.Model.Hashes
/-!
# Model of cdtb/hashes.py: substitution of words and numbers (lines 278-337)

Regular expressions are modelled by functions on characters, ranges by lists of numbers. Formats are strings, as in the code, and `%` is
modelled by `pyFormat`, so that paths that contain `%` behave as in Python.
-/
namespace Cdtb
set_option autoImplicit false
open Py

/-! ## Python formats -/

/-- An argument of `%` -/
inductive FArg where
  | str (s : Str)
  | int (n : Nat)

/-- `%s` of an argument -/
def FArg.show : FArg → Str
  | .str s => s
  | .int n => showNat 10 n

/-- An ASCII digit -/
def isDig (c : Char) : Bool := '0'.toNat ≤ c.toNat && c.toNat ≤ '9'.toNat

/-- Padding on the left, with zeros for `%d` if the width starts with 0 -/
def fmtPad (zero : Bool) (width : Str) (s : Str) : Str :=
  let w := (digitsGo 10 0 false width).getD 0
  List.replicate (w - s.length) (if zero && width.head? = some '0' then '0' else ' ') ++ s

/-- `fmt % args`. The first argument is what was read after `%` (only a width is modelled: the other flags and conversions are errors). -/
def fmtGo : Option Str → Str → List FArg → Res Str
  | none, [], [] => .ok []
  | none, [], _ :: _ => .error .type
  | some _, [], _ => .error .value
  | none, c :: r, args =>
    if c = '%' then fmtGo (some []) r args
    else match fmtGo none r args with
      | .ok s => .ok (c :: s)
      | .error e => .error e
  | some w, c :: r, args =>
    if isDig c then fmtGo (some (w ++ [c])) r args
    else if c = '%' then match fmtGo none r args with
      | .ok s => .ok ('%' :: s)
      | .error e => .error e
    else if c = 's' then match args with
      | [] => .error .type
      | a :: args => match fmtGo none r args with
        | .ok s => .ok (fmtPad false w a.show ++ s)
        | .error e => .error e
    else if c = 'd' then match args with
      | .int n :: args => match fmtGo none r args with
        | .ok s => .ok (fmtPad true w (showNat 10 n) ++ s)
        | .error e => .error e
      | _ => .error .type
    else .error .value

/-- `fmt % args` -/
def pyFormat (fmt : Str) (args : List FArg) : Res Str := fmtGo none fmt args

/-- `check_iter` on a generator whose elements may raise: cdtb/hashes.py:229-239 -/
def Guesser.checkGen (H : Str → Int) (g : Guesser) : List (Res Str) → Guesser × Res Unit
  | [] => (g, .ok ())
  | .ok p :: ps => (g.check H p).checkGen H ps
  | .error e :: _ => (g, .error e)

/-- The loops `for fmt in sorted(formats): self.check_iter(fmt % a for a in args)`: cdtb/hashes.py:298-299, 313-314, 336-337 -/
def Guesser.checkFormats (H : Str → Int) (args : List (List FArg)) : Guesser → List Str → Guesser × Res Unit
  | g, [] => (g, .ok ())
  | g, fmt :: fmts => match g.checkGen H (args.map (pyFormat fmt)) with
    | (g', .ok ()) => g'.checkFormats H args fmts
    | (g', .error e) => (g', .error e)

/-! ## Regular expressions -/

/-- `re.finditer`: all the non-overlapping matches of `m`, which gives the length of the match at the start of a string (not 0). Each
match is given with what is before and after. The first arguments are what was read and the number of characters to skip. -/
def finditer (m : Str → Option Nat) : Str → Nat → Str → List (Str × Str × Str)
  | _, _, [] => []
  | pre, skip + 1, c :: r => finditer m (pre ++ [c]) skip r
  | pre, 0, c :: r => match m (c :: r) with
    | none => finditer m (pre ++ [c]) 0 r
    | some n => (pre, (c :: r).take n, (c :: r).drop n) :: finditer m (pre ++ [c]) (n - 1) r

/-- `[^/]*\.[^/]+$`: cdtb/hashes.py:287, 305, 324, 327. (`$` before a final newline does not change the result.) -/
def extAhead : Str → Bool
  | [] => false
  | c :: r => if c = '/' then false else (c = '.' && r ≠ [] && '/' ∉ r) || extAhead r

/-- A greedy `X+` or `X{n}` followed by a look-ahead, with backtracking: the largest possible length, not 0 -/
def greedyMatch (x : Char → Bool) (ok : Str → Bool) (s : Str) : Nat → Option Nat
  | 0 => none
  | n + 1 => if (s.take (n + 1)).all x && n + 1 ≤ s.length && ok (s.drop (n + 1)) then some (n + 1) else greedyMatch x ok s n

/-- `([0-9]+)(?=[^/]*\.[^/]+$)`: cdtb/hashes.py:324 -/
def matchNumber (s : Str) : Option Nat := greedyMatch isDig extAhead s s.length

/-- `([0-9]{n})(?=[^/]*\.[^/]+$)`, for `n` not 0: cdtb/hashes.py:327 -/
def matchDigits (n : Nat) (s : Str) : Option Nat :=
  if (s.take n).all isDig && n ≤ s.length && extAhead (s.drop n) then some n else none

/-- `[^/_.-]` -/
def isWordChar (c : Char) : Bool := c ≠ '/' && c ≠ '_' && c ≠ '.' && c ≠ '-'

/-- `((?:[-_][^/_.-]+){n})[^/]*\.[^/]+$` at the start of a string: the length of the group. cdtb/hashes.py:287. Giving characters of
a word back cannot help: the next group needs a separator, and the last part matches anyway. -/
def wordsAhead : Nat → Str → Option Nat
  | 0, s => if extAhead s then some 0 else none
  | n + 1, s => match s with
    | [] => none
    | c :: r =>
      let k := (r.takeWhile isWordChar).length
      if (c = '-' || c = '_') && k ≠ 0 then (wordsAhead n (r.drop k)).map (· + (k + 1)) else none

/-- `([^/_.-]+)(?=((?:[-_][^/_.-]+){nold-1})[^/]*\.[^/]+$)`: cdtb/hashes.py:287 -/
def matchWord (nold : Nat) (s : Str) : Option Nat := greedyMatch isWordChar (fun r => (wordsAhead (nold - 1) r).isSome) s s.length

/-! ## Guessing methods -/

/-- The formats of `_substitute_basename_words`, for a path: cdtb/hashes.py:285-294 -/
def wordFormats (nold nnew : Nat) (path : Str) : List Str :=
  (finditer (matchWord nold) [] 0 path).flatMap fun m =>
    let n := (wordsAhead (nold - 1) m.2.2).getD 0
    let temp := m.1 ++ "%s".toList ++ (List.replicate (nnew - 1) "{sep}%s".toList).flatten ++ m.2.2.drop n
    ['-', '_'].map fun sep => replaceGo "{sep}".toList [sep] 0 temp

/-- `itertools.product(words, repeat=n)` -/
def productRepeat (words : List Str) : Nat → List (List Str)
  | 0 => [[]]
  | n + 1 => words.flatMap fun w => (productRepeat words n).map (w :: ·)

/-- `HashGuesser._substitute_basename_words`: cdtb/hashes.py:278-299 -/
def Guesser.substituteWords (H : Str → Int) (g : Guesser) (paths words : List Str) (nold nnew : Nat) : Guesser × Res Unit :=
  if !(nold ≠ 0 && nnew ≠ 0) then (g, .error .value)
  else g.checkFormats H ((productRepeat words nnew).map (·.map .str)) (sortedSet (paths.flatMap (wordFormats nold nnew)))

/-- The formats of `_add_basename_word`, for a path: cdtb/hashes.py:305-310. The pattern is the one of one word. -/
def addFormats (path : Str) : List Str :=
  (finditer (matchWord 1) [] 0 path).flatMap fun m =>
    (['-', '_'].map fun sep => m.1 ++ "%s".toList ++ [sep] ++ (m.2.1 ++ m.2.2)) ++
    (['-', '_'].map fun sep => m.1 ++ m.2.1 ++ [sep] ++ "%s".toList ++ m.2.2)

/-- `HashGuesser._add_basename_word`: cdtb/hashes.py:301-314 -/
def Guesser.addWord (H : Str → Int) (g : Guesser) (paths words : List Str) : Guesser × Res Unit :=
  g.checkFormats H (words.map fun w => [.str w]) (sortedSet (paths.flatMap addFormats))

/-- `digits` argument of `substitute_numbers`: `None`, `True` or a number (not 0) -/
inductive DigitsArg where
  | none
  | auto
  | fixed (n : Nat)

/-- Number of digits: cdtb/hashes.py:319-321 -/
def DigitsArg.count (nmax : Nat) : DigitsArg → Option Nat
  | .none => Option.none
  | .auto => some (showInt ((nmax : Int) - 1)).length
  | .fixed n => some n

/-- The formats of `_substitute_numbers`, for a path: cdtb/hashes.py:322-332 -/
def numberFormats (digits : Option Nat) (path : Str) : List Str :=
  match digits with
  | none => (finditer matchNumber [] 0 path).map fun m => m.1 ++ "%d".toList ++ m.2.2
  | some n => (finditer (matchDigits n) [] 0 path).map fun m => m.1 ++ ("%0".toList ++ showNat 10 n ++ ['d']) ++ m.2.2

/-- `HashGuesser._substitute_numbers`: cdtb/hashes.py:316-337 -/
def Guesser.substituteNumbers (H : Str → Int) (g : Guesser) (paths : List Str) (nmax : Nat) (digits : DigitsArg) : Guesser × Res Unit :=
  g.checkFormats H ((List.range nmax).map fun n => [.int n]) (sortedSet (paths.flatMap (numberFormats (digits.count nmax))))

end Cdtb
