import Verif.Py.Str
/-!
# Model of the patterns of `wad-extract` (cdtb/__main__.py:137-138)

`fnmatch.fnmatchcase` is a function of the standard library; it is modelled as in Python 3.11 and 3.12 (Lib/fnmatch.py): the pattern is translated to
pieces of a regular expression, which are then matched in order. What `re` does with these pieces is written here directly.
-/
namespace Cdtb
set_option autoImplicit false
open Py

/-- What is between the brackets of a class of the regular expression: a character (escaped when needed), or a hyphen which is not escaped. Used for
cdtb/__main__.py:138 -/
inductive SetTok where
  | chr (c : Char)
  | dash
deriving DecidableEq, Repr

/-- The character itself (cdtb/__main__.py:138) -/
def SetTok.char : SetTok → Char
  | .chr c => c
  | .dash => '-'

/-- A piece of the regular expression for cdtb/__main__.py:138: `STAR`, `.`, `(?!)`, an escaped character, a class -/
inductive GlobItem where
  | star
  | any
  | never
  | lit (c : Char)
  | set (neg : Bool) (toks : List SetTok)
deriving DecidableEq, Repr

/-- The end of a class (cdtb/__main__.py:138): text between brackets, and text after them. A `]` just after `[` or `[!` does not close. -/
def classEnd (p : Str) : Option (Str × Str) :=
  let n := if p.head? = some '!' then 1 else 0
  let n := if (p.drop n).head? = some ']' then n + 1 else n
  match split1 ']' (p.drop n) with
  | none => none
  | some (a, r) => some (p.take n ++ a, r)

/-- `pat.find('-', k, j)` (cdtb/__main__.py:138): texts before and after the hyphen, searched after `skip` characters -/
def cutDash (skip : Nat) (s : Str) : Option (Str × Str) :=
  match split1 '-' (s.drop skip) with
  | none => none
  | some (a, r) => some (s.take skip ++ a, r)

/-- `chunks` (cdtb/__main__.py:138), with fuel: the text cut at hyphens of ranges. A final hyphen is put back. -/
def chunkLoop : Nat → Nat → Str → List Str
  | 0, _, s => [s]
  | fuel + 1, skip, s => match cutDash skip s with
    | none => [s]
    | some (a, r) => if r.isEmpty then [a ++ ['-']] else a :: chunkLoop fuel 2 r

/-- Removal of empty ranges (cdtb/__main__.py:138), from the last chunk to the first -/
def mergeChunks : List Str → List Str
  | [] => []
  | c :: cs => match mergeChunks cs with
    | [] => [c]
    | d :: ds => match c.getLast?, d.head? with
      | some x, some y => if y < x then (c.dropLast ++ d.tail) :: ds else c :: d :: ds
      | _, _ => c :: d :: ds

/-- `'-'.join` on escaped chunks (cdtb/__main__.py:138) -/
def joinChunks : List Str → List SetTok
  | [] => []
  | [c] => c.map .chr
  | c :: cs => c.map .chr ++ .dash :: joinChunks cs

/-- The class for a text between brackets (cdtb/__main__.py:138) -/
def classItem (stuff : Str) : GlobItem :=
  let chunks := if '-' ∈ stuff then mergeChunks (chunkLoop stuff.length (if stuff.head? = some '!' then 2 else 1) stuff) else [stuff]
  match joinChunks chunks with
  | [] => .never
  | .chr '!' :: ts => if ts.isEmpty then .any else .set true ts
  | ts => .set false ts

/-- A `STAR` is added (cdtb/__main__.py:138): several `*` in a row are a single one -/
def addStar : List GlobItem → List GlobItem
  | .star :: r => .star :: r
  | r => .star :: r

/-- The loop of `translate` (cdtb/__main__.py:138), with fuel: pieces of the pattern -/
def globItems : Nat → Str → List GlobItem
  | 0, _ => []
  | _ + 1, [] => []
  | fuel + 1, c :: p =>
    if c = '*' then addStar (globItems fuel p)
    else if c = '?' then .any :: globItems fuel p
    else if c = '[' then match classEnd p with
      | none => .lit '[' :: globItems fuel p
      | some (stuff, r) => classItem stuff :: globItems fuel r
    else .lit c :: globItems fuel p

/-- Characters and ranges of a class, as `re` reads it (cdtb/__main__.py:138) -/
def setItems : List SetTok → List (Char × Char)
  | [] => []
  | [t] => [(t.char, t.char)]
  | t :: .dash :: t' :: r => (t.char, t'.char) :: setItems r
  | t :: r => (t.char, t.char) :: setItems r

/-- Whether a piece matches a character (cdtb/__main__.py:138). A piece that never matches is one that matches no character. -/
def GlobItem.accepts : GlobItem → Char → Bool
  | .star, _ => false
  | .any, _ => true
  | .never, _ => false
  | .lit a, c => a == c
  | .set neg ts, c => ((setItems ts).any fun x => decide (x.1 ≤ c) && decide (c ≤ x.2)) != neg

/-- Fixed pieces at the start of a text (cdtb/__main__.py:138): what remains after them -/
def matchFixed : List GlobItem → Str → Option Str
  | [], s => some s
  | _ :: _, [] => none
  | i :: is, c :: s => if i.accepts c then matchFixed is s else none

/-- `(?>.*?fixed)` (cdtb/__main__.py:138): what remains after the first place where the pieces match -/
def findFixed (fixed : List GlobItem) : Str → Option Str
  | [] => matchFixed fixed []
  | c :: s => match matchFixed fixed (c :: s) with
    | some t => some t
    | none => findFixed fixed s

/-- `.*fixed\Z` (cdtb/__main__.py:138): the pieces match the end of the text -/
def endsFixed (fixed : List GlobItem) : Str → Bool
  | [] => matchFixed fixed [] == some []
  | c :: s => matchFixed fixed (c :: s) == some [] || endsFixed fixed s

/-- Pieces after the first `STAR` (cdtb/__main__.py:138), with fuel -/
def matchStars : Nat → List GlobItem → Str → Bool
  | 0, _, _ => false
  | _ + 1, [], s => s.isEmpty
  | fuel + 1, _ :: rest, s =>
    let fixed := rest.takeWhile (· != .star)
    let more := rest.dropWhile (· != .star)
    if more.isEmpty then endsFixed fixed s
    else match findFixed fixed s with
      | none => false
      | some t => matchStars fuel more t

/-- `fnmatch.fnmatchcase(name, pat)`: used at cdtb/__main__.py:138 -/
def fnmatchcase (name pat : Str) : Bool :=
  let items := globItems pat.length pat
  match matchFixed (items.takeWhile (· != .star)) name with
  | none => false
  | some t => matchStars (items.length + 1) (items.dropWhile (· != .star)) t

end Cdtb
