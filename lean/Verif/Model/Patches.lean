import Verif.Model.Version
/-!
# Model of cdtb/storage.py: patch enumeration and lookups (lines 281-320, 374-425) and
`parse_storage_component` (lines 457-480)

`Storage.patch_elements()` is abstract: the list of the elements it generates.
-/
namespace Cdtb
set_option autoImplicit false
open Py

/-- A `PatchElement`: name, version and identity (cdtb/storage.py:341-344). -/
structure Elem where
  name : Str
  version : Version
  ident : Nat
deriving DecidableEq, Repr

/-- `itertools.groupby(l, key)`: runs of consecutive elements with equal keys. -/
def groupBy {α : Type} (same : α → α → Bool) : List α → List (List α)
  | [] => []
  | x :: xs => match groupBy same xs with
    | [] => [[x]]
    | [] :: gs => [x] :: gs            -- impossible
    | (y :: g) :: gs => if same x y then (x :: y :: g) :: gs else [x] :: (y :: g) :: gs

/-- Equality of two versions used as `groupby` keys. -/
def sameVersion (a b : Elem) : Bool := a.version.eq (.ver b.version)

/-- A `Patch` (cdtb/storage.py:386-395) -/
structure Patch where
  version : Version
  elements : List Elem
deriving DecidableEq, Repr

/-- `Patch._create`: cdtb/storage.py:386-395. The set of versions is compared by `==`/`hash` (the
text); `pop()` on a one-element set gives the version first inserted. -/
def Patch.create (elements : List Elem) : Res Patch :=
  match elements with
  | [] => .error .value
  | e :: es => if es.all (fun e' => e'.version.eq (.ver e.version)) then .ok ⟨e.version, e :: es⟩ else .error .value

/-- The dict of the first element of each name: cdtb/storage.py:302-305 -/
def firstByName : Dict Str Elem → List Elem → Dict Str Elem
  | d, [] => d
  | d, e :: es => if d.contains e.name then firstByName d es else firstByName (d.set e.name e) es

/-- `Storage.patches`: cdtb/storage.py:294-306 -/
def patches (elems : List Elem) : Res (List Patch) :=
  (groupBy sameVersion elems).mapM fun g => Patch.create (firstByName [] g).values

/-- `Storage.patch`: cdtb/storage.py:308-320 (`None` is `none`; `next()` on an exhausted generator
raises `StopIteration`). -/
def storagePatch (elems : List Elem) (version : Option VOther) : Res (Option Patch) := do
  let ps ← patches elems
  match version with
  | none => match ps with
    | [] => .error .stopIteration
    | p :: _ => .ok (some p)
  | some v => .ok (ps.find? fun p => p.version.eq v)

/-- `Storage.patch_element`: cdtb/storage.py:281-292 -/
def storageElement : List Elem → Str → Option VOther → Option Elem
  | [], _, _ => none
  | e :: es, name, version =>
    if e.name ≠ name then storageElement es name version
    else match version with
      | none => some e
      | some v => if e.version.eq v then some e else storageElement es name version

/-- `max(group, key=lambda e: e.version)`: keeps the first maximum. -/
def maxByVersion : Elem → List Elem → Res Elem
  | m, [] => .ok m
  | m, e :: es => do
    let gt ← e.version.cmp .gt m.version
    if gt then maxByVersion e es else maxByVersion m es

/-- `Patch.latest`: cdtb/storage.py:416-421 -/
def Patch.latest (p : Patch) : Res Patch := do
  let es ← (groupBy (fun a b => decide (a.name = b.name)) p.elements).mapM fun g =>
    match g with
    | [] => .error .value   -- groups are never empty
    | e :: es => maxByVersion e es
  Patch.create es

/-! ## Component strings -/

/-- States of the automaton of `[0-9]+(?:\.[0-9]+\.?)*`. -/
inductive VerSt where
  /-- expecting the first digit -/
  | begin
  /-- in the first digits -/
  | first
  /-- after the dot of a group: a digit is needed -/
  | dot
  /-- in the digits of a group -/
  | group
  /-- after a dot that follows a group: optional final dot, or first dot of the next group -/
  | maybe
deriving DecidableEq, Repr

def isDigit (c : Char) : Bool := '0'.toNat ≤ c.toNat && c.toNat ≤ '9'.toNat

/-- Matcher for `[0-9]+(?:\.[0-9]+\.?)*` on a whole string: cdtb/storage.py:460 -/
def verMatch : VerSt → Str → Bool
  | s, [] => s = .first || s = .group || s = .maybe
  | .begin, c :: cs => isDigit c && verMatch .first cs
  | .first, c :: cs => if isDigit c then verMatch .first cs else c = '.' && verMatch .dot cs
  | .dot, c :: cs => isDigit c && verMatch .group cs
  | .group, c :: cs => if isDigit c then verMatch .group cs else c = '.' && verMatch .maybe cs
  | .maybe, c :: cs => if isDigit c then verMatch .group cs else c = '.' && verMatch .dot cs

/-- The second group of the regular expression: `|[0-9]+(?:\.[0-9]+\.?)*|main` -/
def versionMatch (v : Str) : Bool := v = [] || verMatch .begin v || v = "main".toList

/-- `$` matches at the end, or before a newline that ends the string. -/
def dropFinalNewline (s : Str) : Str := if s.getLast? = some '\n' then s.dropLast else s

/-- `re.match(...)` and `m.group(1, 2)`: cdtb/storage.py:460-463. The version never contains a
newline, so it is what follows `=` up to the end (or up to a final newline). -/
def matchComponent (c : Str) : Option (Str × Str) :=
  match split1 '=' c with
  | none => none
  | some (name, rest) =>
    let v := dropFinalNewline rest
    if (name = "patch".toList ∨ name = "game".toList ∨ name = "client".toList) ∧ versionMatch v = true
    then some (name, v) else none

/-- Result of parsing a component. -/
inductive Component where
  | none
  | patch (p : Patch)
  | element (e : Elem)
deriving DecidableEq, Repr

/-- `parse_storage_component`: cdtb/storage.py:457-480, for a storage given by its `patch` and
`patch_element` methods (the latter with the `stored` argument). -/
def parseStorageComponent (patch : Option VOther → Res (Option Patch))
    (element : Str → Option VOther → Bool → Res (Option Elem)) (component : Str) : Res Component :=
  match matchComponent component with
  | none => .error .value
  | some (name, v) =>
    let (version, latest) : Option Str × Bool :=
      if v = [] then (Option.none, true)
      else if endsWith v ['.'] then (some (rstripChar '.' v), true)
      else (some v, false)
    if name = "patch".toList then do
      match ← patch (version.map .str) with
      | Option.none => .ok .none
      | some p => if latest then do .ok (.patch (← p.latest)) else .ok (.patch p)
    else do
      match ← element name (version.map .str) version.isSome with
      | Option.none => .ok .none
      | some e => .ok (.element e)

end Cdtb
