import Verif.Model.RadsComponent
import Verif.Spec.Patches
import Verif.Spec.RadsStorage
/-!
# Specification of RADS component strings and of the order of RADS components
-/
namespace Cdtb.Spec
set_option autoImplicit false
open Py

/-- Versions in component strings: numbers separated by dots, `main`, or nothing (the latest version) -/
def RadsVersionText (v : Str) : Prop :=
  v = [] ∨ v = "main".toList ∨ ∃ ds : List Str, ds ≠ [] ∧ (∀ d ∈ ds, Digits d) ∧ v = join ['.'] ds

/-- The type of a component, as given by a prefix -/
inductive RadsPrefix : Option Char → Str → Prop
  | none : RadsPrefix none []
  | solution : RadsPrefix (some 's') ['s', ':']
  | project : RadsPrefix (some 'p') ['p', ':']

/-- How a version is written after a name -/
def versionSuffix : Option Str → Str
  | none => []
  | some v => '=' :: v

/-- A component string: an optional prefix, a name made of the characters `isWord`, an optional version after an equal sign; it may be followed by a newline. -/
structure RadsText (isWord : Char → Bool) (c : Str) (typ : Option Char) (name : Str) (version : Option Str) : Prop where
  text : ∃ pre nl, RadsPrefix typ pre ∧ (nl = [] ∨ nl = ['\n']) ∧ c = pre ++ name ++ versionSuffix version ++ nl
  name_ne : name ≠ []
  name_word : ∀ x ∈ name, isWord x = true
  version_ok : ∀ v, version = some v → RadsVersionText v

/-- What a component string is about -/
inductive RadsKind where | solution | project | patch
deriving DecidableEq, Repr

/-- The kind is told by the prefix, or else by the name: `patch`, names that end with `_sln` for solutions, others for projects. -/
inductive IsKind : Option Char → Str → RadsKind → Prop
  | s (name : Str) : IsKind (some 's') name .solution
  | p (name : Str) : IsKind (some 'p') name .project
  | patch : IsKind none "patch".toList .patch
  | sln (name : Str) : IsKind none (name ++ "_sln".toList) .solution
  | other (name : Str) : name ≠ "patch".toList → (∀ n, name ≠ n ++ "_sln".toList) → IsKind none name .project

/-- Value of decimal digits -/
def digitsNumber (ds : Str) : Nat := ds.foldl (fun n c => 10 * n + (c.toNat - '0'.toNat)) 0

/-- Four numbers separated by dots, and the version they stand for -/
def FourNumbers (v : Str) (x : Version) : Prop :=
  ∃ a b c d, Digits a ∧ Digits b ∧ Digits c ∧ Digits d ∧ v = join ['.'] [a, b, c, d] ∧
    x = ⟨v, .nums [(digitsNumber a : Int), digitsNumber b, digitsNumber c, digitsNumber d]⟩

/-- `a` is older than `b`: its numbers come first, in the lexicographic order. -/
def OlderThan (a b : Version) : Prop := ∃ t u : List Int, a.t = .nums t ∧ b.t = .nums u ∧ t < u

/-- What a component string with a kind, a name and a version stands for. The latest version of a project is the first one which is listed; the latest version
of a solution is the newest one which is listed. -/
inductive Denotes (st : RadsLookup) (name : Str) : RadsKind → Option Str → RadsComponent → Prop
  | project : Denotes st name .project none (.obj (.project name))
  | solution : Denotes st name .solution none (.obj (.solution name))
  | projectVersion {v : Str} {x : Version} : FourNumbers v x → Denotes st name .project (some v) (.obj (.projectVersion name x))
  | solutionVersion {v : Str} {x : Version} : FourNumbers v x → Denotes st name .solution (some v) (.obj (.solutionVersion name x))
  | patch {v : Str} {p : Option Patch} : v ≠ [] → st.patch (some (.str v)) = .ok p → Denotes st name .patch (some v) (.patch p)
  | latestPatch {p : Option Patch} : st.patch none = .ok p → Denotes st name .patch (some []) (.patch p)
  | latestProject {text : Str} {x : Version} {xs : List Version} : st.project name = .ok text →
      List.Forall₂ (fun l y => radsVersion (.str l) = .ok y) (splitlines text) (x :: xs) →
      Denotes st name .project (some []) (.obj (.projectVersion name x))
  | latestSolution {text : Str} {x : Version} {xs ys : List Version} : st.solution name = .ok text →
      List.Forall₂ (fun l y => radsVersion (.str l) = .ok y) (splitlines text) (xs ++ x :: ys) →
      (∀ y ∈ xs, OlderThan y x) → (∀ y ∈ ys, ¬ OlderThan x y) →
      Denotes st name .solution (some []) (.obj (.solutionVersion name x))

/-- Characters of names: not those with a meaning in component strings -/
def WordChars (isWord : Char → Bool) : Prop := isWord ':' = false ∧ isWord '=' = false ∧ isWord '\n' = false

/-! ## Identity and order -/

/-- The class of an object -/
def radsClass : RadsObj → Nat
  | .solution _ => 0
  | .project _ => 1
  | .solutionVersion _ _ => 2
  | .projectVersion _ _ => 3

/-- Its name -/
def radsName : RadsObj → Str
  | .solution n => n
  | .project n => n
  | .solutionVersion n _ => n
  | .projectVersion n _ => n

/-- Its version -/
def radsVersionOf : RadsObj → Option Version
  | .solution _ => none
  | .project _ => none
  | .solutionVersion _ v => some v
  | .projectVersion _ v => some v

/-- Objects are the same when their class, name and text of their version are. -/
def SameRads (a b : RadsObj) : Prop :=
  radsClass a = radsClass b ∧ radsName a = radsName b ∧ (radsVersionOf a).map (·.s) = (radsVersionOf b).map (·.s)

/-- Order of objects of the same class: by name, then from the newest version -/
def Before (a b : RadsObj) : Prop :=
  radsName a < radsName b ∨ radsName a = radsName b ∧ ∃ v w, radsVersionOf a = some v ∧ radsVersionOf b = some w ∧ OlderThan w v

/-- The version is made of numbers. -/
def RadsNumbers (a : RadsObj) : Prop := ∀ v, radsVersionOf a = some v → ∃ t, v.t = .nums t

/-- The text of the version is the usual one: no leading zeros, spaces or signs -/
def RadsCanonical (a : RadsObj) : Prop := ∀ v, radsVersionOf a = some v → ∃ t, t ≠ [] ∧ v.t = .nums t ∧ v.s = join ['.'] (t.map showInt)

/-- The component string of an object -/
def radsText (a : RadsObj) : Str :=
  (if radsClass a % 2 = 0 then ['s', ':'] else ['p', ':']) ++ radsName a ++ versionSuffix ((radsVersionOf a).map (·.s))

/-- Objects which have a component string -/
structure RadsNamed (isWord : Char → Bool) (a : RadsObj) : Prop where
  name_ne : radsName a ≠ []
  name_word : ∀ x ∈ radsName a, isWord x = true
  version : ∀ v, radsVersionOf a = some v → FourNumbers v.s v

end Cdtb.Spec
