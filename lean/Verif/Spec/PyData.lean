import Verif.Model.PyData
import Verif.Props.C23
/-!
# Specification: reading the fields of BIN objects, and string tables by language
-/
namespace Cdtb
set_option autoImplicit false
open Py Spec

/-- The hash of a name in BIN files -/
def Spec.nameHash (name : Str) : Nat := (fnv1a (lowerBytes name)).toNat

/-- The first field with this name has the Python value `p`. -/
def Spec.Gives (fields : List BinField) (name : Str) (p : BinPy) : Prop := ∃ f, FirstField fields (Spec.nameHash name) f ∧ Unwrapped f.value p

/-- There is no field with this name. -/
def Spec.Lacks (fields : List BinField) (name : Str) : Prop := ∀ f ∈ fields, f.name ≠ Spec.nameHash name

/-- The value of the field, or `default` when there is none -/
def Spec.GivesOr (fields : List BinField) (name : Str) (default p : BinPy) : Prop :=
  Spec.Gives fields name p ∨ (Spec.Lacks fields name ∧ p = default)

/-- The value of the first of two fields that exists, or `default` -/
def Spec.GivesEither (fields : List BinField) (name other : Str) (default p : BinPy) : Prop :=
  Spec.Gives fields name p ∨ (Spec.Lacks fields name ∧ Spec.GivesOr fields other default p)

/-- The type of an entry is known as `name`, or it is not known and has the hash of `name`. -/
def Spec.HasType (env : BinEnv) (e : BinEntry) (name : Str) : Prop :=
  (env.known .type).get? e.type = some name ∨ ((env.known .type).get? e.type = none ∧ e.type = Spec.nameHash name)

/-- A structure with these fields -/
inductive Spec.IsObject : BinPy → List BinField → Prop
  | struct (t : Nat) (fields : List BinField) : Spec.IsObject (.value (.struct t fields)) fields
  | embedded (t : Nat) (fields : List BinField) : Spec.IsObject (.value (.embedded t fields)) fields

/-- The name of a language: five characters, `_` in the middle -/
def Spec.LangName (n : Str) : Prop := ∃ a b c d, n = [a, b, '_', c, d]

/-- Ordinary names of files: without slash, backslash and line break -/
def Spec.CleanName (n : Str) : Prop := '/' ∉ n ∧ '\\' ∉ n ∧ '\n' ∉ n

/-- `path` is a string table of language `lang` with the format `k`: `0` is the newest one (for the game), `3` the oldest one.
Names of directories that start with a dot are not used. -/
def Spec.TableFile (fs : FS) (ls : Str → List Str) (base game : Str) (k : Nat) (lang path : Str) : Prop :=
  Spec.LangName lang ∧
  ((k = 0 ∧ lang ∈ ls base ∧ lang.head? ≠ some '.' ∧ fs (base ++ '/' :: lang) = some .dir ∧
      path = base ++ '/' :: lang ++ "/data/menu/en_us/".toList ++ game ++ ".stringtable".toList ∧ fs path ≠ none) ∨
   (k = 1 ∧ lang ∈ ls base ∧ lang.head? ≠ some '.' ∧ fs (base ++ '/' :: lang) = some .dir ∧
      path = base ++ '/' :: lang ++ "/data/menu/en_us/main.stringtable".toList ∧ fs path ≠ none) ∨
   (k = 2 ∧ "main_".toList ++ lang ++ ".stringtable".toList ∈ ls (base ++ "/data/menu".toList) ∧
      path = base ++ "/data/menu/main_".toList ++ lang ++ ".stringtable".toList) ∨
   (k = 3 ∧ "fontconfig_".toList ++ lang ++ ".txt".toList ∈ ls (base ++ "/data/menu".toList) ∧
      path = base ++ "/data/menu/fontconfig_".toList ++ lang ++ ".txt".toList))

end Cdtb
