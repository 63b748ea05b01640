import Verif.Spec.JsonText
/-!
# What a reader that makes dicts keeps from a JSON value

The grammar (`Spec.JsonText`) gives all the members of an object. `json.loads` keeps one value for each name.
-/
namespace Cdtb
set_option autoImplicit false
open Py

/-- A document: a value, with whitespace around it -/
def Spec.JsonDocument (t : Str) (v : Json) : Prop := ∃ w t' w', t = w ++ t' ++ w' ∧ Spec.JsonWs w ∧ Spec.JsonText t' v ∧ Spec.JsonWs w'

/-- Each name once, at its first place -/
def Spec.namesOnce : List Str → List Str
  | [] => []
  | k :: l => k :: (Spec.namesOnce l).filter (· ≠ k)

/-- The last value with a name -/
def Spec.LastNamed (l : List (Str × Json)) (k : Str) (v : Json) : Prop := ∃ before after, l = before ++ (k, v) :: after ∧ k ∉ after.map Prod.fst

/-- What is kept from a value: in objects, at all levels, each name is there once, with its last value. -/
inductive Spec.Kept : Json → Json → Prop
  | null : Spec.Kept .null .null
  | bool (b : Bool) : Spec.Kept (.bool b) (.bool b)
  | num (t : Str) : Spec.Kept (.num t) (.num t)
  | str (s : Str) : Spec.Kept (.str s) (.str s)
  | arr (l l' : List Json) : l.length = l'.length → (∀ (i : Nat) (v v' : Json), l[i]? = some v → l'[i]? = some v' → Spec.Kept v v') → Spec.Kept (.arr l) (.arr l')
  | obj (l l' : List (Str × Json)) : l'.map Prod.fst = Spec.namesOnce (l.map Prod.fst) →
      (∀ k v v', Spec.LastNamed l k v → (k, v') ∈ l' → Spec.Kept v v') → Spec.Kept (.obj l) (.obj l')

end Cdtb
