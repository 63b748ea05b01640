import Verif.Spec.GuessMore
import Verif.Spec.JsonRead
/-!
# Specification of `skins.json`: the skin which a member of the document gives
-/
namespace Cdtb.Spec
set_option autoImplicit false
open Py

/-- A chroma: an object with an identifier -/
def ChromaId (c : Json) (i : Int) : Prop := ∃ o n, c = .obj o ∧ LastNamed o "id".toList (.num n) ∧ int10 n = some i

/-- A member `"id": {"loadScreenPath": …, "chromas": […]}`; without chromas, there may be no list, `null`, or an empty list. -/
def SkinMember (kv : Str × Json) (s : ChromaSkin) : Prop := ∃ m, kv = (s.id, .obj m) ∧ LastNamed m "loadScreenPath".toList (.str s.path) ∧
  ((s.chromas = [] ∧ ("chromas".toList ∉ m.map Prod.fst ∨ LastNamed m "chromas".toList .null)) ∨
    ∃ cs, LastNamed m "chromas".toList (.arr cs) ∧ List.Forall₂ ChromaId cs s.chromas)

end Cdtb.Spec
