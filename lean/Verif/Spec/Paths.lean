import Verif.Py.Basic
/-! # Specification: paths below a directory -/
namespace Cdtb.Spec
set_option autoImplicit false

/-- `p` is `r`, or is somewhere below the directory `r`. -/
def Under (r p : Str) : Prop := p = r ∨ ∃ t, p = r ++ '/' :: t

/-- No path is both a file and a directory. -/
def NoConflict (l : List Str) : Prop := ∀ a ∈ l, ∀ b ∈ l, Under a b → a = b

end Cdtb.Spec
