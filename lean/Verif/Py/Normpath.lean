import Verif.Py.Path
/-!
# `os.path.normpath` (posixpath)
-/
namespace Cdtb
set_option autoImplicit false
namespace Py

/-- The loop of `normpath` on the components, with the components kept so far, last one first -/
def normGo (abs : Bool) : List Str → List Str → List Str
  | acc, [] => acc.reverse
  | acc, c :: cs =>
    if c = [] ∨ c = ['.'] then normGo abs acc cs
    else if c ≠ ['.', '.'] ∨ (abs = false ∧ acc = []) ∨ acc.head? = some ['.', '.'] then normGo abs (c :: acc) cs
    else normGo abs acc.tail cs

/-- Slashes kept at the start: two when there are exactly two -/
def initialSlashes (p : Str) : Str :=
  if startsWith p ['/', '/'] && !startsWith p ['/', '/', '/'] then ['/', '/']
  else if startsWith p ['/'] then ['/'] else []

/-- `os.path.normpath(p)` -/
def normpath (p : Str) : Str :=
  let s := initialSlashes p ++ join ['/'] (normGo (startsWith p ['/']) [] (splitChar '/' p))
  if s = [] then ['.'] else s

example : normpath "a//b/./c/../d/".toList = "a/b/d".toList := by decide +kernel
example : normpath "../../a/..".toList = "../..".toList := by decide +kernel
example : normpath "/../a".toList = "/a".toList := by decide +kernel
example : normpath "".toList = ".".toList ∧ normpath "//a".toList = "//a".toList ∧ normpath "///a".toList = "/a".toList := by decide +kernel

end Py
end Cdtb
