import Verif.Py.Str
/-!
# `os.path` (posixpath)
-/
namespace Cdtb
set_option autoImplicit false
namespace Py

/-- `os.path.splitext(p)` (CPython `genericpath._splitext`): the extension starts at the last dot of
the last component, unless everything before that dot in the component is dots. -/
def splitext (p : Str) : Str × Str :=
  let (dir, base) := match rsplit1 '/' p with
    | some (d, b) => (d ++ ['/'], b)
    | none => ([], p)
  match rsplit1 '.' base with
  | some (stem, ext) =>
    if stem.all (· = '.') then (p, []) else (dir ++ stem, '.' :: ext)
  | none => (p, [])

/-- `os.path.split(p)` (posixpath) -/
def psplit (p : Str) : Str × Str :=
  match rsplit1 '/' p with
  | none => ([], p)
  | some (d, b) =>
    let head := d ++ ['/']
    if head.all (· = '/') then (head, b) else (rstripChar '/' head, b)

/-- `os.path.dirname(p)` -/
def dirname (p : Str) : Str := (psplit p).1
/-- `os.path.basename(p)` -/
def basename (p : Str) : Str := (psplit p).2

/-- `os.path.join(a, b)` (posixpath) -/
def pjoin (a b : Str) : Str :=
  if startsWith b ['/'] then b
  else if a.isEmpty || endsWith a ['/'] then a ++ b
  else a ++ ['/'] ++ b

end Py
end Cdtb
