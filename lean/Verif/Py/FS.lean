import Verif.Py.Path
/-!
# File system

A file system maps paths to files and directories. Two different path strings are different objects
(aliasing through `.`, `..`, `//` or symlinks is not modelled).
-/
namespace Cdtb
set_option autoImplicit false
open Py

inductive Node where
  | file (b : Bytes)
  | dir
deriving DecidableEq, Repr

abbrev FS := Str → Option Node

/-- Replace the object at a path. -/
def FS.set (fs : FS) (p : Str) (n : Option Node) : FS := fun q => if q = p then n else fs q

/-- `os.path.isfile(p)` -/
def FS.isFile (fs : FS) (p : Str) : Bool := match fs p with
  | some (.file _) => true
  | _ => false

/-- The directories `os.makedirs(p)` makes sure to exist, outermost first, `p` last
(the root directory is left out). -/
def dirPrefixes (p : Str) : List Str :=
  let parts := splitChar '/' p
  ((List.range parts.length).map fun i => join ['/'] (parts.take (i + 1))).filter (fun q => !q.isEmpty)

/-- Creation of directories by `os.makedirs(..., exist_ok=True)`. The optional fault `(k, e)` makes
it fail with `e` after `k` directories have been processed. -/
def makedirsGo : FS → Option (Nat × Err) → List Str → FS × Res Unit
  | fs, some (0, e), _ => (fs, .error e)
  | fs, _, [] => (fs, .ok ())
  | fs, f, q :: qs =>
    let f' := f.map fun ke => (ke.1 - 1, ke.2)
    match fs q with
    | none => makedirsGo (fs.set q (some .dir)) f' qs
    | some .dir => makedirsGo fs f' qs
    | some (.file _) => (fs, .error (.os 20))

/-- `os.makedirs(p, exist_ok=True)`; an empty path raises `FileNotFoundError`. -/
def FS.makedirs (fs : FS) (p : Str) (fault : Option (Nat × Err)) : FS × Res Unit :=
  if p.isEmpty then (fs, .error .fileNotFound) else makedirsGo fs fault (dirPrefixes p)

/-- `os.remove(p)`; errors are ignored by the callers, only the effect is modelled. -/
def FS.remove (fs : FS) (p : Str) (fails : Bool) : FS :=
  if fails then fs else match fs p with
    | some (.file _) => fs.set p none
    | _ => fs

end Cdtb
