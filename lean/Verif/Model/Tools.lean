import Verif.Py.FS
/-!
# Model of cdtb/tools.py: `write_file_or_remove` (lines 22-38), `convert_cdragon_path` (110-114)
-/
namespace Cdtb
set_option autoImplicit false
open Py

/-- What the body of the `with` statement does: writes to the file, or raises. -/
inductive BodyStep where
  | write (b : Bytes)
  | raise (e : Err)
deriving DecidableEq, Repr

/-- Where the operating system makes things fail.
* `makedirs = some (k, e)`: `os.makedirs` fails after `k` directories;
* `open_ = some e`: `open()` fails;
* `write i = some (k, e)`: the `i`-th step of the body, if a write, fails after `k` bytes reached the file;
* `close = some (k, e)`: closing (flushing) fails, leaving only the first `k` bytes;
* `remove`: removing the file fails. -/
structure WriteFaults where
  makedirs : Option (Nat × Err) := none
  open_ : Option Err := none
  write : Nat → Option (Nat × Err) := fun _ => none
  close : Option (Nat × Err) := none
  remove : Bool := false

/-- The body of the `with` statement: content of the file and outcome. -/
def writeBody (f : WriteFaults) : Nat → Bytes → List BodyStep → Bytes × Res Unit
  | _, acc, [] => (acc, .ok ())
  | _, acc, .raise e :: _ => (acc, .error e)
  | i, acc, .write b :: rest =>
    match f.write i with
    | some (k, e) => (acc ++ b.take k, .error e)
    | none => writeBody f (i + 1) (acc ++ b) rest

/-- Closing the file at the end of `with open(...)`: an error when closing replaces the outcome. -/
def closeFile (f : WriteFaults) : Bytes × Res Unit → Bytes × Res Unit
  | (c, r) => match f.close with
    | some (k, e) => (c.take k, .error e)
    | none => (c, r)

/-- The `try` part of `write_file_or_remove`: cdtb/tools.py:28-31 -/
def writeTry (fs : FS) (path : Str) (body : List BodyStep) (f : WriteFaults) : FS × Res Unit :=
  match fs.makedirs (dirname path) f.makedirs with
  | (fs1, .error e) => (fs1, .error e)
  | (fs1, .ok ()) =>
    match f.open_ with
    | some e => (fs1, .error e)
    | none =>
      if fs1 path = some .dir then (fs1, .error (.os 21))
      else
        let (c, r) := closeFile f (writeBody f 0 [] body)
        (fs1.set path (some (.file c)), r)

/-- `write_file_or_remove`: cdtb/tools.py:22-38, wrapped around a body. -/
def writeFileOrRemove (fs : FS) (path : Str) (body : List BodyStep) (f : WriteFaults) : FS × Res Unit :=
  match writeTry fs path body f with
  | (fs1, .ok ()) => (fs1, .ok ())
  | (fs1, .error e) => (fs1.remove path f.remove, .error e)

/-- `convert_cdragon_path`: cdtb/tools.py:110-114 -/
def convertCdragonPath (path : Str) : Str :=
  let (p, ext) := splitext (lower path)
  let ext := if ext = ".dds".toList ∨ ext = ".tex".toList then ".png".toList else ext
  p ++ ext

end Cdtb
