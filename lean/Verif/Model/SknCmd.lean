import Verif.Model.Skn
import Verif.Model.Commands
/-!
# Model of the command `skn-extract` (cdtb/__main__.py:305-316)
-/
namespace Cdtb
set_option autoImplicit false
open Py

/-- Failures of the operating system while a text file is written: `open()` fails; or writing (or closing) fails when `k` bytes are in the file -/
structure TextFaults where
  open_ : Option Err := none
  write : Option (Nat × Err) := none

/-- The directory in which a file is created exists: an empty name is the current directory, and `/` always exists -/
def parentIsDir (fs : FS) (path : Str) : Bool :=
  (dirname path).all (· = '/') || decide (fs (dirname path) = some .dir)

/-- `with open(path, "w") as f: f.write(text)` (cdtb/__main__.py:315-316): `text` is computed when the file is already open, and emptied. Simplification:
texts are encoded in UTF-8 (those of the command are made of ASCII characters). -/
def writeText (fs : FS) (path : Str) (text : Res Str) (f : TextFaults) : FS × Res Unit :=
  match f.open_ with
  | some e => (fs, .error e)
  | none =>
    if !parentIsDir fs path then (fs, .error .fileNotFound)
    else if fs path = some .dir then (fs, .error (.os 21))
    else match text with
      | .error e => (fs.set path (some (.file [])), .error e)
      | .ok t => match f.write with
        | some (k, e) => (fs.set path (some (.file ((utf8Bytes t).take k))), .error e)
        | none => (fs.set path (some (.file (utf8Bytes t))), .ok ())

/-- The file of a submesh: `os.path.join(args.output, entry["name"] + ".obj")` (cdtb/__main__.py:314) -/
def sknObjName (output : Str) (e : SknEntry) : Str := pjoin output (e.name ++ ".obj".toList)

/-- Default of `args.output`: `os.path.splitext(args.skn)[0]` (cdtb/__main__.py:310-311) -/
def sknOutput (skn : Str) : Option Str → Str
  | some o => o
  | none => (splitext skn).1

/-- `command_skn_extract` (cdtb/__main__.py:305-316); `showF` is the text of a float, `mk` a failure when directories are created, `flts i` those of the
`i`-th file. Reading the SKN file does not fail. -/
def sknExtract (showF : Nat → Str) (fs : FS) (skn : Str) (output : Option Str) (mk : Option (Nat × Err)) (flts : Nat → TextFaults) :
    FS × Res Unit :=
  match fs skn with
  | some (.file b) => match parseSkn.run b with
    | .error e => (fs, .error e)
    | .ok s => match fs.makedirs (sknOutput skn output) mk with
      | (fs1, .error e) => (fs1, .error e)
      | (fs1, .ok ()) =>
        forElems (fun i fs e => writeText fs (sknObjName (sknOutput skn output) e) (toObj showF e) (flts i)) 0 fs1 s.entries
  | _ => (fs, .error .usage)

end Cdtb
