import Verif.Py.Struct
import Verif.Py.Utf8
/-!
# Specification: layout of RST files
-/
namespace Cdtb.Spec
set_option autoImplicit false
open Py

/-- Number of bits of the hashes of each version of the format. -/
def rstBits (version gameVersion : Nat) : Nat :=
  if version ≤ 3 then 40 else if gameVersion < 1502 then 39 else 38

/-- Layout of the font configuration: only in version 2. -/
def rstConfig (version : Nat) (config : Option Str) : Bytes :=
  if version = 2 then match config with
    | none => [0]
    | some s => [1] ++ le 4 (utf8Bytes s).length ++ utf8Bytes s
  else []

/-- Flag of encrypted entries: absent from version 5. -/
def rstFlag (version : Nat) (encrypted : Bool) : Bytes :=
  if version = 5 then [] else [if encrypted then 1 else 0]

/-- Layout of a file. Entries are pairs (offset, hash). -/
def rstFile (version gameVersion : Nat) (config : Option Str) (entries : List (Nat × Nat)) (encrypted : Bool)
    (texts : Bytes) : Bytes :=
  [82, 83, 84] ++ (le 1 version ++ (rstConfig version config ++ (le 4 entries.length ++
    ((entries.map fun e => le 8 (e.1 * 2 ^ rstBits version gameVersion + e.2)).flatten ++
    (rstFlag version encrypted ++ texts)))))

end Cdtb.Spec
