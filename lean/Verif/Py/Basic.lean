/-!
# Python runtime notions shared by the models

Exceptions as values, insertion-ordered dicts.
-/

namespace Cdtb
set_option autoImplicit false

/-- Strings are lists of code points. -/
abbrev Str := List Char

/-- `bytes` -/
abbrev Bytes := List UInt8

/-- Python exceptions raised by the modelled code. -/
inductive Err where
  /-- `ValueError` -/
  | value
  /-- `TypeError` -/
  | type
  /-- `KeyError` -/
  | key
  /-- `IndexError` -/
  | index
  /-- `AssertionError` -/
  | assertion
  /-- `StopIteration` -/
  | stopIteration
  /-- `struct.error` -/
  | struct
  /-- `UnicodeDecodeError` / `UnicodeEncodeError` (subclasses of `ValueError`) -/
  | unicode
  /-- `AttributeError` -/
  | attribute
  /-- `NameError` -/
  | name
  /-- `RuntimeError` -/
  | runtime
  /-- `OSError` with an errno -/
  | os (errno : Nat)
  /-- `FileNotFoundError` -/
  | fileNotFound
  /-- `requests.HTTPError` with a status code -/
  | http (status : Nat)
  /-- `MalformedSubchunkError` (cdtb/wad.py:25) -/
  | malformedSubchunk
  /-- `FileConversionError` (cdtb/export.py:585) -/
  | conversion
  /-- an error of a decompression library -/
  | codec
  /-- `argparse`'s `parser.error()`: prints a message and exits -/
  | usage
  /-- not a Python exception: the model ran out of fuel (the code does not terminate) -/
  | diverge
deriving DecidableEq, Repr

/-- Result of a Python computation: a value or an exception. -/
abbrev Res (α : Type) := Except Err α

deriving instance DecidableEq for Except

/-! ## dicts -/

/-- Python `dict`: association list in insertion order. -/
abbrev Dict (K V : Type) := List (K × V)

namespace Dict
variable {K V W : Type} [DecidableEq K]

/-- `d.get(k)` -/
def get? : Dict K V → K → Option V
  | [], _ => none
  | (k', v) :: r, k => if k' = k then some v else get? r k

/-- `d[k] = v`: replaces in place, or appends at the end. -/
def set : Dict K V → K → V → Dict K V
  | [], k, v => [(k, v)]
  | (k', v') :: r, k, v => if k' = k then (k', v) :: r else (k', v') :: set r k v

/-- `del d[k]` (when present) -/
def erase : Dict K V → K → Dict K V
  | [], _ => []
  | (k', v') :: r, k => if k' = k then r else (k', v') :: erase r k

/-- `dict(pairs)`, `{k: v for k, v in pairs}` -/
def ofList (l : List (K × V)) : Dict K V := l.foldl (fun d kv => d.set kv.1 kv.2) []

/-- `d[k]`: raises `KeyError` -/
def get (d : Dict K V) (k : K) : Res V :=
  match d.get? k with
  | some v => .ok v
  | none => .error .key

/-- `list(d)` -/
def keys (d : Dict K V) : List K := d.map (·.1)
/-- `list(d.values())` -/
def values (d : Dict K V) : List V := d.map (·.2)
/-- `k in d` -/
def contains (d : Dict K V) (k : K) : Bool := (d.get? k).isSome

end Dict
end Cdtb
