import Verif.Py.Str
/-! Specification of the contents of a patcher storage: chunks, bundles of the CDN, files. -/
namespace Cdtb.Spec
set_option autoImplicit false
open Py

/-- Uppercase hexadecimal digits -/
def hexDigitsU : Str := "0123456789ABCDEF".toList

/-- The 16 uppercase hexadecimal digits of an id -/
structure HexU16 (s : Str) (n : Nat) : Prop where
  length : s.length = 16
  digits : ∀ c ∈ s, c ∈ hexDigitsU
  value : s.foldl (fun a c => 16 * a + hexDigitsU.idxOf c) 0 = n

/-- `x` is the text of the ids, one after the other. -/
inductive IdsText : List Nat → Str → Prop
  | nil : IdsText [] []
  | cons {i ids t x} : HexU16 t i → IdsText ids x → IdsText (i :: ids) (t ++ x)

/-- What is on the CDN: content of chunks (decompressed) by id, content of bundles by id -/
structure Cdn where
  chunk : Nat → Bytes
  bundle : Nat → Bytes

/-- Content of a file: its chunks, in order -/
def Cdn.file (w : Cdn) (ids : List Nat) : Bytes := (ids.map w.chunk).flatten

end Cdtb.Spec
