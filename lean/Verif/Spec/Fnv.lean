import Verif.Py.Basic
/-!
# Specification: FNV-1a, 32 bits
-/
namespace Cdtb.Spec
set_option autoImplicit false

/-- One step of FNV-1a: xor with the byte, then multiply by the FNV prime, on 32-bit words. -/
def fnvStep (h : UInt32) (b : UInt8) : UInt32 := (h ^^^ b.toUInt32) * 16777619

/-- FNV-1a from a given state. The hash of a byte string starts from the offset basis. -/
def fnvFrom (h : UInt32) (bs : Bytes) : UInt32 := bs.foldl fnvStep h
def fnv1a (bs : Bytes) : UInt32 := fnvFrom 2166136261 bs

/-- ASCII text -/
def Ascii (s : Str) : Prop := ∀ c ∈ s, c.toNat < 128
instance (s : Str) : Decidable (Ascii s) := inferInstanceAs (Decidable (∀ c ∈ s, _))

/-- Lowercased bytes of an ASCII text -/
def lowerBytes (s : Str) : Bytes := s.map (fun c => UInt8.ofNat c.toLower.toNat)

end Cdtb.Spec
