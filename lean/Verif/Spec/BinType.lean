import Verif.Model.Bin
/-!
# Specification: type codes of BIN files, by game version

The code of each type before 9.23, from 9.23 to 10.7, and from 10.8. `LIST2` appeared in 10.8; `PATH` did not
exist before 9.23.
-/
namespace Cdtb.Spec
set_option autoImplicit false

/-- Types whose codes never changed -/
def plainCode : BinType → Option Nat
  | .empty => some 0 | .bool => some 1 | .s8 => some 2 | .u8 => some 3 | .s16 => some 4 | .u16 => some 5
  | .s32 => some 6 | .u32 => some 7 | .s64 => some 8 | .u64 => some 9 | .float => some 10 | .vec2 => some 11
  | .vec3 => some 12 | .vec4 => some 13 | .matrix => some 14 | .rgba => some 15 | .string => some 16 | .hash => some 17
  | _ => none

/-- Before 9.23 -/
def oldCode : BinType → Option Nat
  | .list => some 18 | .struct => some 19 | .embedded => some 20 | .link => some 21 | .option => some 22
  | .map => some 23 | .flag => some 24
  | t => plainCode t

/-- From 9.23 to 10.7 -/
def middleCode : BinType → Option Nat
  | .path => some 18
  | .list => some 0x80 | .struct => some 0x81 | .embedded => some 0x82 | .link => some 0x83 | .option => some 0x84
  | .map => some 0x85 | .flag => some 0x86
  | t => plainCode t

/-- From 10.8 -/
def newCode : BinType → Option Nat
  | .path => some 18
  | .list => some 0x80 | .list2 => some 0x81 | .struct => some 0x82 | .embedded => some 0x83 | .link => some 0x84
  | .option => some 0x85 | .map => some 0x86 | .flag => some 0x87
  | t => plainCode t

/-- The code of a type in the files of a game version (9.23 is 923, 10.8 is 1008) -/
def typeCode (version : Nat) (t : BinType) : Option Nat :=
  if version < 923 then oldCode t else if version < 1008 then middleCode t else newCode t

end Cdtb.Spec
