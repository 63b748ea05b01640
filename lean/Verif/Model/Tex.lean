import Verif.Py.Struct
/-!
# `TexConverter.tex_to_dds` (cdtb/export.py:645-707)

The number of mipmaps (cdtb/export.py:690-694) is computed and not used: it is not modelled.
-/
namespace Cdtb
set_option autoImplicit false

/-- `struct.pack('<LL4s20x', 32, 0x4, fourcc)` -/
def ddspfFourCC (fourcc : Bytes) : Bytes := le 4 32 ++ le 4 0x4 ++ fourcc ++ List.replicate 20 0

/-- `struct.pack('<LL4xLL', dxgi, 3, 1, 1)` -/
def dx10Header (dxgi : Nat) : Bytes := le 4 dxgi ++ le 4 3 ++ List.replicate 4 0 ++ le 4 1 ++ le 4 1

/-- `DXT1`, `DXT5`, `DX10`, `DDS ` -/
def fourDXT1 : Bytes := [0x44, 0x58, 0x54, 0x31]
def fourDXT5 : Bytes := [0x44, 0x58, 0x54, 0x35]
def fourDX10 : Bytes := [0x44, 0x58, 0x31, 0x30]
def fourDDS : Bytes := [0x44, 0x44, 0x53, 0x20]

/-- Pixel format and DX10 header, for supported formats (cdtb/export.py:653-674) -/
def texFormat (format : Nat) : Option (Bytes × Bytes) :=
  if format = 0x0a then some (ddspfFourCC fourDXT1, [])
  else if format = 0x0c then some (ddspfFourCC fourDXT5, [])
  else if format = 0x0d then some (ddspfFourCC fourDX10, dx10Header 99)
  else if format = 0x0e then some (ddspfFourCC fourDX10, dx10Header 84)
  else if format = 0x14 then
    some (le 4 32 ++ le 4 0x41 ++ List.replicate 4 0 ++ le 4 (8 * 4) ++ le 4 0x00ff0000 ++ le 4 0x0000ff00 ++ le 4 0x000000ff ++ le 4 0xff000000, [])
  else if format = 0x15 then some (ddspfFourCC fourDX10, dx10Header 13)
  else none

/-- `block_size`, `bytes_per_block` (cdtb/export.py:676-688) -/
def texBlock (format : Nat) : Option (Nat × Nat) :=
  if format = 0x0a then some (4, 8)
  else if format = 0x0c ∨ format = 0x0d ∨ format = 0x0e then some (4, 16)
  else if format = 0x14 then some (1, 4)
  else none

/-- `data[-n:]`: the last bytes, but everything when `n` is zero -/
def sliceFromEnd (data : Bytes) (n : Nat) : Bytes := if n = 0 then data else data.drop (data.length - n)

/-- The pixels (cdtb/export.py:676-702) -/
def texPixels (data : Bytes) (width height format : Nat) (mipmaps : Bool) : Res Bytes :=
  if mipmaps then
    match texBlock format with
    | none => .error .conversion
    | some (size, bytes) => .ok (sliceFromEnd data (bytes * ((width + size - 1) / size) * ((height + size - 1) / size)))
  else .ok (data.drop 12)

/-- `TexConverter.tex_to_dds` (cdtb/export.py:645-707) -/
def texToDds (data : Bytes) : Res Bytes :=
  if data.length < 12 ∨ data.take 4 ≠ [0x54, 0x45, 0x58, 0x00] then .error .conversion
  else
    let width := leNat ((data.drop 4).take 2)
    let height := leNat ((data.drop 6).take 2)
    let format := leNat ((data.drop 9).take 1)
    let mipmaps := decide (leNat ((data.drop 11).take 1) ≠ 0)
    match texFormat format with
    | none => .error .conversion
    | some (ddspf, dx10) => do
      let pixels ← texPixels data width height format mipmaps
      let header := fourDDS ++ le 4 124 ++ le 4 0x1007 ++ le 4 height ++ le 4 width ++ List.replicate 56 0 ++ ddspf ++ le 4 0x1000 ++ List.replicate 16 0
      pure (header ++ dx10 ++ pixels)

end Cdtb
