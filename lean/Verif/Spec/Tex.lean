import Verif.Py.Struct
/-!
# Specification: TEX and DDS files
-/
namespace Cdtb.Spec
set_option autoImplicit false

/-- Supported pixel formats -/
inductive TexFmt where
  | dxt1 | dxt5 | bc7 | bc5 | bgra8 | rgba16
deriving DecidableEq, Repr

/-- Code in TEX files -/
def TexFmt.code : TexFmt → Nat
  | .dxt1 => 10 | .dxt5 => 12 | .bc7 => 13 | .bc5 => 14 | .bgra8 => 20 | .rgba16 => 21

/-- Number of bytes of an image; images are divided in blocks of 4×4 pixels in compressed formats. -/
def TexFmt.imageSize (f : TexFmt) (width height : Nat) : Nat :=
  let blocks (n : Nat) := if n % 4 = 0 then n / 4 else n / 4 + 1
  match f with
  | .dxt1 => 8 * (blocks width * blocks height)
  | .dxt5 | .bc7 | .bc5 => 16 * (blocks width * blocks height)
  | .bgra8 => 4 * (width * height)
  | .rgba16 => 8 * (width * height)

/-- A TEX file: header (with two unused bytes) and body. When `mipmaps` is not zero, the body holds all the mipmaps, the
largest one at the end. -/
def texFile (width height : Nat) (unused1 : UInt8) (code : Nat) (unused2 mipmaps : UInt8) (body : Bytes) : Bytes :=
  [0x54, 0x45, 0x58, 0x00] ++ le 2 width ++ le 2 height ++ [unused1] ++ le 1 code ++ [unused2, mipmaps] ++ body

/-- The 32 bits word at an offset -/
def word (b : Bytes) (offset : Nat) : Nat := leNat ((b.drop offset).take 4)

/-- Four characters code, as a word -/
def fourCC (s : String) : Nat := leNat (s.toList.map (fun c => UInt8.ofNat c.toNat))

/-- How DDS headers describe each format: FourCC code, and DXGI format in the additional header of DX10 files; BGRA8 is
described by its bit masks. -/
def DdsFormat (dds : Bytes) : TexFmt → Prop
  | .dxt1 => word dds 80 = 4 ∧ word dds 84 = fourCC "DXT1"
  | .dxt5 => word dds 80 = 4 ∧ word dds 84 = fourCC "DXT5"
  | .bc7 => word dds 80 = 4 ∧ word dds 84 = fourCC "DX10" ∧ word dds 128 = 99
  | .bc5 => word dds 80 = 4 ∧ word dds 84 = fourCC "DX10" ∧ word dds 128 = 84
  | .rgba16 => word dds 80 = 4 ∧ word dds 84 = fourCC "DX10" ∧ word dds 128 = 13
  | .bgra8 => word dds 80 = 0x41 ∧ word dds 88 = 32 ∧ word dds 92 = 0xff0000 ∧ word dds 96 = 0xff00 ∧ word dds 100 = 0xff ∧
      word dds 104 = 0xff000000

/-- Length of the header -/
def TexFmt.headerSize : TexFmt → Nat
  | .dxt1 | .dxt5 | .bgra8 => 128
  | .bc7 | .bc5 | .rgba16 => 148

/-- A DDS file of a single image (header sizes, flags for width, height and pixel format, dimensions, one 2D texture) -/
structure IsDds (dds : Bytes) (f : TexFmt) (width height : Nat) (pixels : Bytes) : Prop where
  body : dds.drop f.headerSize = pixels
  size : dds.length = f.headerSize + pixels.length
  magic : word dds 0 = fourCC "DDS "
  headerSize : word dds 4 = 124
  flags : word dds 8 = 0x1007
  height : word dds 12 = height
  width : word dds 16 = width
  noMipmaps : word dds 28 = 0
  formatSize : word dds 76 = 32
  format : DdsFormat dds f
  caps : word dds 108 = 0x1000
  dimension : f.headerSize = 148 → word dds 132 = 3 ∧ word dds 140 = 1

end Cdtb.Spec
