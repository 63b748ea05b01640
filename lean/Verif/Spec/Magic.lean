import Verif.Py.Basic
/-!
# Specification: file signatures

First bytes of the supported file formats, grouped by extension.
-/
namespace Cdtb.Spec
set_option autoImplicit false

/-- ASCII text as bytes -/
def ascii (s : String) : Bytes := s.toList.map fun c => UInt8.ofNat c.toNat

/-- Extensions and their signatures. -/
def signatures : List (String × List Bytes) := [
  ("anm", [ascii "r3d2anmd", ascii "r3d2canm"]),
  ("bin", [ascii "PROP", ascii "PTCH"]),
  ("bnk", [ascii "BKHD"]),
  ("bundle", [ascii "UnityFS"]),
  ("data", [ascii "UnityWebData1.0"]),
  ("dds", [ascii "DDS "]),
  ("gif", [ascii "GIF87a", ascii "GIF89a"]),
  ("html", [ascii "<html", ascii "<!DOCTYPE html>"]),
  ("jpg", [[255, 216, 255, 219], [255, 216, 255, 225]]),
  ("luabin", [[27, 76, 117, 97, 81, 0, 1, 4, 4]]),
  ("luabin64", [[27, 76, 117, 97, 81, 0, 1, 4, 8]]),
  ("mapgeo", [ascii "OEGM"]),
  ("min.js", [ascii "\"use strict\";"]),
  ("ogg", [ascii "OggS"]),
  ("otf", [[79, 84, 84, 79, 0]]),
  ("png", [[137, 80, 78, 71, 13, 10, 26, 10]]),
  ("preload", [ascii "PreLoadBuildingBlocks = {"]),
  ("scb", [ascii "r3d2Mesh"]),
  ("sco", [ascii "[ObjectBegin]"]),
  ("skl", [ascii "r3d2sklt"]),
  ("skn", [[51, 34, 17, 0]]),
  ("svg", [ascii "<svg"]),
  ("template.html", [ascii "<template ", ascii "<!-- Elements -->"]),
  ("tex", [[84, 69, 88, 0]]),
  ("troybin", [[2, 61, 0, 40]]),
  ("ttf", [[0, 1, 0, 0], ascii "true"]),
  ("wasm", [[0, 97, 115, 109]]),
  ("webm", [[26, 69, 223, 163]]),
  ("wpk", [ascii "r3d2"])]

/-- `b` is a signature of the extension `ext`. -/
def Signature (b : Bytes) (ext : Str) : Prop := ∃ e bs, (e, bs) ∈ signatures ∧ b ∈ bs ∧ ext = e.toList

/-- JPEG files of cameras: bytes 6 to 9 are `JFIF` or `Exif`. -/
def JpegMarker (data : Bytes) : Prop := (data.take 10).drop 6 = ascii "JFIF" ∨ (data.take 10).drop 6 = ascii "Exif"

end Cdtb.Spec
