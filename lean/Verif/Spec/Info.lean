import Verif.Py.Struct
import Verif.Py.Utf8
/-!
# Specification: layout of atlas and champion skins files
-/
namespace Cdtb.Spec
set_option autoImplicit false
open Py

/-- A text: its length in bytes, on 32 bits, then its UTF-8 representation -/
def text32 (s : Str) : Bytes := le 4 (utf8Bytes s).length ++ utf8Bytes s
def Fits32 (s : Str) : Prop := (utf8Bytes s).length < 256 ^ 4

/-- A texture: its name (a text or a hash), its position (four floats) and the index of its atlas -/
structure Texture (α : Type) where
  name : α
  startX : Nat
  startY : Nat
  endX : Nat
  endY : Nat
  atlas : Nat

def Texture.tail {α : Type} (t : Texture α) : Bytes := le 4 t.startX ++ (le 4 t.startY ++ (le 4 t.endX ++ (le 4 t.endY ++ le 4 t.atlas)))
structure Texture.Fits {α : Type} (t : Texture α) : Prop where
  startX : t.startX < 256 ^ 4
  startY : t.startY < 256 ^ 4
  endX : t.endX < 256 ^ 4
  endY : t.endY < 256 ^ 4
  atlas : t.atlas < 256 ^ 4

/-- File with names -/
def atlasText (atlases : List Str) (textures : List (Texture Str)) : Bytes :=
  le 4 atlases.length ++ (atlases.flatMap text32 ++ (le 4 textures.length ++ textures.flatMap (fun t => text32 t.name ++ t.tail)))

/-- File with hashes -/
def atlasHashed (atlases : List Nat) (textures : List (Texture Nat)) : Bytes :=
  [0x49, 0x4d, 0x41, 0x41] ++ (le 4 atlases.length ++ (atlases.flatMap (le 8) ++ (le 4 textures.length ++
    textures.flatMap (fun t => le 8 t.name ++ t.tail))))

/-- A skin: id, flag and name -/
structure Skin where
  id : Nat
  flag : Nat
  name : Str

structure Champion where
  name : Str
  skins : List Skin

def Skin.bytes (s : Skin) : Bytes := le 4 s.id ++ (le 1 s.flag ++ text32 s.name)
def Champion.bytes (c : Champion) : Bytes := text32 c.name ++ (le 4 c.skins.length ++ c.skins.flatMap Skin.bytes)
def skinsFile (l : List Champion) : Bytes :=
  [0x6d, 0x61, 0x68, 0x43] ++ (le 4 2 ++ (le 4 l.length ++ l.flatMap Champion.bytes))

structure Skin.Fits (s : Skin) : Prop where
  id : s.id < 256 ^ 4
  flag : s.flag < 256
  name : Fits32 s.name
structure Champion.Fits (c : Champion) : Prop where
  name : Fits32 c.name
  count : c.skins.length < 256 ^ 4
  skins : ∀ s ∈ c.skins, s.Fits

/-- The last one with a given key -/
def lastWith {α κ : Type} [DecidableEq κ] (key : α → κ) (l : List α) (k : κ) : Option α := l.reverse.find? (fun x => decide (key x = k))

end Cdtb.Spec
