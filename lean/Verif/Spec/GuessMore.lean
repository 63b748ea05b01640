import Verif.Props.C48
import Verif.Props.C57
import Verif.Spec.PatchVersion
import Verif.Model.GuessMore
/-! Specification of the other guessing methods, for C69. -/
namespace Cdtb
set_option autoImplicit false
open Py

/-- A number in base 10 -/
abbrev Spec.dec (n : Nat) : Str := showNat 10 n

/-- A file whose name starts with 32 hexadecimal digits (lower case) and a dot -/
def Spec.HexFile (p : Str) : Prop := ∃ a h b, p = a ++ '/' :: h ++ '.' :: b ∧ h.length = 32 ∧ ∀ c ∈ h, c ∈ "0123456789abcdef".toList

/-- Client paths without interesting words: the files of characters, and the names that are hashes -/
def Spec.LcuNoWords (p : Str) : Prop :=
  (∃ r, p = "plugins/rcp-be-lol-game-data/global/default/data/characters/".toList ++ r) ∨ Spec.HexFile p

/-- Client paths without interesting numbers -/
def Spec.LcuNoNumbers (p : Str) : Prop :=
  (∃ a b r, Spec.Name a ∧ Spec.Name b ∧ p = "plugins/rcp-be-lol-game-data/".toList ++ a ++ '/' :: b ++ "/v1/champion-".toList ++ r) ∨
  (∃ a b c r, Spec.Name a ∧ Spec.Name b ∧ c ≠ '\n' ∧
    p = "plugins/rcp-be-lol-game-data/".toList ++ a ++ '/' :: b ++ "/v1/champions/-1".toList ++ c :: "json".toList ++ r) ∨
  (∃ d r, (d = "data".toList ∨ d = "assets".toList) ∧ p = "plugins/rcp-be-lol-game-data/global/default/".toList ++ d ++ "/characters/".toList ++ r) ∨
  (∃ n r, n ≠ [] ∧ (∀ c ∈ n, Spec.Digit c) ∧ p = "plugins/rcp-be-lol-game-data/global/default/data/items/icons2d/".toList ++ n ++ '_' :: r) ∨
  Spec.HexFile p

/-- `w` is a word of the paths `P` (see C48): it is before a delimiter, and it is not a large number -/
def Spec.WordOf (P : Str → Prop) (w : Str) : Prop :=
  (∃ p, P p ∧ Spec.IsPart p w) ∧ ¬ Spec.IsLarge w ∧ ¬ ∃ v, w = v ++ ['\n'] ∧ Spec.IsLarge v

/-- Game paths to which no words are added -/
def Spec.GameNoAdd (p : Str) : Prop :=
  ∃ part ∈ ["assets/characters/".toList, "vo/".toList, "sfx/".toList, "skins_skin".toList], ∃ a b, p = a ++ part ++ b

/-- The identifiers of rune paths -/
def Spec.PerkStyle (n : Nat) : Prop := n ∈ [8000, 8100, 8200, 8300, 8400, 8500]

/-- Images of runes -/
def Spec.PerkFile (q : Str) : Prop :=
  (∃ i j k, Spec.PerkStyle i ∧ (j = 0 ∨ Spec.PerkStyle j) ∧ (k = 0 ∨ i ≤ k ∧ k < i + 100) ∧
    q = "plugins/rcp-fe-lol-perks/global/default/images/inventory-card/".toList ++ Spec.dec i ++ "/p".toList ++ Spec.dec i ++ "_s".toList ++
      Spec.dec j ++ "_k".toList ++ Spec.dec k ++ ".jpg".toList) ∨
  (∃ i x, Spec.PerkStyle i ∧ q = "plugins/rcp-fe-lol-perks/global/default/images/construct/".toList ++ Spec.dec i ++ '/' :: x ∧
    (x = "environment.jpg".toList ∨ x = "construct.png".toList ∨
      (∃ k, i ≤ k ∧ k < i + 100 ∧ x = "keystones/".toList ++ Spec.dec k ++ ".png".toList) ∨
      ∃ j, Spec.PerkStyle j ∧ x = "second/".toList ++ Spec.dec j ++ ".png".toList))

/-- Lists of words of the client -/
def Spec.SanitizerFile (q : Str) : Prop := ∃ x, q = "plugins/rcp-be-sanitizer/global/default/".toList ++ x ∧
  ((∃ i action part, i < 5 ∧ action ∈ ["filter".toList, "unfilter".toList, "whitelist".toList] ∧
      x = Spec.dec i ++ '.' :: action ++ part ++ ".csv".toList ∧
      (part = [] ∨ (∃ r ∈ Spec.regions, part = ".region.".toList ++ r) ∨
        ∃ l c, l ++ '_' :: c ∈ Spec.languages ∧ '_' ∉ l ∧ '_' ∉ c ∧
          (part = ".language.".toList ++ l ∨ part = ".country.".toList ++ c ∨ part = ".locale.".toList ++ l ++ '_' :: c))) ∨
    (∃ n l c, n ∈ (["allowedchars", "breakingchars", "projectedchars", "projectedchars1337", "punctuationchars", "variantaliases"].map String.toList) ∧
      l ++ '_' :: c ∈ Spec.languages ∧ '_' ∉ l ∧ '_' ∉ c ∧
      (x = n ++ ".locale.".toList ++ l ++ '_' :: c ++ ".txt".toList ∨ x = n ++ ".language.".toList ++ l ++ ".txt".toList)))

/-- Icons of loot -/
def Spec.LootIcon (p : Str) : Prop := ∃ r, p = "plugins/rcp-fe-lol-loot/global/default/assets/loot_item_icons/".toList ++ r

/-- The splash of a loot icon: `.png` is replaced -/
def Spec.splash (p : Str) : Str := replaceGo ".png".toList "_splash.png".toList 0 p

/-- `p` is the directory of a character, or something in it -/
def Spec.CharName (p c : Str) : Prop := c ≠ [] ∧ '/' ∉ c ∧ '.' ∉ c ∧
  ∃ d ∈ ["assets/characters/".toList, "data/characters/".toList, "characters/".toList], p = d ++ c ∨ ∃ r, p = d ++ c ++ '/' :: r

/-- Usual files of a character `c` -/
def Spec.CharFile (c q : Str) : Prop :=
  (∃ x ∈ ["/skins/root.bin".toList, "/tiers/root.bin".toList], q = "data/characters/".toList ++ c ++ x) ∨
  (∃ x ∈ [".skl".toList, ".skn".toList, "_tx_cm.dds".toList], q = "data/characters/".toList ++ c ++ "/skins/base/".toList ++ c ++ x) ∨
  (∃ x ∈ [".bin".toList, ".ddf".toList], q = "data/characters/".toList ++ c ++ "/".toList ++ c ++ x) ∨
  (∃ d ∈ ["data/characters/".toList, "assets/characters/".toList], ∃ x ∈ ["_circle.dds".toList, "_square.dds".toList], q = d ++ c ++ "/hud/".toList ++ c ++ x) ∨
  q = "characters/".toList ++ c ∨
  (∃ i d, (i < 200 ∨ c = "sightward".toList ∧ i < 500) ∧ (d = "/skins/skin".toList ∨ d = "/animations/skin".toList) ∧
    q = "data/characters/".toList ++ c ++ d ++ Spec.dec i ++ ".bin".toList) ∨
  ((∃ r, c = "pet".toList ++ r) ∧ ∃ i, i < 10 ∧ q = "data/characters/".toList ++ c ++ "/tiers/tier".toList ++ Spec.dec i ++ ".bin".toList)

/-- `e` is the extension of a shader, followed by `r` -/
def Spec.ShaderExt (e r : Str) : Prop :=
  e ∈ [".ps_2_0".toList, ".ps_3_0".toList, ".vs_2_0".toList, ".vs_3_0".toList] ∨
  e ∈ [".ps".toList, ".vs".toList] ∧ (r = [] ∨ r = ['\n'] ∨ (∃ t, r = '.' :: t) ∨ ∃ t, r = '-' :: t)

/-- `m` is the name of a shader, `p` without variant: up to the last extension -/
def Spec.ShaderName (p m : Str) : Prop := ∃ a e r, p = a ++ e ++ r ∧ m = a ++ e ∧ '\n' ∉ a ∧ Spec.ShaderExt e r ∧
  ∀ a' e' r', p = a' ++ e' ++ r' → '\n' ∉ a' → Spec.ShaderExt e' r' → a'.length ≤ a.length

/-- Names of shader variants -/
def Spec.shaderPlatforms : List Str := [".dx11", ".dx9", ".dx9sm3", ".glsl", ".metal", "-dx11", "-metal"].map String.toList

/-- The character of a skin with chromas -/
def Spec.ChromaOf (s : ChromaSkin) (char : Str) : Prop :=
  Spec.Name char ∧ ∃ r, lower s.path = "/lol-game-data/assets/assets/characters/".toList ++ char ++ "/skins/".toList ++ r

/-- Names, in a group, of a skin and its chromas -/
def Spec.chromaParts (s : ChromaSkin) : List Str :=
  (((int10 s.id).getD 0) :: s.chromas).map fun i => "_skins_skin".toList ++ showInt (i % 1000)

/-- A line of a log, with a path between quotes -/
def Spec.LogPath (l p : Str) : Prop := ∃ a b, l = "hash: ".toList ++ a ++ '"' :: p ++ '"' :: b ∧ '"' ∉ a ∧ '"' ∉ p

end Cdtb
