import Verif.Model.GrepLcu
/-!
# Specification for C70: paths found in the text files of the client
-/
namespace Cdtb
set_option autoImplicit false
open Py

/-- `P pre w r x`: after `pre`, the text starts with the match `w`, from which `x` is extracted, and `r` follows. `Spec.Finds P pre s x`:
reading `s` (found after `pre`) from left to right without overlapping, `x` is extracted from one of the matches. -/
inductive Spec.Finds (P : Str → Str → Str → Str → Prop) : Str → Str → Str → Prop
  | here (pre w r x : Str) (h : P pre w r x) : Spec.Finds P pre (w ++ r) x
  | later (pre w r x y : Str) (h : P pre w r x) (hy : Spec.Finds P (pre ++ w) r y) : Spec.Finds P pre (w ++ r) y
  | skip (pre : Str) (c : Char) (s y : Str) (h : ∀ w r x, c :: s = w ++ r → ¬ P pre w r x) (hy : Spec.Finds P (pre ++ [c]) s y) :
      Spec.Finds P pre (c :: s) y

/-- ASCII letters and digits -/
def Spec.AlnumChar (c : Char) : Prop := ('a' ≤ c ∧ c ≤ 'z') ∨ ('A' ≤ c ∧ c ≤ 'Z') ∨ ('0' ≤ c ∧ c ≤ '9')

/-- Characters of words; `uni` gives those that are not in ASCII -/
def Spec.WordChar (uni : Char → Bool) (c : Char) : Prop :=
  Spec.AlnumChar c ∨ c = '_' ∨ (128 ≤ c.toNat ∧ uni c = true)

/-- Characters of relative paths -/
def Spec.RelChar (c : Char) : Prop := Spec.AlnumChar c ∨ c ∈ ['/', '_', '.', '-']

/-- Characters of paths -/
def Spec.UrlChar (c : Char) : Prop := Spec.RelChar c ∨ c = '@'

/-- `s` does not start with a character of `X` -/
def Spec.StopsAt (X : Char → Prop) (s : Str) : Prop := ∀ c t, s = c :: t → ¬ X c

/-- `y` is a nonempty part made of characters of `X`, as long as possible, followed by `r` -/
def Spec.Run (X : Char → Prop) (y r : Str) : Prop := y ≠ [] ∧ (∀ c ∈ y, X c) ∧ Spec.StopsAt X r

/-- A word can start after `pre`. -/
def Spec.StartsWord (uni : Char → Bool) (pre : Str) : Prop := ∀ a c, pre = a ++ [c] → ¬ Spec.WordChar uni c

/-- `fe/(plugin)/(path)` -/
def Spec.FeMatch (uni : Char → Bool) (pre w r q : Str) : Prop := ∃ plugin path, w = "fe/".toList ++ plugin ++ '/' :: path ∧
  Spec.StartsWord uni pre ∧ plugin ≠ [] ∧ '/' ∉ plugin ∧ Spec.Run Spec.UrlChar path r ∧
  q = lower ("plugins/rcp-fe-".toList ++ plugin ++ "/global/default/".toList ++ path)

/-- `/DATA/(path)` -/
def Spec.DataMatch (_ w r q : Str) : Prop := ∃ path, w = "/DATA/".toList ++ path ∧ Spec.Run Spec.UrlChar path r ∧
  q = lower ("plugins/rcp-be-lol-game-data/global/default/data/".toList ++ path)

/-- `lol-game-data/assets/(path)` -/
def Spec.AssetsMatch (uni : Char → Bool) (pre w r q : Str) : Prop := ∃ path, w = "lol-game-data/assets/".toList ++ path ∧
  Spec.StartsWord uni pre ∧ Spec.Run Spec.UrlChar path r ∧ q = lower ("plugins/rcp-be-lol-game-data/global/default/".toList ++ path)

/-- `./(path)` or `../(path)`, after a character that cannot be in a path -/
def Spec.RelMatch (_ w r q : Str) : Prop := ∃ c dots path, w = c :: q ∧ ¬ Spec.RelChar c ∧ c ≠ '\\' ∧ dots ∈ ["./".toList, "../".toList] ∧
  q = dots ++ path ∧ Spec.Run Spec.RelChar path r

/-- Known extensions of files, and all those of three letters -/
def Spec.FileExt (e : Str) : Prop :=
  e ∈ ["js".toList, "json".toList, "webm".toList, "html".toList] ∨ (e.length = 3 ∧ ∀ c ∈ e, 'a' ≤ c ∧ c ≤ 'z')

/-- `q` is a path that starts with a letter or a digit, with an extension. `r`, that follows, is not the rest of the extension. -/
def Spec.NamePart (uni : Char → Bool) (q r : Str) : Prop := ∃ a x e, q = a :: x ++ '.' :: e ∧ Spec.AlnumChar a ∧ (∀ c ∈ x, Spec.UrlChar c) ∧
  Spec.FileExt e ∧ Spec.StopsAt (Spec.WordChar uni) r

/-- A path after a quote, as long as possible -/
def Spec.NameMatch (uni : Char → Bool) (_ w r q : Str) : Prop := ∃ c, c ∈ ['"', '\''] ∧ w = c :: q ∧ Spec.NamePart uni q r ∧
  ∀ q' r', q ++ r = q' ++ r' → Spec.NamePart uni q' r' → q'.length ≤ q.length

/-- `<template id="...-template-(name)"`, where the name starts as late as possible -/
def Spec.TemplateMatch (_ w _ q : Str) : Prop := ∃ a b, w = "<template id=\"".toList ++ a ++ "-template-".toList ++ b ++ ['"'] ∧
  '"' ∉ a ∧ '"' ∉ b ∧ b ≠ [] ∧ q = b ++ "/template.html".toList ∧
  ∀ a' b', a ++ "-template-".toList ++ b = a' ++ "-template-".toList ++ b' → b' ≠ [] → a'.length ≤ a.length

/-- `sourceMappingURL=(...).js.map`, where the name ends as early as possible in the line -/
def Spec.MapMatch (_ w r q : Str) : Prop := ∃ x, w = "sourceMappingURL=".toList ++ x ++ ".js.map".toList ∧ '\n' ∉ x ∧ q = x ++ ".js".toList ∧
  ∀ x' t', x ++ ".js.map".toList ++ r = x' ++ ".js.map".toList ++ t' → x.length ≤ x'.length

/-- Full paths given by a text -/
def Spec.TextPath (uni : Char → Bool) (text q : Str) : Prop :=
  Spec.Finds (Spec.FeMatch uni) [] text q ∨ Spec.Finds Spec.DataMatch [] text q ∨ Spec.Finds (Spec.AssetsMatch uni) [] text q

/-- Relative paths given by a text -/
def Spec.TextRel (uni : Char → Bool) (text q : Str) : Prop :=
  Spec.Finds Spec.RelMatch [] text q ∨ Spec.Finds (Spec.NameMatch uni) [] text q ∨ Spec.Finds Spec.TemplateMatch [] text q ∨
  Spec.Finds Spec.MapMatch [] text q

/-! ## JSON files -/

/-- `v` is an object with this key, a list with this string, or a string that contains it. -/
def Spec.JHas (key : Str) (v : Json) : Prop :=
  (∃ d x, v = .obj d ∧ (key, x) ∈ d) ∨ (∃ l, v = .arr l ∧ Json.str key ∈ l) ∨ ∃ a b, v = .str (a ++ key ++ b)

/-- Value of a key of an object (the first one: keys of objects are distinct) -/
def Spec.JField (key : Str) (v x : Json) : Prop := ∃ a b, v = .obj (a ++ (key, x) :: b) ∧ ∀ kv ∈ a, kv.1 ≠ key

/-- What iterating on a value gives: the keys of an object, the elements of a list or the characters of a string -/
def Spec.JItem (v x : Json) : Prop :=
  (∃ d k y, v = .obj d ∧ (k, y) ∈ d ∧ x = .str k) ∨ (∃ l, v = .arr l ∧ x ∈ l) ∨ ∃ s c, v = .str s ∧ c ∈ s ∧ x = .str [c]

/-- Objects, lists and strings -/
def Spec.JContainer (v : Json) : Prop := (∃ d, v = .obj d) ∨ (∃ l, v = .arr l) ∨ ∃ s, v = .str s

/-- `-splash-(name)`, up to a dot -/
def Spec.SplashMatch (_ w r q : Str) : Prop := w = "-splash-".toList ++ q ∧ Spec.Run (fun c => c ≠ '.') q r

/-- Files of all plugins -/
def Spec.pluginFiles : List Str := ["index.html".toList, "init.js".toList, "init.js.map".toList, "bundle.js".toList, "trans.json".toList,
  "css/main.css".toList, "license.json".toList]

/-- The description of a plugin -/
def Spec.IsPlugin (v : Json) : Prop := Spec.JHas "pluginDependencies".toList v ∧ Spec.JHas "name".toList v

/-- A splash configuration -/
def Spec.IsSplash (v : Json) : Prop := ¬ Spec.IsPlugin v ∧ Spec.JHas "musicVolume".toList v ∧ Spec.JHas "files".toList v

/-- The translations of the loot: keys are names of images. -/
def Spec.lootPath : Str := "plugins/rcp-fe-lol-loot/global/default/trans.json".toList

/-- The summary of champions -/
def Spec.summaryPath : Str := "plugins/rcp-be-lol-game-data/global/default/v1/champion-summary.json".toList

/-- Images of the loot -/
def Spec.LootCand (lib : TextLib) (v : Json) (q : Str) : Prop := ∃ k, Spec.JItem v k ∧
  q = "plugins/rcp-be-lol-game-data/global/default/v1/hextech-images/".toList ++ k.format lib.repr ++ ".png".toList

/-- Files of a plugin -/
def Spec.PluginCand (lib : TextLib) (v : Json) (q : Str) : Prop := ∃ name f, Spec.JField "name".toList v name ∧ f ∈ Spec.pluginFiles ∧
  q = "plugins/".toList ++ name.format lib.repr ++ "/global/default/".toList ++ f

/-- Files of a splash -/
def Spec.SplashCand (v : Json) (q : Str) : Prop := ∃ files k p name, Spec.JField "files".toList v (.obj files) ∧ (k, .str p) ∈ files ∧
  Spec.Finds Spec.SplashMatch [] p name ∧
  (q = "plugins/rcp-fe-lol-splash/global/default/splash-assets/".toList ++ lower name ++ "/config.json".toList ∨
    ∃ k' p', (k', .str p') ∈ files ∧
      q = "plugins/rcp-fe-lol-splash/global/default/splash-assets/".toList ++ lower name ++ '/' :: lower p')

/-- Files of champions -/
def Spec.SummaryCand (lib : TextLib) (v : Json) (q : Str) : Prop := ∃ x i, Spec.JItem v x ∧ Spec.JField "id".toList x i ∧
  (q = "plugins/rcp-be-lol-game-data/global/default/v1/champions/".toList ++ i.format lib.repr ++ ".json".toList ∨
    q = "plugins/rcp-be-lol-game-data/global/default/v1/champion-splashes/".toList ++ i.format lib.repr ++ "/metadata.json".toList)

/-- Recommended items -/
def Spec.DefaultsCand (v : Json) (q : Str) : Prop := ∃ x p, Spec.JField "recommendedItemDefaults".toList v x ∧ Spec.JItem x (.str p) ∧
  q = "plugins/rcp-be-lol-game-data/global/default".toList ++ lower p

open Classical in
/-- Paths given by the value of a JSON file -/
def Spec.JsonCand (lib : TextLib) (path : Option Str) (v : Json) (q : Str) : Prop :=
  if path = some Spec.lootPath then Spec.LootCand lib v q
  else if Spec.IsPlugin v then Spec.PluginCand lib v q
  else if Spec.IsSplash v then Spec.SplashCand v q
  else if path = some Spec.summaryPath then Spec.SummaryCand lib v q
  else Spec.DefaultsCand v q

/-- The text of these files is not searched. -/
def Spec.JsonOnly (path : Option Str) (v : Json) : Prop := path = some Spec.lootPath ∨ Spec.IsSplash v

open Classical in
/-- A value has the structure that is expected. -/
def Spec.JsonFine (path : Option Str) (v : Json) : Prop :=
  Spec.JContainer v ∧ (path ≠ some Spec.lootPath →
    if Spec.IsPlugin v then ∃ d, v = .obj d
    else if Spec.IsSplash v then ∃ files, Spec.JField "files".toList v (.obj files) ∧ ∀ kx ∈ files, ∃ p, kx.2 = .str p
    else if path = some Spec.summaryPath then ∀ x, Spec.JItem v x → ∃ i, Spec.JField "id".toList x i
    else Spec.JHas "recommendedItemDefaults".toList v → ∃ x, Spec.JField "recommendedItemDefaults".toList v x ∧ Spec.JContainer x ∧
      ∀ y, Spec.JItem x y → ∃ p, y = .str p)

/-- The value of a JSON file, except `null` -/
def Spec.ValueOf (lib : TextLib) (ext : Option Str) (text : Str) (v : Json) : Prop :=
  ext = some "json".toList ∧ lib.loads text = some v ∧ v ≠ .null

/-! ## WADs -/

/-- Extensions of files that are not searched -/
def Spec.binaryExts : List Str := ["png".toList, "jpg".toList, "ttf".toList, "webm".toList, "ogg".toList, "dds".toList, "tga".toList]

/-- The text of a file of a WAD: not empty, in UTF-8 after an optional mark -/
def Spec.TextOf (cx : Codecs) (file : Bytes) (w : WadEntry) (text : Str) : Prop := (∀ e ∈ Spec.binaryExts, w.ext ≠ some e) ∧ text ≠ [] ∧
  ∃ b, readData cx w file none = .ok (some b) ∧
    ((∃ t, b = 0xef :: 0xbb :: 0xbf :: t ∧ utf8 t = .ok text) ∨ ((∀ t, b ≠ 0xef :: 0xbb :: 0xbf :: t) ∧ utf8 b = .ok text))

/-- The file can be read: it is not a redirection, and reading it does not fail. -/
def Spec.ReadableText (cx : Codecs) (file : Bytes) (w : WadEntry) : Prop :=
  (∃ e ∈ Spec.binaryExts, w.ext = some e) ∨ readData cx w file none = .error .unicode ∨ ∃ b, readData cx w file none = .ok (some b)

/-- A file that does not stop the search -/
def Spec.LcuFine (lib : TextLib) (cx : Codecs) (file : Bytes) (w : WadEntry) : Prop := Spec.ReadableText cx file w ∧
  ∀ text v, Spec.TextOf cx file w text → Spec.ValueOf lib w.ext text v → Spec.JsonFine w.path v

/-- Full paths given by a file -/
def Spec.LcuCand (lib : TextLib) (cx : Codecs) (file : Bytes) (w : WadEntry) (q : Str) : Prop := ∃ text, Spec.TextOf cx file w text ∧
  ((∃ v, Spec.ValueOf lib w.ext text v ∧ Spec.JsonCand lib w.path v q) ∨
    ((∀ v, Spec.ValueOf lib w.ext text v → ¬ Spec.JsonOnly w.path v) ∧ Spec.TextPath lib.uni text q))

/-- Relative paths given by a file -/
def Spec.LcuRel (lib : TextLib) (cx : Codecs) (file : Bytes) (w : WadEntry) (q : Str) : Prop := ∃ text, Spec.TextOf cx file w text ∧
  (∀ v, Spec.ValueOf lib w.ext text v → ¬ Spec.JsonOnly w.path v) ∧ Spec.TextRel lib.uni text q

end Cdtb
