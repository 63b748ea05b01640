import Verif.Model.Guess
/-!
# Model of cdtb/hashes.py: substitution of parts of paths (lines 387-399, 430-439, 624-693, 721-789) and cdtb/data.py

Regular expressions are modelled by functions on characters; `.` and `$` are modelled for paths without newlines. The order of sets is
the order of lists.
-/
namespace Cdtb
set_option autoImplicit false
open Py

/-- `REGIONS`: cdtb/data.py:4-5 -/
def regionNames : List Str := ["br", "cn", "eun", "eune", "euw", "garena2", "garena3", "id", "jp", "kr", "la", "la1", "la2", "lan", "las", "me1",
  "na", "oc", "oc1", "oce", "pbe", "ph", "ph2", "ru", "sg", "sg2", "tencent", "th", "th2", "tr", "tw", "tw2", "vn", "vn2"].map String.toList

/-- Values of `Language`: cdtb/data.py:7-39 -/
def languageNames : List Str := ["ar_ae", "ar_eg", "cs_cz", "de_de", "el_gr", "en_au", "en_gb", "en_ph", "en_pl", "en_sg", "en_us", "es_ar",
  "es_es", "es_mx", "fr_fr", "hu_hu", "id_id", "it_it", "ja_jp", "ko_kr", "ms_my", "pl_pl", "pt_br", "ro_ro", "ru_ru", "th_th", "tr_tr",
  "vi_vn", "vn_vn", "zh_cn", "zh_my", "zh_tw"].map String.toList

/-- The rest of a string after a prefix -/
def afterPrefix (p s : Str) : Option Str := if startsWith s p then some (s.drop p.length) else none

/-- `re.subn(pattern, new, s)`, where `m` gives the length of the match at the start of a string (not 0) -/
def subn (m : Str → Option Nat) (new : Str) : Nat → Str → Str × Nat
  | _, [] => ([], 0)
  | k + 1, _ :: r => subn m new k r
  | 0, c :: r => match m (c :: r) with
    | none =>
      let x := subn m new 0 r
      (c :: x.1, x.2)
    | some n =>
      let x := subn m new (n - 1) r
      (new ++ x.1, x.2 + 1)

/-! ## Client paths -/

/-- `[^/]+/` at the start of a string: the name and the rest -/
def matchDir (s : Str) : Option (Str × Str) :=
  let n := s.takeWhile (· ≠ '/')
  match s.dropWhile (· ≠ '/') with
  | _ :: r => if n ≠ [] then some (n, r) else none
  | [] => none

/-- `p.split('/', 2)[1]` for a path that starts with `plugins/`: cdtb/hashes.py:434 -/
def pluginOf (p : Str) : Str := (p.drop "plugins/".toList.length).takeWhile (· ≠ '/')

/-- `re.sub(r'^plugins/([^/]+)/', r'plugins/%s/', p)`: cdtb/hashes.py:435 -/
def pluginFormat (p : Str) : Str := match afterPrefix "plugins/".toList p with
  | none => p
  | some s => match matchDir s with
    | none => p
    | some (_, r) => "plugins/%s/".toList ++ r

/-- `LcuHashGuesser.substitute_plugin`: cdtb/hashes.py:430-439 -/
def Guesser.substitutePlugin (H : Str → Int) (g : Guesser) : Guesser × Res Unit :=
  let allPaths := g.known.values.filter fun p => startsWith p "plugins/".toList
  let plugins := (allPaths.map pluginOf).dedup
  g.checkFormats H (plugins.map fun p => [.str p]) (sortedSet (allPaths.map pluginFormat))

/-- `regex.sub(replacement, p)`, with the pattern `^plugins/([^/]+)/[^/]+/[^/]+/`: cdtb/hashes.py:393, 398-399 -/
def setRegionLang (region lang p : Str) : Str := match afterPrefix "plugins/".toList p with
  | none => p
  | some s => match matchDir s with
    | none => p
    | some (n, s) => match matchDir s with
      | none => p
      | some (_, s) => match matchDir s with
        | none => p
        | some (_, s) => "plugins/".toList ++ n ++ '/' :: region ++ '/' :: lang ++ '/' :: s

/-- `LcuHashGuesser.substitute_region_lang`: cdtb/hashes.py:387-399 -/
def Guesser.substituteRegionLang (H : Str → Int) (g : Guesser) : Guesser :=
  let regions := regionNames ++ ["global".toList]
  let langs := languageNames ++ ["default".toList]
  let known := g.known.values
  (regions.flatMap fun r => langs.map fun l => (r, l)).foldl (fun g rl => g.checkIter H (known.map (setRegionLang rl.1 rl.2))) g

/-! ## Game paths -/

/-- A match of `(ar_ae|ar_eg|...)`: all the alternatives have the same length: cdtb/hashes.py:688 -/
def matchLang (s : Str) : Option Nat := if s.take 5 ∈ languageNames then some 5 else none

/-- `GameHashGuesser.substitute_lang`: cdtb/hashes.py:684-693 -/
def Guesser.substituteLang (H : Str → Int) (g : Guesser) : Guesser :=
  let formats := (g.known.values.filter fun p => finditer matchLang [] 0 p ≠ []).map fun p => (subn matchLang "{}".toList 0 p).1
  (sortedSet formats).foldl (fun g fmt => g.checkIter H (languageNames.map fun l => replaceGo "{}".toList l 0 fmt)) g

/-- `\.[^.]+$` -/
def isExt : Str → Bool
  | '.' :: e => e ≠ [] && '.' ∉ e
  | _ => false

/-- `(\.[^.]+)?(\.[^.]+)$`, the two groups: cdtb/hashes.py:669 -/
def matchSuffix : Str → Option (Str × Str)
  | '.' :: r =>
    let s := r.takeWhile (· ≠ '.')
    let e := r.dropWhile (· ≠ '.')
    if s ≠ [] && isExt e then some ('.' :: s, e) else if isExt ('.' :: r) then some ([], '.' :: r) else none
  | _ => none

/-- `^(.*?)(\.[^.]+)?(\.[^.]+)$`, the groups: cdtb/hashes.py:669 -/
def splitSuffix : Str → Option (Str × Str × Str)
  | [] => none
  | c :: r => match matchSuffix (c :: r) with
    | some (s, e) => some ([], s, e)
    | none => (splitSuffix r).map fun x => (c :: x.1, x.2)

/-- `GameHashGuesser.substitute_suffixes`: cdtb/hashes.py:664-682 -/
def Guesser.substituteSuffixes (H : Str → Int) (g : Guesser) : Guesser × Res Unit :=
  let ms := g.known.values.filterMap splitSuffix
  let suffixes := ([] :: (ms.map (·.2.1)).filter (· ≠ [])).dedup
  let formats := ms.map fun x => x.1 ++ "%s".toList ++ x.2.2
  g.checkFormats H (suffixes.map fun s => [.str s]) (sortedSet formats)

/-- `^(?:assets|data)/characters/([^/]+)/`: cdtb/hashes.py:629 -/
def matchCharacter (p : Str) : Option Str :=
  match (afterPrefix "assets/characters/".toList p).or (afterPrefix "data/characters/".toList p) with
  | none => none
  | some s => (matchDir s).map (·.1)

/-- `GameHashGuesser.substitute_character`: cdtb/hashes.py:624-640 -/
def Guesser.substituteCharacter (H : Str → Int) (g : Guesser) : Guesser :=
  let ms := g.known.values.filterMap fun p => (matchCharacter p).map fun c => (p, c)
  let characters := (ms.map (·.2)).dedup
  let formats := ms.map fun x => replaceGo x.2 "{}".toList 0 x.1
  (sortedSet formats).foldl (fun g fmt => g.checkIter H (characters.map fun s => replaceGo "{}".toList s 0 fmt)) g

/-- `base|skin\d+`: cdtb/hashes.py:646, 656 -/
def matchSkin (s : Str) : Option Nat :=
  if startsWith s "base".toList then some 4
  else match afterPrefix "skin".toList s with
    | none => none
    | some r =>
      let d := (r.takeWhile isDig).length
      if d ≠ 0 then some (4 + d) else none

/-- `/characters/([^/]+)/skins/(base|skin\d+)/` at the start of a string: cdtb/hashes.py:646. If the digits are not followed by a
slash then fewer digits are not either. -/
def matchSkinPath (s : Str) : Option (Str × Str) := match afterPrefix "/characters/".toList s with
  | none => none
  | some s => match matchDir s with
    | none => none
    | some (char, s) => match afterPrefix "skins/".toList s with
      | none => none
      | some s => match matchSkin s with
        | none => none
        | some n => if (s.drop n).head? = some '/' then some (char, s.take n) else none

/-- `regex.search(p)`: cdtb/hashes.py:646-648 -/
def searchSkinPath : Str → Option (Str × Str)
  | [] => none
  | c :: r => (matchSkinPath (c :: r)).or (searchSkinPath r)

/-- `itertools.combinations(l, n)` -/
def combinations {α : Type} : List α → Nat → List (List α)
  | _, 0 => [[]]
  | [], _ + 1 => []
  | x :: l, n + 1 => (combinations l n).map (x :: ·) ++ combinations l (n + 1)

/-- The known paths of a skin, with the character and the skin: cdtb/hashes.py:647-653 -/
def skinPaths (known : List Str) : List (Str × Str × Str) :=
  known.filterMap fun p => match searchSkinPath p with
    | none => none
    | some (char, skin) => if char = "sightward".toList then none else some (p, char, skin)

/-- The loop on formats of `substitute_skin_numbers`: cdtb/hashes.py:661-662 -/
def Guesser.checkSkinFormats (H : Str → Int) (skins : List Str) : Guesser → List (Str × Nat) → Guesser × Res Unit
  | g, [] => (g, .ok ())
  | g, (fmt, nocc) :: fmts => match g.checkGen H ((combinations skins nocc).map fun c => pyFormat fmt (c.map .str)) with
    | (g', .ok ()) => g'.checkSkinFormats H skins fmts
    | (g', .error e) => (g', .error e)

/-- The loop on characters of `substitute_skin_numbers`: cdtb/hashes.py:660-662 -/
def Guesser.checkSkinChars (H : Str → Int) (ps : List (Str × Str × Str)) : Guesser → List Str → Guesser × Res Unit
  | g, [] => (g, .ok ())
  | g, char :: chars =>
    let mine := ps.filter fun x => x.2.1 = char
    match g.checkSkinFormats H (mine.map (·.2.2)).dedup ((mine.map fun x => subn matchSkin "%s".toList 0 x.1).dedup) with
    | (g', .ok ()) => g'.checkSkinChars H ps chars
    | (g', .error e) => (g', .error e)

/-- `GameHashGuesser.substitute_skin_numbers`: cdtb/hashes.py:642-662 -/
def Guesser.substituteSkins (H : Str → Int) (g : Guesser) : Guesser × Res Unit :=
  let ps := skinPaths g.known.values
  g.checkSkinChars H ps (ps.map (·.2.1)).dedup

/-- `(.*)\.(png|jpg|json)$`: the groups -/
def splitLcuExt (s : Str) : Option (Str × Str) := match rsplit1 '.' s with
  | none => none
  | some (p, e) => if e = "png".toList || e = "jpg".toList || e = "json".toList then some (p, e) else none

/-- The candidate of `guess_from_lcu_hashes` for a path: cdtb/hashes.py:750-759 -/
def lcuCandidate (path : Str) : Option Str :=
  match afterPrefix "plugins/rcp-be-lol-game-data/global/default/".toList path with
  | none => none
  | some s => match splitLcuExt s with
    | none => none
    | some (p, e) =>
      if startsWith p "assets/".toList || startsWith p "data/".toList then
        some (if e = "json".toList then p ++ ".json".toList else p ++ ".dds".toList)
      else none

/-- `GameHashGuesser.guess_from_lcu_hashes`: cdtb/hashes.py:747-759, given the paths of the client hash file -/
def Guesser.guessFromLcu (H : Str → Int) (g : Guesser) (paths : List Str) : Guesser :=
  paths.foldl (fun g p => match lcuCandidate p with
    | none => g
    | some c => g.check H c) g

/-- `^assets/characters/([^/]+)/skins/skin(\d+)/`: cdtb/hashes.py:725 -/
def matchSkinNumber (p : Str) : Option (Str × Nat) := match afterPrefix "assets/characters/".toList p with
  | none => none
  | some s => match matchDir s with
    | none => none
    | some (char, s) => match afterPrefix "skins/skin".toList s with
      | none => none
      | some s =>
        let d := s.takeWhile isDig
        if d ≠ [] && (s.drop d.length).head? = some '/' then some (char, ((int10 d).getD 0).toNat) else none

/-- `char_to_skins`: cdtb/hashes.py:724-735, as the characters and skin numbers found, without skin 0 -/
def charSkins (known : List Str) : List (Str × Nat) :=
  known.filterMap fun p => match matchSkinNumber p with
    | none => none
    | some (char, n) => if char = "sightward".toList then none else some (char, n)

/-- The candidates of `guess_skin_groups_bin` for a character: cdtb/hashes.py:739-745 -/
def skinGroupNames (char : Str) (skins : List Nat) : List Str :=
  let strSkins := (skins.map fun i => "_skins_skin".toList ++ showNat 10 i).insertionSort (· ≤ ·)
  (List.range strSkins.length).flatMap fun n => (combinations strSkins (n + 1)).map fun p => "data/".toList ++ char ++ p.flatten ++ ".bin".toList

/-- `GameHashGuesser.guess_skin_groups_bin`: cdtb/hashes.py:721-745 -/
def Guesser.guessSkinGroups (H : Str → Int) (g : Guesser) : Guesser :=
  let cs := charSkins g.known.values
  (cs.map (·.1)).dedup.foldl (fun g char =>
    g.checkIter H (skinGroupNames char (0 :: (cs.filter fun x => x.1 = char).map (·.2)).dedup)) g

end Cdtb
