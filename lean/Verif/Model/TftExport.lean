import Verif.Model.TftBin
import Verif.Model.Arena
import Verif.Model.Version
/-!
# Model of the export of TFT data (cdtb/tftdata.py:34-126), and of the exports of game data of a patch (cdtb/export.py:388-403)
-/
namespace Cdtb
set_option autoImplicit false
open Py

/-- The part of an object of the output that is not translated -/
inductive TftPart where
  | trait (t : TraitData)
  | champ (c : ChampData)
  | item (i : ItemData)

/-- What the export depends on: `json_dump` of a template (cdtb/tftdata.py:101-102) and what reading files depends on -/
structure TftOutLib where
  tft : TftLib
  rst : RstEnv
  json : TftTemplate TftPart → List BodyStep

/-- A trait (cdtb/tftdata.py:369-375); names which are neither texts nor `None` are not modelled, here and below. -/
def traitObject (t : TraitData) : Res (TftTrait TftPart) := do
  let name ← optText t.name
  let desc ← optText t.desc
  .ok { name, desc, data := .trait t }

/-- A champion: cdtb/tftdata.py:309-337 -/
def champObject (c : ChampData) : Res (TftChamp TftPart) := do
  let name ← optText c.name
  let traits ← c.traits.mapM optText
  let abilityName ← optText c.abilityName
  let abilityDesc ← optText c.abilityDesc
  .ok { name, traits, abilityName, abilityDesc, data := .champ c }

/-- An item: cdtb/tftdata.py:213-226 -/
def itemObject (i : TftItem ItemData) : TftItem TftPart :=
  { id := i.id, name := i.name, apiName := i.apiName, desc := i.desc, composition := i.composition, associatedTraits := i.associatedTraits
    incompatibleTraits := i.incompatibleTraits, «from» := i.from, data := .item i.data }

/-- A text (cdtb/tftdata.py:194-197); other values are not modelled. -/
def textRes : BinPy → Res Str
  | .value (.str s) => .ok s
  | _ => .error .type

/-- The number of a set (cdtb/tftdata.py:153); other values than integers are not modelled. -/
def intRes : BinPy → Res Int
  | .value (.int n) => .ok n
  | _ => .error .type

/-- A set, its traits being objects (cdtb/tftdata.py:197); they are at the position of their path in the dict of traits. -/
def setObject (paths : List Nat) (s : SetDef) : Res TftSet := do
  let number ← intRes s.number
  let mutator ← optText s.mutator
  let name ← optText s.name
  let augments ← s.augments.mapM textRes
  let items ← s.items.mapM textRes
  .ok { number, mutator, name, chars := s.chars, traits := s.traits.map fun x => paths.idxOf x.1, augments, items }

/-- The objects of champions (cdtb/tftdata.py:309, 110-111): positions in the dict of champions -/
def champRefs (champs : Dict Str ChampData) : Dict Str Nat := champs.keys.map fun n => (n, champs.keys.idxOf n)

/-- What `build_template` returns from parsed data: cdtb/tftdata.py:50-57, 104-126 -/
def templateOf (traits : Dict Nat TraitData) (sets : List SetDef) (champs : Dict Str ChampData) (items : List (TftItem ItemData)) : Res (TftTemplate TftPart) := do
  let traitObjects ← traits.values.mapM traitObject
  let champObjects ← champs.values.mapM champObject
  let setObjects ← sets.mapM (setObject traits.keys)
  let out := buildOutputSets setObjects (champRefs champs)
  .ok { traits := traitObjects, champs := champObjects, sets := out.1, setData := out.2, items := items.map itemObject }

/-- The path of the BIN file of the map: cdtb/tftdata.py:42 -/
def map22Path (input : Str) : Str := pjoin input "data/maps/shipping/map22/map22.bin".toList

/-- `TftTransformer.build_template` (cdtb/tftdata.py:40-57); `order` is the iteration order of sets of paths. -/
def tftTemplate (lib : TftLib) (order : List Nat → List Nat) (fs : FS) (input : Str) : Res (TftTemplate TftPart) := do
  let data ← fs.readFile (map22Path input)
  let bin ← parseBin none data
  let names ← parseCharacterNames lib bin.entries
  let traits ← parseTraits lib bin.entries
  let sets ← parseSets lib order bin.entries names traits
  let champs ← parseChamps lib fs input bin.entries traits
  let items ← parseItemEntries lib bin.entries
  templateOf traits sets champs items

/-- `load_translations(stringtables[lang], self.game_version)`: cdtb/tftdata.py:76 -/
def tftTable (lib : TftOutLib) (version : Nat) (tables : Dict Str Str) (fs : FS) (lang : Str) : Res TrTable :=
  match tables.get? lang with
  | none => .error .key
  | some path => do
    let data ← fs.readFile path
    loadTranslations lib.rst version data

/-- The loop on languages: cdtb/tftdata.py:74-102; `f i` are the faults of the `i`-th file that is written. -/
def tftLangs (lib : TftOutLib) (version : Nat) (tables : Dict Str Str) (template : TftTemplate TftPart) (output : Str) (f : Nat → WriteFaults) :
    Nat → FS → List Str → FS × Res Unit
  | _, fs, [] => (fs, .ok ())
  | i, fs, lang :: langs =>
    match tftTable lib version tables fs lang with
    | .error e => (fs, .error e)
    | .ok t => match openAndWrite fs (pjoin output (lang ++ ".json".toList)) (lib.json (template.translate (t.tr lib.rst))) (f i) with
      | (fs', .ok ()) => tftLangs lib version tables template output f (i + 1) fs' langs
      | (fs', .error e) => (fs', .error e)

/-- `TftTransformer.export`: cdtb/tftdata.py:59-102; `mk` is a failure of the creation of the output directory. -/
def tftExportFiles (lib : TftOutLib) (version : Nat) (order : List Nat → List Nat) (ls : Str → List Str) (input output : Str) (langs : Option (List Str))
    (mk : Option (Nat × Err)) (f : Nat → WriteFaults) (fs : FS) : FS × Res Unit :=
  match stringTables fs ls input "tft".toList with
  | .error e => (fs, .error e)
  | .ok tables => match fs.makedirs output mk with
    | (fs1, .error e) => (fs1, .error e)
    | (fs1, .ok ()) => match tftTemplate lib.tft order fs1 input with
      | .error e => (fs1, .error e)
      | .ok template => tftLangs lib version tables template output f 0 fs1 (langs.getD tables.keys)

/-! ## Exports of a patch -/

/-- `self.patch.version != 'main' and self.patch.version < PatchVersion(v)` (cdtb/export.py:389, 398) -/
def tooOld (v : Version) (min : Str) : Res Bool :=
  if v.ne (.str "main".toList) then do
    let m ← patchVersion (.str min)
    v.cmp .lt m
  else .ok false

/-- `export_tft_data`: cdtb/export.py:388-395; a negative number of version is not modelled. -/
def exportTftData (lib : TftOutLib) (order : List Nat → List Nat) (ls : Str → List Str) (version : Version) (output : Str) (mk : Option (Nat × Err))
    (f : Nat → WriteFaults) (fs : FS) : FS × Res Unit :=
  match tooOld version "9.14".toList with
  | .error e => (fs, .error e)
  | .ok true => (fs, .ok ())
  | .ok false => match version.asInt with
    | .error e => (fs, .error e)
    | .ok n => tftExportFiles lib n.toNat order ls (pjoin output "game".toList) (pjoin output "cdragon/tft".toList) none mk f fs

/-- `export_arena_data`: cdtb/export.py:397-403; the version used to read string tables is the default one (cdtb/arenadata.py:10). -/
def exportArenaData (lib : ArenaLib) (ls : Str → List Str) (version : Version) (output : Str) (mk : Option (Nat × Err)) (f : Nat → WriteFaults) (fs : FS) : FS × Res Unit :=
  match tooOld version "13.14".toList with
  | .error e => (fs, .error e)
  | .ok true => (fs, .ok ())
  | .ok false => arenaExport lib 1502 ls (pjoin output "game".toList) (pjoin output "cdragon/arena".toList) none mk f fs

end Cdtb
