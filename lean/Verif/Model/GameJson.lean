import Verif.Model.TftExport
import Verif.Model.JsonText
import Verif.Model.Args
/-!
# Model of the JSON files of TFT and Arena data, and of the two scripts (cdtb/arenadata.py:52-53, 92-107; cdtb/tftdata.py:101-102, 380-395)

`json_dump(instance, f, indent=4, sort_keys=True, ensure_ascii=False)`: data are turned into the values the library knows (`TypeError` for objects of the package),
members of dicts are sorted by key, and the text is written in UTF-8.
-/
namespace Cdtb
set_option autoImplicit false
open Py

/-! ## Values the library can write -/

/-- A value of a BIN file, for `json_dump` (cdtb/arenadata.py:53, cdtb/tftdata.py:102). Objects (hashes, lists in lists, structures, options, maps) cannot be
written: `TypeError`. -/
def jsonValue : BinValue → Res Ser
  | .tuple l => .ok (.tuple l)
  | .bool b => .ok (.bool b)
  | .int n => .ok (.int n)
  | .float b => .ok (.float b)
  | .floats l => .ok (.floats l)
  | .matrix rows => .ok (.matrix rows)
  | .str s => .ok (.str s)
  | _ => .error .type

/-- A key of a dict (cdtb/arenadata.py:71): texts, integers and `None`. Other keys are not modelled: the standard library raises `TypeError` for objects, `ujson` writes
`str(key)`. -/
def jsonKey : BinPy → Res Ser
  | .value (.str s) => .ok (.str s)
  | .value (.int n) => .ok (.int n)
  | .none => .ok .none
  | _ => .error .type

/-- A key and a value of a map (`BinMap.values`) -/
def jsonPair : BinPair → Res (Ser × Ser)
  | .mk k v => do
    let k ← jsonKey (.value k)
    let v ← jsonValue v
    .ok (k, v)

/-- A value returned by `getv`, for `json_dump` (cdtb/arenadata.py:53, cdtb/tftdata.py:102) -/
def jsonPy : BinPy → Res Ser
  | .none => .ok .none
  | .value v => jsonValue v
  | .list l => do
    let l ← l.mapM jsonValue
    .ok (.list l)
  | .dict l => do
    let l ← l.mapM jsonPair
    .ok (.dict l)
  | _ => .error .type

/-- A dict of values -/
def jsonVars (d : Dict Str BinPy) : Res Ser := do
  let l ← d.mapM fun kv => (jsonPy kv.2).map fun s => (kv.1, s)
  .ok (.obj l)

/-- A text or `None` -/
def jsonOptText : Option Str → Ser
  | some s => .str s
  | none => .none

/-- An integer or `None` -/
def jsonOptInt : Option Int → Ser
  | some n => .int n
  | none => .none

/-! ## Arena -/

/-- The dict of an augment: cdtb/arenadata.py:77-88 -/
def augmentSer (a : Augment) : Res Ser := do
  let id ← jsonPy a.id
  let apiName ← jsonPy a.apiName
  let name ← jsonPy a.name
  let desc ← jsonPy a.desc
  let tooltip ← jsonPy a.tooltip
  let rarity ← jsonPy a.rarity
  let values ← a.dataValues.mapM fun kv => do
    let k ← jsonKey kv.1
    let v ← jsonPy kv.2
    .ok (k, v)
  .ok (.obj [("id".toList, id), ("apiName".toList, apiName), ("name".toList, name), ("desc".toList, desc), ("tooltip".toList, tooltip),
    ("iconSmall".toList, .str a.iconSmall), ("iconLarge".toList, .str a.iconLarge), ("rarity".toList, rarity), ("dataValues".toList, .dict values),
    ("calculations".toList, a.calculations)])

/-- The template: cdtb/arenadata.py:22-24 -/
def arenaSer (as : List Augment) : Res Ser := do
  let l ← as.mapM augmentSer
  .ok (.obj [("augments".toList, .list l)])

/-! ## TFT -/

/-- An effect of a trait: cdtb/tftdata.py:362-367 -/
def effectSer (e : TraitEffect) : Res Ser := do
  let min ← jsonPy e.minUnits
  let max ← jsonPy e.maxUnits
  let style ← jsonPy e.style
  let vars ← jsonVars e.vars
  .ok (.obj [("minUnits".toList, min), ("maxUnits".toList, max), ("style".toList, style), ("variables".toList, vars)])

/-- A trait: cdtb/tftdata.py:369-375 (the other cases do not exist) -/
def traitSer (t : TftTrait TftPart) : Res Ser :=
  match t.data with
  | .trait d => do
    let apiName ← jsonPy d.apiName
    let effects ← d.effects.mapM effectSer
    .ok (.obj [("apiName".toList, apiName), ("name".toList, jsonOptText t.name), ("desc".toList, jsonOptText t.desc), ("icon".toList, .str d.icon),
      ("effects".toList, .list effects)])
  | _ => .error .type

/-- Statistics of a champion: cdtb/tftdata.py:319-330 -/
def statsSer (s : ChampStats) : Res Ser := do
  let hp ← jsonPy s.hp
  let mana ← jsonPy s.mana
  let initialMana ← jsonPy s.initialMana
  let damage ← jsonPy s.damage
  let armor ← jsonPy s.armor
  let magicResist ← jsonPy s.magicResist
  let critMultiplier ← jsonPy s.critMultiplier
  let critChance ← jsonPy s.critChance
  let attackSpeed ← jsonPy s.attackSpeed
  let range ← jsonPy s.range
  .ok (.obj [("hp".toList, hp), ("mana".toList, mana), ("initialMana".toList, initialMana), ("damage".toList, damage), ("armor".toList, armor),
    ("magicResist".toList, magicResist), ("critMultiplier".toList, critMultiplier), ("critChance".toList, critChance), ("attackSpeed".toList, attackSpeed),
    ("range".toList, range)])

/-- A variable of an ability: cdtb/tftdata.py:284 -/
def variableSer (v : BinPy × BinPy) : Res Ser := do
  let name ← jsonPy v.1
  let value ← jsonPy v.2
  .ok (.obj [("name".toList, name), ("value".toList, value)])

/-- A champion: cdtb/tftdata.py:309-337 (the other cases do not exist) -/
def champSer (c : TftChamp TftPart) : Res Ser :=
  match c.data with
  | .champ d => do
    let apiName ← jsonPy d.apiName
    let characterName ← jsonPy d.characterName
    let cost ← jsonPy d.cost
    let icon ← jsonPy d.icon
    let role ← jsonPy d.role
    let stats ← statsSer d.stats
    let abilityIcon ← jsonPy d.abilityIcon
    let vars ← d.abilityVars.mapM variableSer
    .ok (.obj [("apiName".toList, apiName), ("characterName".toList, characterName), ("name".toList, jsonOptText c.name), ("cost".toList, cost),
      ("icon".toList, icon), ("tileIcon".toList, .str d.tileIcon), ("squareIcon".toList, .str d.squareIcon),
      ("traits".toList, .list (c.traits.map jsonOptText)), ("role".toList, role), ("stats".toList, stats),
      ("ability".toList, .obj [("name".toList, jsonOptText c.abilityName), ("desc".toList, jsonOptText c.abilityDesc), ("icon".toList, abilityIcon),
        ("variables".toList, .list vars)])])
  | _ => .error .type

/-- An item: cdtb/tftdata.py:213-226, 231-239 (the other cases do not exist) -/
def itemSer (i : TftItem TftPart) : Res Ser :=
  match i.data with
  | .item d => do
    let isAugment ← jsonPy d.isAugment
    let unique ← jsonPy d.unique
    let effects ← jsonVars d.effects
    .ok (.obj [("id".toList, jsonOptInt i.id), ("name".toList, jsonOptText i.name), ("apiName".toList, jsonOptText i.apiName), ("desc".toList, jsonOptText i.desc),
      ("icon".toList, .str d.icon), ("isAugment".toList, isAugment), ("unique".toList, unique),
      ("composition".toList, .list (i.composition.map jsonOptText)), ("associatedTraits".toList, .list (i.associatedTraits.map jsonOptText)),
      ("incompatibleTraits".toList, .list (i.incompatibleTraits.map jsonOptText)), ("effects".toList, effects), ("tags".toList, .list (d.tags.map .str)),
      ("from".toList, match i.from with
        | some l => .list (l.map jsonOptInt)
        | none => .none)])
  | _ => .error .type

/-- The object at a position: objects are shared in Python, and written each time. Positions are always those of an object. -/
def objectAt {α : Type} (ser : α → Res Ser) (l : List α) (i : Nat) : Res Ser :=
  match l[i]? with
  | some x => ser x
  | none => .error .index

/-- An entry of `sets`: cdtb/tftdata.py:121-125 -/
def setInfoSer (t : TftTemplate TftPart) (s : TftSetInfo) : Res Ser := do
  let ts ← s.traits.mapM (objectAt traitSer t.traits)
  let cs ← s.champions.mapM (objectAt champSer t.champs)
  .ok (.obj [("name".toList, jsonOptText s.name), ("traits".toList, .list ts), ("champions".toList, .list cs)])

/-- An entry of `setData`: cdtb/tftdata.py:112-120 -/
def setDataSer (t : TftTemplate TftPart) (s : TftSetData) : Res Ser := do
  let ts ← s.traits.mapM (objectAt traitSer t.traits)
  let cs ← s.champions.mapM (objectAt champSer t.champs)
  .ok (.obj [("number".toList, .int s.number), ("mutator".toList, jsonOptText s.mutator), ("name".toList, jsonOptText s.name), ("traits".toList, .list ts),
    ("champions".toList, .list cs), ("augments".toList, .list (s.augments.map .str)), ("items".toList, .list (s.items.map .str))])

/-- The template: cdtb/tftdata.py:53-57 -/
def tftSer (t : TftTemplate TftPart) : Res Ser := do
  let sets ← t.sets.mapM fun kv => (setInfoSer t kv.2).map fun s => (Ser.int kv.1, s)
  let setData ← t.setData.mapM (setDataSer t)
  let items ← t.items.mapM itemSer
  .ok (.obj [("sets".toList, .dict sets), ("setData".toList, .list setData), ("items".toList, .list items)])

/-! ## `sort_keys=True` -/

/-- The text of a key, if it is one -/
def Ser.text? : Ser → Option Str
  | .str s => some s
  | _ => Option.none

/-- The integer of a key, if it is one -/
def Ser.int? : Ser → Option Int
  | .int n => some n
  | _ => Option.none

/-- `sorted(dct.items())` (`sort_keys`, cdtb/arenadata.py:53): texts by code points, or integers; `TypeError` when both are in a dict. Other keys that Python can compare
(floats, booleans, tuples) are not modelled. -/
def sortItems (d : List (Ser × Ser)) : Res (List (Ser × Ser)) :=
  if d.length ≤ 1 then .ok d
  else if d.all fun kv => kv.1.text?.isSome then .ok (d.insertionSort fun a b => a.1.text?.getD [] ≤ b.1.text?.getD [])
  else if d.all fun kv => kv.1.int?.isSome then .ok (d.insertionSort fun a b => a.1.int?.getD 0 ≤ b.1.int?.getD 0)
  else .error .type

mutual
/-- `sort_keys=True` at all levels (cdtb/arenadata.py:53, cdtb/tftdata.py:102) -/
def sortKeys : Ser → Res Ser
  | .list l => do
    let l ← sortList l
    .ok (.list l)
  | .obj d => do
    let d ← sortObj d
    .ok (.obj (d.insertionSort fun a b => a.1 ≤ b.1))
  | .dict d => do
    let d ← sortDict d
    let d ← sortItems d
    .ok (.dict d)
  | s => .ok s
/-- The items of a list -/
def sortList : List Ser → Res (List Ser)
  | [] => .ok []
  | s :: l => do
    let s ← sortKeys s
    let l ← sortList l
    .ok (s :: l)
/-- The values of a dict with string keys -/
def sortObj : List (Str × Ser) → Res (List (Str × Ser))
  | [] => .ok []
  | (k, s) :: l => do
    let s ← sortKeys s
    let l ← sortObj l
    .ok ((k, s) :: l)
/-- The values of a dict -/
def sortDict : List (Ser × Ser) → Res (List (Ser × Ser))
  | [] => .ok []
  | (k, s) :: l => do
    let s ← sortKeys s
    let l ← sortDict l
    .ok ((k, s) :: l)
end

/-! ## Files -/

/-- The standard library with `indent=4` (cdtb/tools.py:17-19, cdtb/arenadata.py:53, cdtb/tftdata.py:102) -/
def stdJson4 (showF : Nat → Str) : JsonWriter :=
  { stdJson false showF with
    openWs := fun n => '\n' :: List.replicate (4 * n) ' '
    commaWs := fun n => '\n' :: List.replicate (4 * n) ' '
    closeWs := fun n => '\n' :: List.replicate (4 * n) ' ' }

/-- `json_dump(instance, f, indent=4, sort_keys=True, ensure_ascii=False)` in a file opened with `encoding="utf-8"` (cdtb/arenadata.py:52-53, cdtb/tftdata.py:101-102).
The text is written at once (the standard library writes it in several parts). -/
def JsonWriter.sortedBody (w : JsonWriter) (s : Res Ser) : List BodyStep :=
  match s.bind sortKeys with
  | .error e => [.raise e]
  | .ok s => w.textBody s

/-- Arena: cdtb/arenadata.py:52-53 -/
def JsonWriter.arenaBody (w : JsonWriter) (as : List Augment) : List BodyStep := w.sortedBody (arenaSer as)

/-- TFT: cdtb/tftdata.py:101-102 -/
def JsonWriter.tftBody (w : JsonWriter) (t : TftTemplate TftPart) : List BodyStep := w.sortedBody (tftSer t)

/-! ## Scripts -/

/-- The parser of the scripts (cdtb/arenadata.py:94-98, cdtb/tftdata.py:382-386); `dir` is the default output directory -/
def scriptParser (dir : Str) : ParserDef :=
  ⟨[optHelp, optOne ["-o", "--output"] "output" (.str dir), optOne ["-V", "--patch-version"] "patch_version"], some ⟨"input".toList, .one none⟩⟩

/-- `PatchVersion(args.patch_version if args.patch_version else "main").as_int()` (cdtb/arenadata.py:101, cdtb/tftdata.py:389) -/
def scriptVersion (arg : Option Str) : Res Int := do
  let v ← patchVersion (.str (match arg with
    | none => "main".toList
    | some [] => "main".toList
    | some s => s))
  v.asInt

/-- The texts of the arguments: input, output, version -/
def scriptArgs (ns : Dict Str ArgVal) : Str × Str × Option Str :=
  let text := fun k : String => (ns.get? k.toList).bind ArgVal.text?
  ((text "input").getD [], (text "output").getD [], text "patch_version")

/-- `main` (cdtb/arenadata.py:92-104): usage errors and help, or the export. Negative numbers of version are not modelled, here and below. -/
def arenaMain (lib : ArenaLib) (ls : Str → List Str) (mk : Option (Nat × Err)) (f : Nat → WriteFaults) (argv : List Str) (fs : FS) : Except ArgStop (FS × Res Unit) := do
  let ns ← (scriptParser "arena".toList).parse argv
  let (input, output, version) := scriptArgs ns
  match scriptVersion version with
  | .error e => .ok (fs, .error e)
  | .ok n => .ok (arenaExport lib n.toNat ls input output none mk f fs)

/-- `main` (cdtb/tftdata.py:380-392): usage errors and help, or the export -/
def tftMain (lib : TftOutLib) (order : List Nat → List Nat) (ls : Str → List Str) (mk : Option (Nat × Err)) (f : Nat → WriteFaults) (argv : List Str) (fs : FS) :
    Except ArgStop (FS × Res Unit) := do
  let ns ← (scriptParser "tft".toList).parse argv
  let (input, output, version) := scriptArgs ns
  match scriptVersion version with
  | .error e => .ok (fs, .error e)
  | .ok n => .ok (tftExportFiles lib n.toNat order ls input output none mk f fs)

end Cdtb
