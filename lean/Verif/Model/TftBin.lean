import Verif.Model.PyData
import Verif.Model.Releases
import Verif.Model.Hashes
import Verif.Model.Tft
/-!
# Model of the parsing of BIN files in `cdtb/tftdata.py`

Names of fields and types are made of ASCII characters.
-/
namespace Cdtb
set_option autoImplicit false
open Py

/-- What the module depends on: lists of hashes, `repr` of values, `x // 180` on floats -/
structure TftLib where
  bin : BinEnv
  repr : BinPy → Str
  div180 : Nat → BinPy

/-- `str(v)` -/
def TftLib.str (lib : TftLib) (p : BinPy) : Str := strOf lib.bin lib.repr p

/-- `getv(h)` with a number (cdtb/binfile.py:161-166) -/
def fieldVH (fields : List BinField) (h : Nat) : Option BinPy := match getv fields (.int (Int.ofNat h)) with
  | .ok .default => none
  | .ok p => some p
  | .error _ => none

/-! ## Effects -/

/-- An item of `effectAmounts`: cdtb/tftdata.py:29 -/
def effectAmount (lib : TftLib) (p : BinPy) : Res (Str × BinPy) := do
  let fields ← fieldsOf p
  .ok (lib.str (fieldD fields "name".toList .none), fieldD fields "value".toList .none)

/-- An item of `constants`: cdtb/tftdata.py:31 -/
def effectConstant (lib : TftLib) (p : BinPair) : Res (Str × BinPy) := do
  let fields ← fieldsOf (.value p.value)
  .ok (lib.str (.value p.key), fieldD fields "mValue".toList .none)

/-- `v.items()`: only dicts have this method -/
def pyItems : BinPy → Res (List BinPair)
  | .dict l => .ok l
  | _ => .error .attribute

/-- `collect_effects`: cdtb/tftdata.py:25-32 -/
def collectEffects (lib : TftLib) (fields : List BinField) : Res (Dict Str BinPy) :=
  match fieldV fields "effectAmounts".toList with
  | some p => do
    let items ← iterPy p
    let l ← items.mapM (effectAmount lib)
    .ok (Dict.ofList l)
  | none => match fieldV fields "constants".toList with
    | some p => do
      let c ← fieldsOf p
      let items ← pyItems ((fieldVH c 0xdf085b93).getD (.dict []))
      let l ← items.mapM (effectConstant lib)
      .ok (Dict.ofList l)
    | none => .ok []

/-- `a | b` on dicts -/
def dictUnion (a b : Dict Str BinPy) : Dict Str BinPy := b.foldl (fun d x => d.set x.1 x.2) a

/-! ## Traits -/

/-- `"Template" in name` (cdtb/tftdata.py:347): a text. `TypeError` for `None`, numbers and hashes; lists and other values are not modelled. -/
def isTemplate : BinPy → Res Bool
  | .value (.str s) => .ok (containsSub s "Template".toList)
  | _ => .error .type

/-- An effect of a trait: cdtb/tftdata.py:362-367 -/
structure TraitEffect where
  minUnits : BinPy
  maxUnits : BinPy
  style : BinPy
  vars : Dict Str BinPy

/-- A trait of the output: cdtb/tftdata.py:369-375 -/
structure TraitData where
  apiName : BinPy
  name : BinPy
  desc : BinPy
  icon : Str
  effects : List TraitEffect

/-- The loop on innate sets: cdtb/tftdata.py:350-352 -/
def innateEffects (lib : TftLib) : Dict Str BinPy → List BinPy → Res (Dict Str BinPy)
  | d, [] => .ok d
  | d, p :: ps => do
    let fields ← fieldsOf p
    let e ← collectEffects lib fields
    innateEffects lib (dictUnion d e) ps

/-- The body of the loop on sets of a trait: cdtb/tftdata.py:361-367 -/
def traitEffect (lib : TftLib) (pre : Str) (base : Dict Str BinPy) (p : BinPy) : Res TraitEffect := do
  let fields ← fieldsOf p
  let e ← collectEffects lib fields
  let max := fieldD fields (pre ++ "MaxUnits".toList) .none
  .ok { minUnits := fieldD fields (pre ++ "MinUnits".toList) .none
        maxUnits := if pyTruthy max then max else .value (.int 25000)
        style := fieldD fields (pre ++ "Style".toList) (.value (.int 1))
        vars := dictUnion base e }

/-- The sets of a trait and the prefix of their fields: cdtb/tftdata.py:355-360 -/
def traitSets (fields : List BinField) : Str × BinPy := match fieldV fields "mTraitSets".toList with
  | some p => (['m'], p)
  | none => ([], fieldD fields "mConditionalTraitSets".toList (.list []))

/-- A trait that is not a template: cdtb/tftdata.py:350-375 -/
def traitOf (lib : TftLib) (fields : List BinField) : Res TraitData := do
  let innate ← iterPy (fieldD fields "InnateTraitSets".toList (.list []))
  let base ← innateEffects lib [] innate
  let sets ← iterPy (traitSets fields).2
  let effects ← sets.mapM (traitEffect lib (traitSets fields).1 base)
  .ok { apiName := fieldD fields "mName".toList .none
        name := fieldD fields "mDisplayNameTra".toList .none
        desc := fieldD fields "mDescriptionNameTra".toList .none
        icon := lib.str (fieldD fields "mIconPath".toList .none)
        effects }

/-- The loop on traits: cdtb/tftdata.py:346-375 -/
def traitsGo (lib : TftLib) : Dict Nat TraitData → List BinEntry → Res (Dict Nat TraitData)
  | d, [] => .ok d
  | d, e :: es => do
    let t ← isTemplate (fieldD e.fields "mName".toList .none)
    if t then traitsGo lib d es
    else do
      let x ← traitOf lib e.fields
      traitsGo lib (d.set e.path x) es

/-- `parse_traits`: cdtb/tftdata.py:341-377 -/
def parseTraits (lib : TftLib) (entries : List BinEntry) : Res (Dict Nat TraitData) :=
  traitsGo lib [] (entries.filter fun e => isType lib.bin e "TftTraitData".toList)

/-! ## Names of characters -/

/-- `v.lower()`: texts have this method (hashes, numbers, structures... have not) -/
def pyLower : BinPy → Res Str
  | .value (.str s) => .ok (lower s)
  | _ => .error .attribute

/-- `parse_character_names`: cdtb/tftdata.py:128-131 -/
def parseCharacterNames (lib : TftLib) (entries : List BinEntry) : Res (Dict Nat Str) := do
  let l ← (entries.filter fun e => isType lib.bin e "Character".toList || isType lib.bin e "TftCharacter".toList).mapM fun e => do
    let n ← pyLower (fieldD e.fields "name".toList .none)
    .ok (e.path, n)
  .ok (Dict.ofList l)

/-! ## Sets -/

/-- The number of a path used as key of a dict of entries, if it can be one of them (cdtb/binfile.py:41-61) -/
def pathKey : BinPy → Option Nat
  | .value (.hashed _ h) => some h
  | .value (.int n) => if n < 0 then none else some n.toNat
  | _ => none

/-- `d[v]` if `v in d`. Items of a list of a BIN file can always be looked up. -/
def lookupPath {V : Type} (d : Dict Nat V) (p : BinPy) : Option V := (pathKey p).bind d.get?

/-- `a + b` on lists; other types are not modelled. -/
def pyConcat : BinPy → BinPy → Res (List BinValue)
  | .list a, .list b => .ok (a ++ b)
  | _, _ => .error .type

/-- Whether a key of a dict is this text. Hashes used as keys are not compared with texts: a BIN map has keys of a single type. -/
def isTextKey (key : Str) : BinValue → Bool
  | .str s => decide (s = key)
  | _ => false

/-- `v["SetName"].getv("mValue")`: cdtb/tftdata.py:164; only for a dict indexed by texts. -/
def setName : BinPy → Res BinPy
  | .dict l => match l.find? (fun p => isTextKey "SetName".toList p.key) with
    | some p => do
      let fields ← fieldsOf (.value p.value)
      .ok (fieldD fields "mValue".toList .none)
    | none => .error .key
  | _ => .error .type

/-- A set (cdtb/tftdata.py:197). Traits are shared by sets: their paths identify them. -/
structure SetDef where
  number : BinPy
  mutator : BinPy
  name : BinPy
  chars : List Str
  traits : List (Nat × TraitData)
  augments : List BinPy
  items : List BinPy

/-- The entries that are used by sets, by path: cdtb/tftdata.py:135-139 -/
structure SetTables where
  names : Dict Nat Str
  traits : Dict Nat TraitData
  characterLists : Dict Nat BinEntry
  traitLists : Dict Nat BinEntry
  itemLists : Dict Nat BinEntry
  items : Dict Nat BinEntry

/-- `{x.path: x for x in map22.entries if x.type == name}` (cdtb/tftdata.py:136-139) -/
def entriesOf (lib : TftLib) (entries : List BinEntry) (name : Str) : Dict Nat BinEntry :=
  Dict.ofList ((entries.filter fun e => isType lib.bin e name).map fun e => (e.path, e))

/-- `v is None` -/
def isNone : BinPy → Bool
  | .none => true
  | _ => false

/-- Characters of a list: cdtb/tftdata.py:169-172 -/
def listCharacters (t : SetTables) (p : BinPy) : Res (List Str) := match lookupPath t.characterLists p with
  | none => .ok []
  | some e => do
    let l ← iterPy (fieldD e.fields "Characters".toList .none)
    .ok (l.filterMap (lookupPath t.names))

/-- A known trait, with its path: cdtb/tftdata.py:179 -/
def traitAt (traits : Dict Nat TraitData) (h : Nat) : Option (Nat × TraitData) := match traits.get? h with
  | some x => some (h, x)
  | none => none

/-- Paths of traits of a list: cdtb/tftdata.py:175-178 -/
def listTraits (t : SetTables) (p : BinPy) : Res (List BinPy) := match lookupPath t.traitLists p with
  | none => .ok []
  | some e => iterPy (fieldD e.fields "mTraits".toList .none)

/-- Items of a list: whether they are augments, and their names (cdtb/tftdata.py:183-193) -/
def listItems (t : SetTables) (p : BinPy) : Res (List (Bool × BinPy)) := match lookupPath t.itemLists p with
  | none => .ok []
  | some e => do
    let l ← iterPy (fieldD e.fields "mItems".toList (.list []))
    .ok ((l.filterMap (lookupPath t.items)).map fun i => (pyTruthy (fieldD i.fields "IsAugment".toList .none), fieldD i.fields "mName".toList .none))

/-- The text of a name -/
def nameText : BinPy → Option Str
  | .value (.str s) => some s
  | _ => none

/-- `sorted(set(l))`: texts are sorted. A single `None` can be sorted; other types are not modelled (`TypeError`). -/
def sortedNames (l : List BinPy) : Res (List BinPy) := match l.mapM nameText with
  | some names => .ok ((sortedSet names).map fun s => .value (.str s))
  | none => if l.all isNone then .ok [.none] else .error .type

/-- The body of the loop on sets (cdtb/tftdata.py:152-197); `none` when it is not used. `order` is the iteration order of a set of paths. -/
def setOf (t : SetTables) (order : List Nat → List Nat) (fields : List BinField) : Res (Option SetDef) := do
  let number := fieldD fields "number".toList .none
  let m := fieldD fields "Mutator".toList .none
  let mutator := if isNone m then fieldD fields "name".toList .none else m
  let charLists ← pyConcat (fieldD fields "characterLists".toList (.list [])) (fieldD fields "tftCharacterLists".toList (.list []))
  if charLists.isEmpty then .ok none else
  let traitLists := fieldD fields "TraitLists".toList .none
  if isNone traitLists then .ok none else do
  let name ← setName (fieldD fields "ScriptData".toList .none)
  if isNone number || isNone name then .ok none else do
  let chars ← (charLists.map BinPy.value).mapM (listCharacters t)
  let traitPaths ← iterPy traitLists
  let traits ← traitPaths.mapM (listTraits t)
  let itemLists ← iterPy (fieldD fields "ItemLists".toList (.list []))
  let items ← itemLists.mapM (listItems t)
  let augments ← sortedNames ((items.flatten.filter (·.1)).map (·.2))
  let others ← sortedNames ((items.flatten.filter fun x => !x.1).map (·.2))
  .ok (some { number, mutator, name, chars := chars.flatten
              traits := (order (traits.flatten.filterMap pathKey).dedup).filterMap (traitAt t.traits)
              augments, items := others })

/-- The loop on sets: cdtb/tftdata.py:152-197 -/
def setsGo (t : SetTables) (order : List Nat → List Nat) : List BinEntry → Res (List SetDef)
  | [] => .ok []
  | e :: es => do
    let s ← setOf t order e.fields
    let ss ← setsGo t order es
    .ok (s.toList ++ ss)

/-- The tables of `parse_sets`: cdtb/tftdata.py:135-139 -/
def setTables (lib : TftLib) (entries : List BinEntry) (names : Dict Nat Str) (traits : Dict Nat TraitData) : SetTables where
  names := names
  traits := traits
  characterLists := Dict.ofList ((entries.filter fun e => isType lib.bin e "MapCharacterList".toList || isType lib.bin e "TftCharacterList".toList).map fun e => (e.path, e))
  traitLists := entriesOf lib entries "TftTraitList".toList
  itemLists := entriesOf lib entries "TFTItemList".toList
  items := entriesOf lib entries "TftItemData".toList

/-- `parse_sets` (cdtb/tftdata.py:133-198) and the loop of `build_output_sets` which unpacks its result (cdtb/tftdata.py:109): without set, the
result of the backward compatibility branch (cdtb/tftdata.py:141-149), if it does not fail, has four items instead of seven. -/
def parseSets (lib : TftLib) (order : List Nat → List Nat) (entries : List BinEntry) (names : Dict Nat Str) (traits : Dict Nat TraitData) : Res (List SetDef) :=
  match entries.filter fun e => isType lib.bin e "TFTSetData".toList with
  | [] => .error .value
  | sets => setsGo (setTables lib entries names traits) order sets

/-! ## Champions -/

/-- How the spell of a champion is recognized: cdtb/tftdata.py:267-273 -/
inductive SpellMatch where
  /-- the path of the entry; nothing matches `none` -/
  | path (h : Option Nat)
  /-- the name of the script, in lower case -/
  | script (name : Str)

/-- `s.h` (cdtb/tftdata.py:268, 282): only hashes have this attribute -/
def pyHash : BinPy → Res Nat
  | .value (.hashed _ h) => .ok h
  | _ => .error .attribute

/-- `next((s for s in l if s.h != 0), None)`: cdtb/tftdata.py:268 -/
def firstSpell : List BinPy → Res (Option Nat)
  | [] => .ok none
  | p :: ps => do
    let h ← pyHash p
    if h ≠ 0 then .ok (some h) else firstSpell ps

/-- `v.rsplit("/", 1)[-1].lower()` (cdtb/tftdata.py:272) -/
def scriptName : BinPy → Res Str
  | .value (.str s) => .ok (lower (basename s))
  | _ => .error .attribute

/-- How the spell is recognized, or `none` when the champion is not used: cdtb/tftdata.py:266-275 -/
def spellMatch (record : List BinField) : Res (Option SpellMatch) := match fieldV record "spells".toList with
  | some p => do
    let l ← iterPy p
    let h ← firstSpell l
    .ok (some (.path h))
  | none => match fieldV record "spellNames".toList with
    | some p => do
      let first ← index0 p
      let n ← scriptName first
      .ok (some (.script n))
    | none => .ok none

/-- `spell_match(entry)`: cdtb/tftdata.py:269, 273 -/
def SpellMatch.test (m : SpellMatch) (e : BinEntry) : Res Bool := match m with
  | .path h => .ok (decide (h = some e.path))
  | .script n => do
    let s ← pyLower (fieldD e.fields "mScriptName".toList (.value (.str [])))
    .ok (decide (s = n))

/-- The loop on entries, until a spell matches: cdtb/tftdata.py:286-288 -/
def findSpell (lib : TftLib) (m : SpellMatch) : List BinEntry → Res (Option BinEntry)
  | [] => .ok none
  | e :: es =>
    if isType lib.bin e "SpellObject".toList then do
      let b ← m.test e
      if b then .ok (some e) else findSpell lib m es
    else findSpell lib m es

/-- `field.name == name` (cdtb/binfile.py:41-50) for a name made of ASCII characters -/
def isFieldName (env : BinEnv) (f : BinField) (name : Str) : Bool := match (env.mk' .field f.name).eq env (.str name) with
  | .ok b => b
  | .error _ => false

/-- The traits of a champion, as paths (cdtb/tftdata.py:277-282). In embedded objects, the values of the fields named `TraitData`;
otherwise the number of the hash. -/
def champTraits (lib : TftLib) : List BinPy → Res (List BinPy)
  | [] => .ok []
  | .value (.embedded _ fields) :: ps => do
    let l ← champTraits lib ps
    .ok ((fields.filter fun f => isFieldName lib.bin f "TraitData".toList).map (fun f => BinPy.value f.value) ++ l)
  | p :: ps => do
    let h ← pyHash p
    let l ← champTraits lib ps
    .ok (.value (.int (Int.ofNat h)) :: l)

/-- A variable of an ability: cdtb/tftdata.py:289 -/
def abilityVariable (p : BinPy) : Res (BinPy × BinPy) := do
  let fields ← fieldsOf p
  .ok (fieldD fields "name".toList (fieldD fields "mName".toList .none), fieldD fields "values".toList (fieldD fields "mValues".toList .none))

/-- `loc_keys.get(key)` on a dict (cdtb/tftdata.py:291-292); `None` when the key is missing -/
def locKey (l : List BinPair) (key : Str) : BinPy := match l.find? (fun p => isTextKey key p.key) with
  | some p => .value p.value
  | none => .none

/-- Names of the texts of the ability (cdtb/tftdata.py:290-292). Other objects than dicts have no method `get`, or (structures) one that gives a
field, which is not modelled. -/
def locKeys (ability : List BinField) : Res (BinPy × BinPy) :=
  match getPath ability [.str "mClientData".toList, .str "mTooltipData".toList, .str "mLocKeys".toList] with
  | .error e => .error e
  | .ok (.dict l) => .ok (locKey l "keyName".toList, locKey l "keyTooltip".toList)
  | .ok p => if pyTruthy p then .error .attribute else .ok (.none, .none)

/-- What is read in the spell: variables, and names of texts (cdtb/tftdata.py:284-295) -/
def abilityOf (spell : Option BinEntry) : Res (List (BinPy × BinPy) × BinPy × BinPy) := match spell with
  | none => .ok ([], .none, .none)
  | some e => do
    let ability ← fieldsOf (fieldD e.fields "mSpell".toList .none)
    let l ← iterPy (fieldD ability "DataValues".toList (fieldD ability "mDataValues".toList (.list [])))
    let variables' ← l.mapM abilityVariable
    let k ← locKeys ability
    .ok (variables', k.1, k.2)

/-- The cost (cdtb/tftdata.py:297-300); `int(rarity / 6)` is the truncated quotient for numbers that floats represent exactly.
Rarities which are booleans or floats are not modelled. -/
def champCost (champ record : List BinField) : Res BinPy :=
  let tier := fieldD record "tier".toList .none
  if isNone tier then match fieldD champ "mRarity".toList (.value (.int 0)) with
    | .value (.int n) => .ok (.value (.int (n + 1 + (n + 1).tdiv 6)))
    | _ => .error .type
  else .ok tier

/-- `x.getv("BaseValue", d1) if (x := record.getv(name)) is not None else record.getv(old, d2)` (cdtb/tftdata.py:320-329) -/
def statOf (record : List BinField) (name old : Str) (default : BinPy) : Res BinPy :=
  let x := fieldD record name .none
  if isNone x then .ok (fieldD record old default)
  else do
    let fields ← fieldsOf x
    .ok (fieldD fields "BaseValue".toList default)

/-- The mana: cdtb/tftdata.py:304-307 -/
def champMana (record : List BinField) : Res BinPy :=
  let info := fieldD record "primaryAbilityResource".toList .none
  if isNone info then .ok (.value (.int 100))
  else do
    let fields ← fieldsOf info
    match (fieldVH fields 0x726ee5cd).getD .none with
    | .none => .ok (fieldD fields "arBase".toList (.value (.int 100)))
    | x => do
      let m ← fieldsOf x
      .ok (fieldD m "BaseValue".toList (.value (.int 100)))

/-- `x // 180` (cdtb/tftdata.py:329): booleans are not modelled -/
def rangeOf (lib : TftLib) : BinPy → Res BinPy
  | .value (.int n) => .ok (.value (.int (n / 180)))
  | .value (.float b) => .ok (lib.div180 b)
  | _ => .error .type

/-- Statistics: cdtb/tftdata.py:319-330 -/
structure ChampStats where
  hp : BinPy
  mana : BinPy
  initialMana : BinPy
  damage : BinPy
  armor : BinPy
  magicResist : BinPy
  critMultiplier : BinPy
  critChance : BinPy
  attackSpeed : BinPy
  range : BinPy

/-- Statistics: cdtb/tftdata.py:304-330 -/
def champStats (lib : TftLib) (record : List BinField) : Res ChampStats := do
  let mana ← champMana record
  let hp ← statOf record "baseHPModifiable".toList "baseHP".toList .none
  let damage ← statOf record "baseDamageModifiable".toList "BaseDamage".toList .none
  let armor ← statOf record "baseArmorModifiable".toList "baseArmor".toList .none
  let magicResist ← statOf record "baseMR".toList "baseSpellBlock".toList .none
  let attackSpeed ← statOf record "attackSpeedModifiable".toList "attackSpeed".toList .none
  let r ← statOf record "attackRangeModifiable".toList "attackRange".toList (.value (.int 0))
  let range ← rangeOf lib r
  .ok { hp, mana, initialMana := fieldD record "mInitialMana".toList (.value (.int 0)), damage, armor, magicResist
        critMultiplier := fieldD record "critDamageMultiplier".toList .none
        critChance := fieldD record "baseCritChance".toList .none
        attackSpeed, range }

/-- A champion of the output: cdtb/tftdata.py:309-337 -/
structure ChampData where
  apiName : BinPy
  characterName : BinPy
  name : BinPy
  cost : BinPy
  icon : BinPy
  tileIcon : Str
  squareIcon : Str
  traits : List BinPy
  role : BinPy
  stats : ChampStats
  abilityName : BinPy
  abilityDesc : BinPy
  abilityIcon : BinPy
  abilityVars : List (BinPy × BinPy)

/-- `str(a) or b` (cdtb/tftdata.py:314, 334) -/
def strOr (lib : TftLib) (a b : BinPy) : BinPy := if (lib.str a).isEmpty then b else .value (.str (lib.str a))

/-- `a or b` (cdtb/tftdata.py:332-333) -/
def pyOr (a b : BinPy) : BinPy := if pyTruthy a then a else b

/-- The role (cdtb/tftdata.py:302-303) -/
def champRole (roles : Dict Nat BinEntry) (record : List BinField) : Res BinPy :=
  let key := fieldD record "CharacterRole".toList .none
  if isNone key then .ok .none
  else do
    let e ← byPath roles key
    .ok (fieldD e.fields "name".toList .none)

/-- A champion, once its record is known: cdtb/tftdata.py:266-337 -/
def champOf (lib : TftLib) (traits : Dict Nat TraitData) (roles : Dict Nat BinEntry) (champ : List BinField) (entries : List BinEntry) (record : List BinField) :
    Res (Option ChampData) := do
  let m ← spellMatch record
  match m with
  | none => .ok none
  | some m => do
    let linked ← iterPy (fieldD record "mLinkedTraits".toList (.list []))
    let paths ← champTraits lib linked
    let spell ← findSpell lib m entries
    let ability ← abilityOf spell
    let cost ← champCost champ record
    let role ← champRole roles record
    let stats ← champStats lib record
    .ok (some {
      apiName := fieldD champ "mName".toList .none
      characterName := fieldD record "mCharacterName".toList .none
      name := fieldD champ "mDisplayNameTra".toList .none
      cost
      icon := strOr lib (fieldD champ "PcSplashPath".toList .none) (fieldD champ "mIconPath".toList .none)
      tileIcon := lib.str (fieldD champ "TeamPlannerPortraitPath".toList .none)
      squareIcon := lib.str (fieldD champ "SquareSplashPath".toList .none)
      traits := (paths.filterMap (lookupPath traits)).map (·.name)
      role, stats
      abilityName := pyOr (fieldD champ "mAbilityNameTra".toList .none) ability.2.1
      abilityDesc := pyOr (fieldD champ "mDescriptionTra".toList .none) ability.2.2
      abilityIcon := strOr lib (fieldD champ "AbilityIconPath".toList .none) (fieldD champ "mPortraitIconPath".toList .none)
      abilityVars := ability.1 })

/-- The file of a champion: cdtb/tftdata.py:259-263 -/
def champFile (fs : FS) (input name : Str) : Option Str :=
  let own := pjoin (pjoin input "characters".toList) (name ++ ".cdtb.bin".toList)
  let common := pjoin (pjoin (pjoin input "data/characters".toList) name) (name ++ ".bin".toList)
  if (fs own).isSome then some own else if (fs common).isSome then some common else none

/-- The body of the loop on champions (cdtb/tftdata.py:253-337): its name in lower case, and its data if it is used. The first
entry of the file with the type of records is used, or an empty dict. -/
def champEntry (lib : TftLib) (fs : FS) (input : Str) (traits : Dict Nat TraitData) (roles : Dict Nat BinEntry) (champ : List BinField) :
    Res (Option (Str × ChampData)) := do
  let name ← pyLower (fieldD champ "mName".toList .none)
  if name = "tft_template".toList then .ok none
  else match champFile fs input name with
    | none => .ok none
    | some path => do
      let data ← fs.readFile path
      let bin ← parseBin none data
      let c ← champOf lib traits roles champ bin.entries (((bin.entries.find? fun e => isType lib.bin e "TFTCharacterRecord".toList).map (·.fields)).getD [])
      .ok (c.map fun c => (name, c))

/-- The loop on champions: cdtb/tftdata.py:253-337 -/
def champsGo (lib : TftLib) (fs : FS) (input : Str) (traits : Dict Nat TraitData) (roles : Dict Nat BinEntry) :
    Dict Str ChampData → List BinEntry → Res (Dict Str ChampData)
  | d, [] => .ok d
  | d, e :: es => do
    let c ← champEntry lib fs input traits roles e.fields
    champsGo lib fs input traits roles (match c with
      | some (name, c) => d.set name c
      | none => d) es

/-- `parse_champs`: cdtb/tftdata.py:242-339 -/
def parseChamps (lib : TftLib) (fs : FS) (input : Str) (entries : List BinEntry) (traits : Dict Nat TraitData) : Res (Dict Str ChampData) :=
  champsGo lib fs input traits (entriesOf lib entries "TFTCharacterRoleData".toList) [] (entries.filter fun e => isType lib.bin e "TftShopData".toList)

/-! ## Items -/

/-- What is not changed in items: cdtb/tftdata.py:213-226 -/
structure ItemData where
  icon : Str
  isAugment : BinPy
  unique : BinPy
  effects : Dict Str BinPy
  tags : List Str

/-- A text or `None`; other values, which are copied by the code, are not modelled -/
def optText : BinPy → Res (Option Str)
  | .value (.str s) => .ok (some s)
  | .none => .ok none
  | _ => .error .type

/-- An integer or `None`; other values, which are copied by the code, are not modelled -/
def optInt : BinPy → Res (Option Int)
  | .value (.int n) => .ok (some n)
  | .none => .ok none
  | _ => .error .type

/-- An item that is kept: cdtb/tftdata.py:213-226 -/
def rawItem (lib : TftLib) (e : BinEntry) (name : Str) : Res (RawItem ItemData) := do
  let id ← optInt (fieldD e.fields "mId".toList .none)
  let displayName ← optText (fieldD e.fields "mDisplayNameTra".toList .none)
  let desc ← optText (fieldD e.fields "mDescriptionNameTra".toList .none)
  let c ← iterPy (fieldD e.fields "mComposition".toList (.list []))
  let composition ← c.mapM pyHash
  let a ← iterPy (fieldD e.fields "AssociatedTraits".toList (.list []))
  let associatedTraits ← a.mapM pyHash
  let i ← iterPy (fieldD e.fields "IncompatibleTraits".toList (.list []))
  let incompatibleTraits ← i.mapM pyHash
  let effects ← collectEffects lib e.fields
  let tags ← iterPy (fieldD e.fields "ItemTags".toList (.list []))
  .ok { hash := e.path, name := some name, id, displayName, desc, composition, associatedTraits, incompatibleTraits
        data := { icon := lib.str (fieldD e.fields "mIconPath".toList .none)
                  isAugment := fieldD e.fields "IsAugment".toList (.value (.bool false))
                  unique := fieldD e.fields "mIsUnique".toList (.value (.bool false))
                  effects, tags := tags.map lib.str } }

/-- The loop on items: cdtb/tftdata.py:207-228 -/
def rawItems (lib : TftLib) : List BinEntry → Res (List (RawItem ItemData))
  | [] => .ok []
  | e :: es => do
    match fieldD e.fields "mName".toList .none with
    | .value (.str name) =>
      if containsSub name "Template".toList || decide (name = "TFT_Item_Null".toList) then rawItems lib es
      else do
        let i ← rawItem lib e name
        let r ← rawItems lib es
        .ok (i :: r)
    | _ => .error .type

/-- `parse_items`: cdtb/tftdata.py:200-240; names of traits are texts or `None`. -/
def parseItemEntries (lib : TftLib) (entries : List BinEntry) : Res (List (TftItem ItemData)) := do
  let traits ← (entries.filter fun e => isType lib.bin e "TftTraitData".toList).mapM fun e => do
    let n ← optText (fieldD e.fields "mName".toList .none)
    .ok (e.path, n)
  let items ← rawItems lib (entries.filter fun e => isType lib.bin e "TftItemData".toList)
  parseItems items traits

end Cdtb
