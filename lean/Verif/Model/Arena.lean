import Verif.Model.PyData
import Verif.Model.Releases
/-!
# Model of `cdtb/arenadata.py`
-/
namespace Cdtb
set_option autoImplicit false
open Py

/-- An augment of the output: cdtb/arenadata.py:77-88 -/
structure Augment where
  id : BinPy
  apiName : BinPy
  name : BinPy
  desc : BinPy
  tooltip : BinPy
  iconSmall : Str
  iconLarge : Str
  rarity : BinPy
  dataValues : List (BinPy × BinPy)
  calculations : Ser

/-- What the module depends on: lists of hashes, string tables, `repr` of values, and `json_dump` of the template `{"augments": ...}` -/
structure ArenaLib where
  bin : BinEnv
  rst : RstEnv
  repr : BinPy → Str
  json : List Augment → List BodyStep

/-- `"mValues"` of a data value, or `[0]`, then its first item (cdtb/arenadata.py:71): always computed -/
def firstValue (fields : List BinField) : Res BinPy := index0 (fieldD fields "mValues".toList (.list [.int 0]))

/-- The loop on data values: cdtb/arenadata.py:70-71 -/
def augmentValues : List (BinPy × BinPy) → List BinPy → Res (List (BinPy × BinPy))
  | d, [] => .ok d
  | d, v :: vs => do
    let fields ← fieldsOf v
    let first ← firstValue fields
    let name := fieldD fields "name".toList (fieldD fields "mName".toList .none)
    if hashablePy name then augmentValues (pySet d name (fieldD fields "values".toList first)) vs else .error .type

/-- Data values and calculations of the spell: cdtb/arenadata.py:69-75 -/
def augmentSpell (env : BinEnv) (spells : Dict Nat BinEntry) (root : BinPy) : Res (List (BinPy × BinPy) × Ser) := do
  let entry ← byPath spells root
  let spell ← fieldsOf (fieldD entry.fields "mSpell".toList .none)
  let items ← iterPy (fieldD spell "DataValues".toList (fieldD spell "mDataValues".toList (.list [])))
  let values ← augmentValues [] items
  match getField spell (.str "mSpellCalculations".toList) with
  | .ok f => do
    let c ← ser env f.value
    .ok (values, c)
  | .error _ => .ok (values, .obj [])

/-- Data values and calculations of an augment: cdtb/arenadata.py:66-75 -/
def augmentRoot (env : BinEnv) (spells : Dict Nat BinEntry) (fields : List BinField) : Res (List (BinPy × BinPy) × Ser) :=
  let root := fieldD fields "RootSpell".toList .none
  if pyTruthy root then augmentSpell env spells root else .ok ([], .obj [])

/-- The body of the loop on augments: cdtb/arenadata.py:63-88; `none` when it is not enabled -/
def augmentOf (lib : ArenaLib) (spells : Dict Nat BinEntry) (fields : List BinField) : Res (Option Augment) :=
  if !pyTruthy (fieldD fields "enabled".toList (.value (.bool true))) then .ok none
  else do
    let vc ← augmentRoot lib.bin spells fields
    .ok (some {
      id := fieldD fields "AugmentPlatformId".toList .none
      apiName := fieldD fields "AugmentNameId".toList .none
      name := fieldD fields "NameTra".toList .none
      desc := fieldD fields "DescriptionTra".toList .none
      tooltip := fieldD fields "AugmentTooltipTra".toList .none
      iconSmall := convertCdragonPath (strOf lib.bin lib.repr (fieldD fields "AugmentSmallIconPath".toList .none))
      iconLarge := convertCdragonPath (strOf lib.bin lib.repr (fieldD fields "AugmentLargeIconPath".toList .none))
      rarity := fieldD fields "rarity".toList (.value (.int 0))
      dataValues := vc.1
      calculations := vc.2 })

/-- The loop on augments: cdtb/arenadata.py:62-88 -/
def augmentsOf (lib : ArenaLib) (spells : Dict Nat BinEntry) : List BinEntry → Res (List Augment)
  | [] => .ok []
  | e :: es => do
    let a ← augmentOf lib spells e.fields
    let as ← augmentsOf lib spells es
    .ok (a.toList ++ as)

/-- `ArenaTransformer.parse_augments`: cdtb/arenadata.py:55-90 -/
def parseAugments (lib : ArenaLib) (entries : List BinEntry) : Res (List Augment) :=
  augmentsOf lib (Dict.ofList ((entries.filter fun e => isType lib.bin e "SpellObject".toList).map fun e => (e.path, e)))
    (entries.filter fun e => isType lib.bin e "AugmentData".toList)

/-- The path of the bin file of the map: cdtb/arenadata.py:16 -/
def map30Path (input : Str) : Str := pjoin input "data/maps/shipping/map30/map30.bin".toList

/-- `ArenaTransformer.build_template`: cdtb/arenadata.py:14-24 -/
def arenaTemplate (lib : ArenaLib) (fs : FS) (input : Str) : Res (List Augment) := do
  let data ← fs.readFile (map30Path input)
  let bin ← parseBin none data
  parseAugments lib bin.entries

/-- `replacements[v] if v in replacements else v`: cdtb/arenadata.py:46-47 -/
def rstReplace (env : RstEnv) (r : Rst) (v : BinPy) : BinPy :=
  if r.hasKey env (rstKeyOf v) then match r.getitem env (rstKeyOf v) with
    | .ok s => .value (.str s)
    | .error _ => v
  else v

/-- `replace_in_data`: cdtb/arenadata.py:44-47 -/
def Augment.translate (env : RstEnv) (r : Rst) (a : Augment) : Augment :=
  { a with name := rstReplace env r a.name, desc := rstReplace env r a.desc, tooltip := rstReplace env r a.tooltip }

/-- `RstFile(stringtables[lang], self.game_version)`: cdtb/arenadata.py:42 -/
def arenaTable (lib : ArenaLib) (version : Nat) (tables : Dict Str Str) (fs : FS) (lang : Str) : Res Rst :=
  match tables.get? lang with
  | none => .error .key
  | some path => do
    let data ← fs.readFile path
    (parseRst lib.rst version).run data

/-- The loop on languages: cdtb/arenadata.py:40-53; `f i` are the faults of the `i`-th file that is written. -/
def arenaLangs (lib : ArenaLib) (version : Nat) (tables : Dict Str Str) (template : List Augment) (output : Str) (f : Nat → WriteFaults) :
    Nat → FS → List Str → FS × Res Unit
  | _, fs, [] => (fs, .ok ())
  | i, fs, lang :: langs =>
    match arenaTable lib version tables fs lang with
    | .error e => (fs, .error e)
    | .ok r => match openAndWrite fs (pjoin output (lang ++ ".json".toList)) (lib.json (template.map (Augment.translate lib.rst r))) (f i) with
      | (fs', .ok ()) => arenaLangs lib version tables template output f (i + 1) fs' langs
      | (fs', .error e) => (fs', .error e)

/-- `ArenaTransformer.export`: cdtb/arenadata.py:26-53; `mk` is a failure of the creation of the output directory. -/
def arenaExport (lib : ArenaLib) (version : Nat) (ls : Str → List Str) (input output : Str) (langs : Option (List Str)) (mk : Option (Nat × Err))
    (f : Nat → WriteFaults) (fs : FS) : FS × Res Unit :=
  match stringTables fs ls input "lol".toList with
  | .error e => (fs, .error e)
  | .ok tables => match fs.makedirs output mk with
    | (fs1, .error e) => (fs1, .error e)
    | (fs1, .ok ()) => match arenaTemplate lib fs1 input with
      | .error e => (fs1, .error e)
      | .ok template => arenaLangs lib version tables template output f 0 fs1 (langs.getD tables.keys)

end Cdtb
