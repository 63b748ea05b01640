import Verif.Model.TftExport
import Verif.Spec.JsonText
/-!
# What the JSON files of TFT and Arena data hold

`num` is the text of a float, `null` the name of a member whose key is `None`, `name` the name for a key of serialized data. Members are listed in the order of the code; their order in files is the
subject of `SameJson` and `OrderedJson`.
-/
namespace Cdtb
set_option autoImplicit false
open Py

namespace Spec

/-- The JSON value for a value of a BIN file. Hashes, structures and other objects have none. -/
inductive ValueJson (num : Nat → Str) : BinValue → Json → Prop
  | tuple (l : List Nat) : ValueJson num (.tuple l) (.arr (l.map fun n : Nat => .num (showInt n)))
  | bool (b : Bool) : ValueJson num (.bool b) (.bool b)
  | int (n : Int) : ValueJson num (.int n) (.num (showInt n))
  | float (b : Nat) : ValueJson num (.float b) (.num (num b))
  | floats (l : List Nat) : ValueJson num (.floats l) (.arr (l.map fun b => .num (num b)))
  | matrix (rows : List (List Nat)) : ValueJson num (.matrix rows) (.arr (rows.map fun l => .arr (l.map fun b => .num (num b))))
  | str (s : Str) : ValueJson num (.str s) (.str s)

/-- The name of the member for a key -/
inductive KeyJson (null : Str) : BinPy → Str → Prop
  | str (s : Str) : KeyJson null (.value (.str s)) s
  | int (n : Int) : KeyJson null (.value (.int n)) (showInt n)
  | none : KeyJson null .none null

/-- The member for an item of a map -/
inductive PairJson (num : Nat → Str) (null : Str) : BinPair → Str × Json → Prop
  | mk (k v : BinValue) (n : Str) (j : Json) : KeyJson null (.value k) n → ValueJson num v j → PairJson num null (.mk k v) (n, j)

/-- The JSON value for the value of a field -/
inductive PyJson (num : Nat → Str) (null : Str) : BinPy → Json → Prop
  | none : PyJson num null .none .null
  | value (v : BinValue) (j : Json) : ValueJson num v j → PyJson num null (.value v) j
  | list (l : List BinValue) (js : List Json) : List.Forall₂ (ValueJson num) l js → PyJson num null (.list l) (.arr js)
  | dict (l : List BinPair) (ms : List (Str × Json)) : List.Forall₂ (PairJson num null) l ms → PyJson num null (.dict l) (.obj ms)

/-- An object: names of members and their values -/
def object (l : List (String × Json)) : Json := .obj (l.map fun m => (m.1.toList, m.2))

/-- A text, or null -/
def optStr (s : Option Str) : Json := s.elim .null .str

/-- An integer, or null -/
def optNum (n : Option Int) : Json := n.elim .null fun n => .num (showInt n)

/-- A list of texts -/
def optStrs (l : List (Option Str)) : Json := .arr (l.map optStr)

/-! ## Arena -/

/-- An augment -/
def AugmentJson (num : Nat → Str) (name : Ser → Str) (a : Augment) (v : Json) : Prop :=
  ∃ id apiName nm desc tooltip rarity values, PyJson num (name .none) a.id id ∧ PyJson num (name .none) a.apiName apiName ∧ PyJson num (name .none) a.name nm ∧
    PyJson num (name .none) a.desc desc ∧ PyJson num (name .none) a.tooltip tooltip ∧ PyJson num (name .none) a.rarity rarity ∧
    List.Forall₂ (fun (kv : BinPy × BinPy) (m : Str × Json) => KeyJson (name .none) kv.1 m.1 ∧ PyJson num (name .none) kv.2 m.2) a.dataValues values ∧
    v = object [("id", id), ("apiName", apiName), ("name", nm), ("desc", desc), ("tooltip", tooltip), ("iconSmall", .str a.iconSmall), ("iconLarge", .str a.iconLarge),
      ("rarity", rarity), ("dataValues", .obj values), ("calculations", jsonOf num name a.calculations)]

/-- The data of Arena -/
def ArenaJson (num : Nat → Str) (name : Ser → Str) (as : List Augment) (v : Json) : Prop :=
  ∃ l, List.Forall₂ (AugmentJson num name) as l ∧ v = object [("augments", .arr l)]

/-! ## TFT -/

/-- Variables and their values -/
def VarsJson (num : Nat → Str) (null : Str) (d : Dict Str BinPy) (v : Json) : Prop :=
  ∃ ms : List (Str × Json), List.Forall₂ (fun (kv : Str × BinPy) (m : Str × Json) => m.1 = kv.1 ∧ PyJson num null kv.2 m.2) d ms ∧ v = .obj ms

/-- An effect of a trait -/
def EffectJson (num : Nat → Str) (null : Str) (e : TraitEffect) (v : Json) : Prop :=
  ∃ min max style vars, PyJson num null e.minUnits min ∧ PyJson num null e.maxUnits max ∧ PyJson num null e.style style ∧ VarsJson num null e.vars vars ∧
    v = object [("minUnits", min), ("maxUnits", max), ("style", style), ("variables", vars)]

/-- A trait: its texts are those of the language -/
def TraitJson (num : Nat → Str) (null : Str) (t : TftTrait TftPart) (v : Json) : Prop :=
  ∃ d apiName effects, t.data = .trait d ∧ PyJson num null d.apiName apiName ∧ List.Forall₂ (EffectJson num null) d.effects effects ∧
    v = object [("apiName", apiName), ("name", optStr t.name), ("desc", optStr t.desc), ("icon", .str d.icon), ("effects", .arr effects)]

/-- Statistics of a champion -/
def StatsJson (num : Nat → Str) (null : Str) (s : ChampStats) (v : Json) : Prop :=
  ∃ hp mana initialMana damage armor magicResist critMultiplier critChance attackSpeed range,
    PyJson num null s.hp hp ∧ PyJson num null s.mana mana ∧ PyJson num null s.initialMana initialMana ∧ PyJson num null s.damage damage ∧
    PyJson num null s.armor armor ∧ PyJson num null s.magicResist magicResist ∧ PyJson num null s.critMultiplier critMultiplier ∧
    PyJson num null s.critChance critChance ∧ PyJson num null s.attackSpeed attackSpeed ∧ PyJson num null s.range range ∧
    v = object [("hp", hp), ("mana", mana), ("initialMana", initialMana), ("damage", damage), ("armor", armor), ("magicResist", magicResist),
      ("critMultiplier", critMultiplier), ("critChance", critChance), ("attackSpeed", attackSpeed), ("range", range)]

/-- A variable of an ability -/
def VariableJson (num : Nat → Str) (null : Str) (x : BinPy × BinPy) (v : Json) : Prop :=
  ∃ n j, PyJson num null x.1 n ∧ PyJson num null x.2 j ∧ v = object [("name", n), ("value", j)]

/-- A champion: its texts are those of the language -/
def ChampJson (num : Nat → Str) (null : Str) (c : TftChamp TftPart) (v : Json) : Prop :=
  ∃ d apiName characterName cost icon role stats abilityIcon vars, c.data = .champ d ∧ PyJson num null d.apiName apiName ∧
    PyJson num null d.characterName characterName ∧ PyJson num null d.cost cost ∧ PyJson num null d.icon icon ∧ PyJson num null d.role role ∧
    StatsJson num null d.stats stats ∧ PyJson num null d.abilityIcon abilityIcon ∧ List.Forall₂ (VariableJson num null) d.abilityVars vars ∧
    v = object [("apiName", apiName), ("characterName", characterName), ("name", optStr c.name), ("cost", cost), ("icon", icon), ("tileIcon", .str d.tileIcon),
      ("squareIcon", .str d.squareIcon), ("traits", optStrs c.traits), ("role", role), ("stats", stats),
      ("ability", object [("name", optStr c.abilityName), ("desc", optStr c.abilityDesc), ("icon", abilityIcon), ("variables", .arr vars)])]

/-- An item: its texts are those of the language -/
def ItemJson (num : Nat → Str) (null : Str) (i : TftItem TftPart) (v : Json) : Prop :=
  ∃ d isAugment unique effects, i.data = .item d ∧ PyJson num null d.isAugment isAugment ∧ PyJson num null d.unique unique ∧ VarsJson num null d.effects effects ∧
    v = object [("id", optNum i.id), ("name", optStr i.name), ("apiName", optStr i.apiName), ("desc", optStr i.desc), ("icon", .str d.icon),
      ("isAugment", isAugment), ("unique", unique), ("composition", optStrs i.composition), ("associatedTraits", optStrs i.associatedTraits),
      ("incompatibleTraits", optStrs i.incompatibleTraits), ("effects", effects), ("tags", .arr (d.tags.map .str)),
      ("from", i.from.elim .null fun l => .arr (l.map optNum))]

/-- The objects at some positions -/
def ObjectsJson {α : Type} (R : α → Json → Prop) (objects : List α) (refs : List Nat) (v : Json) : Prop :=
  ∃ l, List.Forall₂ (fun i j => ∃ x, objects[i]? = some x ∧ R x j) refs l ∧ v = .arr l

/-- An entry of `sets` -/
def SetJson (num : Nat → Str) (null : Str) (t : TftTemplate TftPart) (s : TftSetInfo) (v : Json) : Prop :=
  ∃ traits champs, ObjectsJson (TraitJson num null) t.traits s.traits traits ∧ ObjectsJson (ChampJson num null) t.champs s.champions champs ∧
    v = object [("name", optStr s.name), ("traits", traits), ("champions", champs)]

/-- An entry of `setData` -/
def SetDataJson (num : Nat → Str) (null : Str) (t : TftTemplate TftPart) (s : TftSetData) (v : Json) : Prop :=
  ∃ traits champs, ObjectsJson (TraitJson num null) t.traits s.traits traits ∧ ObjectsJson (ChampJson num null) t.champs s.champions champs ∧
    v = object [("number", .num (showInt s.number)), ("mutator", optStr s.mutator), ("name", optStr s.name), ("traits", traits), ("champions", champs),
      ("augments", .arr (s.augments.map .str)), ("items", .arr (s.items.map .str))]

/-- The data of TFT -/
def TftJson (num : Nat → Str) (null : Str) (t : TftTemplate TftPart) (v : Json) : Prop :=
  ∃ sets setData items, List.Forall₂ (fun (kv : Int × TftSetInfo) (m : Str × Json) => m.1 = showInt kv.1 ∧ SetJson num null t kv.2 m.2) t.sets sets ∧
    List.Forall₂ (SetDataJson num null t) t.setData setData ∧ List.Forall₂ (ItemJson num null) t.items items ∧
    v = object [("sets", .obj sets), ("setData", .arr setData), ("items", .arr items)]

/-! ## Order of members -/

/-- The same JSON value, once the order of the members of objects is forgotten -/
inductive SameJson : Json → Json → Prop
  | same (v : Json) : SameJson v v
  | arr (l l' : List Json) : List.Forall₂ SameJson l l' → SameJson (.arr l) (.arr l')
  | obj (l m m' : List (Str × Json)) : l.map Prod.fst = m.map Prod.fst → List.Forall₂ SameJson (l.map Prod.snd) (m.map Prod.snd) → m.Perm m' →
      SameJson (.obj l) (.obj m')

/-- Names of members in order: as texts (by code points), or as integers -/
def OrderedNames (ks : List Str) : Prop := ks.Pairwise (· ≤ ·) ∨ ∃ ns : List Int, ks = ns.map showInt ∧ ns.Pairwise (· ≤ ·)

/-- At all levels -/
inductive OrderedJson : Json → Prop
  | null : OrderedJson .null
  | bool (b : Bool) : OrderedJson (.bool b)
  | num (t : Str) : OrderedJson (.num t)
  | str (s : Str) : OrderedJson (.str s)
  | arr (l : List Json) : (∀ v ∈ l, OrderedJson v) → OrderedJson (.arr l)
  | obj (l : List (Str × Json)) : OrderedNames (l.map Prod.fst) → (∀ m ∈ l, OrderedJson m.2) → OrderedJson (.obj l)

/-- The bytes of a file are a JSON text in UTF-8, whose value is `v` with members in order -/
def HoldsSorted (bytes : Bytes) (v : Json) : Prop :=
  ∃ t u, utf8 bytes = .ok t ∧ JsonText t u ∧ SameJson v u ∧ OrderedJson u

/-- In all the dicts, keys are texts, or they are integers -/
inductive PlainKeys : Ser → Prop
  | none : PlainKeys .none
  | bool (b : Bool) : PlainKeys (.bool b)
  | int (n : Int) : PlainKeys (.int n)
  | float (b : Nat) : PlainKeys (.float b)
  | tuple (l : List Nat) : PlainKeys (.tuple l)
  | floats (l : List Nat) : PlainKeys (.floats l)
  | matrix (rows : List (List Nat)) : PlainKeys (.matrix rows)
  | str (s : Str) : PlainKeys (.str s)
  | list (l : List Ser) : (∀ s ∈ l, PlainKeys s) → PlainKeys (.list l)
  | obj (d : List (Str × Ser)) : (∀ kv ∈ d, PlainKeys kv.2) → PlainKeys (.obj d)
  | dict (d : List (Ser × Ser)) : ((∀ kv ∈ d, ∃ s, kv.1 = .str s) ∨ ∀ kv ∈ d, ∃ n, kv.1 = .int n) → (∀ kv ∈ d, PlainKeys kv.2) → PlainKeys (.dict d)

end Spec
end Cdtb
