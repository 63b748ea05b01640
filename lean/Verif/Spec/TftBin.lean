import Verif.Spec.Arena
import Verif.Model.TftBin
/-!
# Specification: data of TFT in BIN files
-/
namespace Cdtb
set_option autoImplicit false
open Py Spec

/-! ## Dicts -/

/-- `d` gives to each key the last value it has in the list. -/
def Spec.LastPairs {K V : Type} [DecidableEq K] (pairs : List (K × V)) (d : Dict K V) : Prop :=
  ∀ k v, d.get? k = some v ↔ ∃ a b, pairs = a ++ (k, v) :: b ∧ ∀ x ∈ b, x.1 ≠ k

/-- `d` gives to each key its value in the last dict that has it. -/
def Spec.Merged {K V : Type} [DecidableEq K] (ds : List (Dict K V)) (d : Dict K V) : Prop :=
  ∀ k v, d.get? k = some v ↔ ∃ a e b, ds = a ++ e :: b ∧ e.get? k = some v ∧ ∀ x ∈ b, x.get? k = none

/-- `ys` are the images of the items of `xs` which have one, in order. -/
inductive Spec.Picks {α β : Type} (R : α → β → Prop) : List α → List β → Prop
  | nil : Spec.Picks R [] []
  | keep {x : α} {y : β} {xs : List α} {ys : List β} (h : R x y) (hs : Spec.Picks R xs ys) : Spec.Picks R (x :: xs) (y :: ys)
  | skip {x : α} {xs : List α} {ys : List β} (h : ∀ y, ¬ R x y) (hs : Spec.Picks R xs ys) : Spec.Picks R (x :: xs) ys

/-- `e` is the last entry of this kind with the path `h`. -/
def Spec.EntryOf (kind : BinEntry → Prop) (entries : List BinEntry) (h : Nat) (e : BinEntry) : Prop :=
  ∃ a b, entries = a ++ e :: b ∧ kind e ∧ e.path = h ∧ ∀ x ∈ b, kind x → x.path ≠ h

/-- The text of a value, for texts, hashes and `None` -/
def Spec.StrOf (env : BinEnv) (p : BinPy) (k : Str) : Prop := ∀ s, Spec.Shown env p s → k = s

/-! ## Effects -/

/-- The first field with this hash -/
def Spec.GivesHash (fields : List BinField) (h : Nat) (p : BinPy) : Prop := ∃ f, FirstField fields h f ∧ Unwrapped f.value p

/-- No field has this hash. -/
def Spec.LacksHash (fields : List BinField) (h : Nat) : Prop := ∀ f ∈ fields, f.name ≠ h

/-- An effect with a name and a value -/
def Spec.EffectAmount (env : BinEnv) (item : BinPy) (k : Str) (v : BinPy) : Prop :=
  ∃ f n, Spec.IsObject item f ∧ Spec.GivesOr f "name".toList .none n ∧ Spec.StrOf env n k ∧ Spec.GivesOr f "value".toList .none v

/-- A constant: its key is its name -/
def Spec.EffectConstant (env : BinEnv) (item : BinPair) (k : Str) (v : BinPy) : Prop :=
  ∃ f, Spec.IsObject (.value item.value) f ∧ Spec.StrOf env (.value item.key) k ∧ Spec.GivesOr f "mValue".toList .none v

/-- Effects of an item or a trait: amounts, or constants if there is no field for amounts -/
def Spec.Effects (env : BinEnv) (fields : List BinField) (d : Dict Str BinPy) : Prop :=
  (∃ p items pairs, Spec.Gives fields "effectAmounts".toList p ∧ Spec.Items p items ∧
      List.Forall₂ (fun i (x : Str × BinPy) => Spec.EffectAmount env i x.1 x.2) items pairs ∧ Spec.LastPairs pairs d) ∨
  (Spec.Lacks fields "effectAmounts".toList ∧ ∃ p c l pairs, Spec.Gives fields "constants".toList p ∧ Spec.IsObject p c ∧
      (Spec.GivesHash c 0xdf085b93 (.dict l) ∨ (Spec.LacksHash c 0xdf085b93 ∧ l = [])) ∧
      List.Forall₂ (fun i (x : Str × BinPy) => Spec.EffectConstant env i x.1 x.2) l pairs ∧ Spec.LastPairs pairs d) ∨
  (Spec.Lacks fields "effectAmounts".toList ∧ Spec.Lacks fields "constants".toList ∧ d = [])

/-! ## Traits -/

/-- The entry of a trait which is not a template -/
def Spec.IsTrait (env : BinEnv) (e : BinEntry) : Prop :=
  Spec.HasType env e "TftTraitData".toList ∧ ∃ s, Spec.Gives e.fields "mName".toList (.value (.str s)) ∧ ¬ "Template".toList <:+: s

/-- A level of a trait: `m` is the prefix of fields, `base` the effects of all levels. -/
def Spec.LevelFrom (env : BinEnv) (m : Str) (base : Dict Str BinPy) (item : BinPy) (t : TraitEffect) : Prop :=
  ∃ f max effects, Spec.IsObject item f ∧ Spec.GivesOr f (m ++ "MinUnits".toList) .none t.minUnits ∧
    Spec.GivesOr f (m ++ "MaxUnits".toList) .none max ∧ ((Spec.Falsy max ∧ t.maxUnits = .value (.int 25000)) ∨ (¬ Spec.Falsy max ∧ t.maxUnits = max)) ∧
    Spec.GivesOr f (m ++ "Style".toList) (.value (.int 1)) t.style ∧ Spec.Effects env f effects ∧ Spec.Merged [base, effects] t.vars

/-- A trait of the output, from its entry -/
structure Spec.TraitFrom (env : BinEnv) (fields : List BinField) (t : TraitData) : Prop where
  apiName : Spec.GivesOr fields "mName".toList .none t.apiName
  name : Spec.GivesOr fields "mDisplayNameTra".toList .none t.name
  desc : Spec.GivesOr fields "mDescriptionNameTra".toList .none t.desc
  icon : ∀ p, Spec.GivesOr fields "mIconPath".toList .none p → Spec.StrOf env p t.icon
  /-- levels: those of the first of two fields, whose own fields have names with or without `m`; effects of innate sets are used for all levels -/
  levels : ∃ l innate ds base m sets items, Spec.GivesOr fields "InnateTraitSets".toList (.list []) l ∧ Spec.Items l innate ∧
    List.Forall₂ (fun i d => ∃ f, Spec.IsObject i f ∧ Spec.Effects env f d) innate ds ∧ Spec.Merged ds base ∧
    ((m = ['m'] ∧ Spec.Gives fields "mTraitSets".toList sets) ∨
     (m = [] ∧ Spec.Lacks fields "mTraitSets".toList ∧ Spec.GivesOr fields "mConditionalTraitSets".toList (.list []) sets)) ∧
    Spec.Items sets items ∧ List.Forall₂ (Spec.LevelFrom env m base) items t.effects

/-! ## Sets -/

/-- The entry of a character -/
def Spec.IsCharacter (env : BinEnv) (e : BinEntry) : Prop := Spec.HasType env e "Character".toList ∨ Spec.HasType env e "TftCharacter".toList

/-- The entry of a list of characters -/
def Spec.IsCharacterList (env : BinEnv) (e : BinEntry) : Prop := Spec.HasType env e "MapCharacterList".toList ∨ Spec.HasType env e "TftCharacterList".toList

/-- The value is the path of this entry. -/
def Spec.LinksTo (kind : BinEntry → Prop) (entries : List BinEntry) (p : BinPy) (e : BinEntry) : Prop := ∃ h, Spec.IsPath p h ∧ Spec.EntryOf kind entries h e

/-- The lists of characters of a set -/
def Spec.CharacterLists (fields : List BinField) (l : List BinValue) : Prop :=
  ∃ a b, Spec.GivesOr fields "characterLists".toList (.list []) (.list a) ∧ Spec.GivesOr fields "tftCharacterLists".toList (.list []) (.list b) ∧ l = a ++ b

/-- The name of a set -/
def Spec.SetName (fields : List BinField) (name : BinPy) : Prop :=
  ∃ a x b f, Spec.Gives fields "ScriptData".toList (.dict (a ++ x :: b)) ∧ x.key = .str "SetName".toList ∧ (∀ y ∈ a, y.key ≠ .str "SetName".toList) ∧
    Spec.IsObject (.value x.value) f ∧ Spec.GivesOr f "mValue".toList .none name

/-- A set is used if it has a list of characters, lists of traits, a number and a name. -/
def Spec.UsedSet (fields : List BinField) : Prop :=
  (∃ l, Spec.CharacterLists fields l ∧ l ≠ []) ∧ (∃ p, Spec.Gives fields "TraitLists".toList p ∧ p ≠ .none) ∧
  (∃ p, Spec.Gives fields "number".toList p ∧ p ≠ .none) ∧ ∃ p, Spec.SetName fields p ∧ p ≠ .none

/-- The characters of a list: none for a link to something else than a list. Characters without name are not kept. -/
def Spec.ListCharacters (env : BinEnv) (entries : List BinEntry) (names : Dict Nat Str) (v : BinValue) (part : List Str) : Prop :=
  (∃ e l items, Spec.LinksTo (Spec.IsCharacterList env) entries (.value v) e ∧ Spec.Gives e.fields "Characters".toList l ∧ Spec.Items l items ∧
    Spec.Picks (fun p name => ∃ h, Spec.IsPath p h ∧ names.get? h = some name) items part) ∨
  ((∀ e, ¬ Spec.LinksTo (Spec.IsCharacterList env) entries (.value v) e) ∧ part = [])

/-- `h` is the path of a trait in one of the lists of a set. -/
def Spec.TraitOfSet (env : BinEnv) (entries : List BinEntry) (fields : List BinField) (h : Nat) : Prop :=
  ∃ lists links p e l items q, Spec.Gives fields "TraitLists".toList lists ∧ Spec.Items lists links ∧ p ∈ links ∧
    Spec.LinksTo (fun e => Spec.HasType env e "TftTraitList".toList) entries p e ∧ Spec.Gives e.fields "mTraits".toList l ∧ Spec.Items l items ∧
    q ∈ items ∧ Spec.IsPath q h

/-- `i` is the entry of an item in one of the lists of a set. -/
def Spec.ItemOfSet (env : BinEnv) (entries : List BinEntry) (fields : List BinField) (i : BinEntry) : Prop :=
  ∃ lists links p e l items q, Spec.Gives fields "ItemLists".toList lists ∧ Spec.Items lists links ∧ p ∈ links ∧
    Spec.LinksTo (fun e => Spec.HasType env e "TFTItemList".toList) entries p e ∧ Spec.Gives e.fields "mItems".toList l ∧ Spec.Items l items ∧
    q ∈ items ∧ Spec.LinksTo (fun e => Spec.HasType env e "TftItemData".toList) entries q i

/-- An item is an augment. -/
def Spec.IsAugment (fields : List BinField) : Prop := ∃ p, Spec.Gives fields "IsAugment".toList p ∧ ¬ Spec.Falsy p

/-- Names in increasing order, each one once (or only the missing name) -/
def Spec.SortedNames (l : List BinPy) : Prop := (∃ names : List Str, l = names.map (fun s => .value (.str s)) ∧ names.Pairwise (· < ·)) ∨ l = [.none]

/-- A set of the output, from its entry -/
structure Spec.SetFrom (env : BinEnv) (entries : List BinEntry) (names : Dict Nat Str) (traits : Dict Nat TraitData) (fields : List BinField) (s : SetDef) : Prop where
  number : Spec.Gives fields "number".toList s.number
  mutator : ∃ m, Spec.GivesOr fields "Mutator".toList .none m ∧ ((m ≠ .none ∧ s.mutator = m) ∨ (m = .none ∧ Spec.GivesOr fields "name".toList .none s.mutator))
  name : Spec.SetName fields s.name
  chars : ∃ lists parts, Spec.CharacterLists fields lists ∧ List.Forall₂ (Spec.ListCharacters env entries names) lists parts ∧ s.chars = parts.flatten
  /-- known traits of the lists, with their paths -/
  traits : ∀ h t, (h, t) ∈ s.traits ↔ Spec.TraitOfSet env entries fields h ∧ traits.get? h = some t
  /-- each one once -/
  once : (s.traits.map Prod.fst).Nodup
  /-- names of augments -/
  augments : ∀ x, x ∈ s.augments ↔ ∃ i, Spec.ItemOfSet env entries fields i ∧ Spec.IsAugment i.fields ∧ Spec.GivesOr i.fields "mName".toList .none x
  /-- names of other items -/
  items : ∀ x, x ∈ s.items ↔ ∃ i, Spec.ItemOfSet env entries fields i ∧ ¬ Spec.IsAugment i.fields ∧ Spec.GivesOr i.fields "mName".toList .none x
  sorted : Spec.SortedNames s.augments ∧ Spec.SortedNames s.items

/-! ## Champions -/

/-- The record of a champion: the fields of the first entry of this type, or nothing -/
def Spec.RecordOf (env : BinEnv) (entries : List BinEntry) (record : List BinField) : Prop :=
  (∃ a e b, entries = a ++ e :: b ∧ Spec.HasType env e "TFTCharacterRecord".toList ∧ (∀ x ∈ a, ¬ Spec.HasType env x "TFTCharacterRecord".toList) ∧ record = e.fields) ∨
  ((∀ x ∈ entries, ¬ Spec.HasType env x "TFTCharacterRecord".toList) ∧ record = [])

/-- Which spell of the file is the one of the champion: the one linked by the first link that is not zero, or the one whose script has the name of the
first spell, without directories and whatever the case. -/
def Spec.SpellTest (record : List BinField) (test : BinEntry → Prop) : Prop :=
  (∃ p items, Spec.Gives record "spells".toList p ∧ Spec.Items p items ∧
    ((∃ a k h b, items = a ++ .value (.hashed k h) :: b ∧ h ≠ 0 ∧ (∀ x ∈ a, ∃ k, x = .value (.hashed k 0)) ∧ test = fun e => e.path = h) ∨
     ((∀ x ∈ items, ∃ k, x = .value (.hashed k 0)) ∧ test = fun _ => False))) ∨
  (Spec.Lacks record "spells".toList ∧ ∃ p s dir base, Spec.Gives record "spellNames".toList p ∧ Spec.FirstItem p (.value (.str s)) ∧
    s = dir ++ base ∧ (dir = [] ∨ ∃ d, dir = d ++ ['/']) ∧ '/' ∉ base ∧
    test = fun e => ∃ t, Spec.GivesOr e.fields "mScriptName".toList (.value (.str [])) (.value (.str t)) ∧ lower t = lower base)

/-- The first spell of the file that satisfies the test -/
def Spec.FirstSpell (env : BinEnv) (entries : List BinEntry) (test : BinEntry → Prop) (o : Option BinEntry) : Prop :=
  (∃ a e b, entries = a ++ e :: b ∧ Spec.HasType env e "SpellObject".toList ∧ test e ∧ (∀ x ∈ a, Spec.HasType env x "SpellObject".toList → ¬ test x) ∧ o = some e) ∨
  ((∀ x ∈ entries, Spec.HasType env x "SpellObject".toList → ¬ test x) ∧ o = none)

/-- A variable of an ability -/
def Spec.AbilityVariable (item : BinPy) (x : BinPy × BinPy) : Prop :=
  ∃ f, Spec.IsObject item f ∧ Spec.GivesEither f "name".toList "mName".toList .none x.1 ∧ Spec.GivesEither f "values".toList "mValues".toList .none x.2

/-- The value of a key in a dict, or `None` -/
def Spec.LocText (l : List BinPair) (key : Str) (p : BinPy) : Prop :=
  (∃ a x b, l = a ++ x :: b ∧ x.key = .str key ∧ (∀ y ∈ a, y.key ≠ .str key) ∧ p = .value x.value) ∨ ((∀ y ∈ l, y.key ≠ .str key) ∧ p = .none)

/-- What is read in the spell: its variables, and the identifiers of its name and of its description -/
def Spec.Ability (o : Option BinEntry) (vars : List (BinPy × BinPy)) (name desc : BinPy) : Prop :=
  (o = none ∧ vars = [] ∧ name = .none ∧ desc = .none) ∨
  ∃ e spell sf l items, o = some e ∧ Spec.Gives e.fields "mSpell".toList spell ∧ Spec.IsObject spell sf ∧
    Spec.GivesEither sf "DataValues".toList "mDataValues".toList (.list []) l ∧ Spec.Items l items ∧ List.Forall₂ Spec.AbilityVariable items vars ∧
    let path := [Spec.nameHash "mClientData".toList, Spec.nameHash "mTooltipData".toList, Spec.nameHash "mLocKeys".toList]
    ((∃ v keys, Reaches sf path v ∧ Unwrapped v (.dict keys) ∧ Spec.LocText keys "keyName".toList name ∧ Spec.LocText keys "keyTooltip".toList desc) ∨
     ((NotReached sf path ∨ ∃ v p, Reaches sf path v ∧ Unwrapped v p ∧ Spec.Falsy p) ∧ name = .none ∧ desc = .none))

/-- A field with this name -/
def Spec.FieldNamed (env : BinEnv) (f : BinField) (name : Str) : Prop :=
  (env.known .field).get? f.name = some name ∨ ((env.known .field).get? f.name = none ∧ f.name = Spec.nameHash name)

/-- Paths given by an item of the list of traits of a champion -/
def Spec.LinkedTrait (env : BinEnv) (item : BinPy) (part : List BinPy) : Prop :=
  (∃ t fields, item = .value (.embedded t fields) ∧ Spec.Picks (fun f p => Spec.FieldNamed env f "TraitData".toList ∧ p = .value f.value) fields part) ∨
  (∃ k h, item = .value (.hashed k h) ∧ part = [.value (.int (Int.ofNat h))])

/-- The names of the known traits of a champion -/
def Spec.ChampTraits (env : BinEnv) (traits : Dict Nat TraitData) (record : List BinField) (names : List BinPy) : Prop :=
  ∃ l items parts, Spec.GivesOr record "mLinkedTraits".toList (.list []) l ∧ Spec.Items l items ∧ List.Forall₂ (Spec.LinkedTrait env) items parts ∧
    Spec.Picks (fun p name => ∃ h t, Spec.IsPath p h ∧ traits.get? h = some t ∧ name = t.name) parts.flatten names

/-- The cost: the tier, or a formula on the rarity -/
def Spec.Cost (champ record : List BinField) (cost : BinPy) : Prop :=
  (cost ≠ .none ∧ Spec.Gives record "tier".toList cost) ∨
  (Spec.GivesOr record "tier".toList .none .none ∧ ∃ n : Int, Spec.GivesOr champ "mRarity".toList (.value (.int 0)) (.value (.int n)) ∧
    cost = .value (.int (n + 1 + (n + 1).tdiv 6)))

/-- The role: the name of the entry with this path -/
def Spec.Role (env : BinEnv) (entries : List BinEntry) (record : List BinField) (role : BinPy) : Prop :=
  (Spec.GivesOr record "CharacterRole".toList .none .none ∧ role = .none) ∨
  ∃ p e, Spec.Gives record "CharacterRole".toList p ∧ Spec.LinksTo (fun e => Spec.HasType env e "TFTCharacterRoleData".toList) entries p e ∧
    Spec.GivesOr e.fields "name".toList .none role

/-- A statistic: the base value of an object, or the value of an old field when there is no object -/
def Spec.Stat (record : List BinField) (name old : Str) (default p : BinPy) : Prop :=
  (Spec.GivesOr record name .none .none ∧ Spec.GivesOr record old default p) ∨
  ∃ x f, Spec.Gives record name x ∧ Spec.IsObject x f ∧ Spec.GivesOr f "BaseValue".toList default p

/-- The mana: 100 when it is not given -/
def Spec.Mana (record : List BinField) (p : BinPy) : Prop :=
  (Spec.GivesOr record "primaryAbilityResource".toList .none .none ∧ p = .value (.int 100)) ∨
  ∃ x f, Spec.Gives record "primaryAbilityResource".toList x ∧ Spec.IsObject x f ∧
    ((∃ y m, Spec.GivesHash f 0x726ee5cd y ∧ Spec.IsObject y m ∧ Spec.GivesOr m "BaseValue".toList (.value (.int 100)) p) ∨
     ((Spec.LacksHash f 0x726ee5cd ∨ Spec.GivesHash f 0x726ee5cd .none) ∧ Spec.GivesOr f "arBase".toList (.value (.int 100)) p))

/-- The range, in units of 180: rounded down for integers -/
def Spec.Range (lib : TftLib) (record : List BinField) (p : BinPy) : Prop :=
  ∃ r, Spec.Stat record "attackRangeModifiable".toList "attackRange".toList (.value (.int 0)) r ∧
    ((∃ n q : Int, r = .value (.int n) ∧ p = .value (.int q) ∧ 180 * q ≤ n ∧ n < 180 * (q + 1)) ∨ ∃ b, r = .value (.float b) ∧ p = lib.div180 b)

/-- The text in a field, or the value of another field when it is empty -/
def Spec.TextOrField (env : BinEnv) (fields : List BinField) (name other : Str) (p : BinPy) : Prop :=
  ∀ q s, Spec.GivesOr fields name .none q → Spec.Shown env q s → (s ≠ [] ∧ p = .value (.str s)) ∨ (s = [] ∧ Spec.GivesOr fields other .none p)

/-- The value of a field, or another one when it is missing, empty or zero -/
def Spec.FieldOrElse (fields : List BinField) (name : Str) (other p : BinPy) : Prop :=
  ∃ q, Spec.GivesOr fields name .none q ∧ ((¬ Spec.Falsy q ∧ p = q) ∨ (Spec.Falsy q ∧ p = other))

/-- Statistics of a champion -/
structure Spec.StatsFrom (lib : TftLib) (record : List BinField) (s : ChampStats) : Prop where
  hp : Spec.Stat record "baseHPModifiable".toList "baseHP".toList .none s.hp
  mana : Spec.Mana record s.mana
  initialMana : Spec.GivesOr record "mInitialMana".toList (.value (.int 0)) s.initialMana
  damage : Spec.Stat record "baseDamageModifiable".toList "BaseDamage".toList .none s.damage
  armor : Spec.Stat record "baseArmorModifiable".toList "baseArmor".toList .none s.armor
  magicResist : Spec.Stat record "baseMR".toList "baseSpellBlock".toList .none s.magicResist
  critMultiplier : Spec.GivesOr record "critDamageMultiplier".toList .none s.critMultiplier
  critChance : Spec.GivesOr record "baseCritChance".toList .none s.critChance
  attackSpeed : Spec.Stat record "attackSpeedModifiable".toList "attackSpeed".toList .none s.attackSpeed
  range : Spec.Range lib record s.range

/-- A champion of the output, from its entry, the entries of its file and its record -/
structure Spec.ChampFrom (lib : TftLib) (entries : List BinEntry) (traits : Dict Nat TraitData) (champ : List BinField) (file : List BinEntry) (record : List BinField)
    (c : ChampData) : Prop where
  apiName : Spec.GivesOr champ "mName".toList .none c.apiName
  characterName : Spec.GivesOr record "mCharacterName".toList .none c.characterName
  name : Spec.GivesOr champ "mDisplayNameTra".toList .none c.name
  cost : Spec.Cost champ record c.cost
  icon : Spec.TextOrField lib.bin champ "PcSplashPath".toList "mIconPath".toList c.icon
  tileIcon : ∀ p, Spec.GivesOr champ "TeamPlannerPortraitPath".toList .none p → Spec.StrOf lib.bin p c.tileIcon
  squareIcon : ∀ p, Spec.GivesOr champ "SquareSplashPath".toList .none p → Spec.StrOf lib.bin p c.squareIcon
  traits : Spec.ChampTraits lib.bin traits record c.traits
  role : Spec.Role lib.bin entries record c.role
  stats : Spec.StatsFrom lib record c.stats
  ability : ∃ test spell name desc, Spec.SpellTest record test ∧ Spec.FirstSpell lib.bin file test spell ∧ Spec.Ability spell c.abilityVars name desc ∧
    Spec.FieldOrElse champ "mAbilityNameTra".toList name c.abilityName ∧ Spec.FieldOrElse champ "mDescriptionTra".toList desc c.abilityDesc
  abilityIcon : Spec.TextOrField lib.bin champ "AbilityIconPath".toList "mPortraitIconPath".toList c.abilityIcon

/-- The file of a champion -/
def Spec.ChampFile (fs : FS) (input name path : Str) : Prop :=
  let own := pjoin (pjoin input "characters".toList) (name ++ ".cdtb.bin".toList)
  let common := pjoin (pjoin (pjoin input "data/characters".toList) name) (name ++ ".bin".toList)
  (path = own ∧ ∃ n, fs own = some n) ∨ (path = common ∧ fs own = none ∧ ∃ n, fs common = some n)

/-- What an entry of the shop gives: its name in lower case and a champion, unless it is the template, it has no file, or its record has no spell. -/
def Spec.ShopEntry (lib : TftLib) (fs : FS) (input : Str) (entries : List BinEntry) (traits : Dict Nat TraitData) (champ : List BinField) (o : Option (Str × ChampData)) : Prop :=
  ∃ s, Spec.Gives champ "mName".toList (.value (.str s)) ∧
    ((lower s = "tft_template".toList ∧ o = none) ∨
     (lower s ≠ "tft_template".toList ∧ (∀ path, ¬ Spec.ChampFile fs input (lower s) path) ∧ o = none) ∨
     (lower s ≠ "tft_template".toList ∧ ∃ path data bin record, Spec.ChampFile fs input (lower s) path ∧ fs path = some (.file data) ∧ parseBin none data = .ok bin ∧
        Spec.RecordOf lib.bin bin.entries record ∧
        ((Spec.Lacks record "spells".toList ∧ Spec.Lacks record "spellNames".toList ∧ o = none) ∨
         ∃ c, Spec.ChampFrom lib entries traits champ bin.entries record c ∧ o = some (lower s, c))))

/-! ## Items -/

/-- The entry of an item which is kept: neither a template nor the null item -/
def Spec.IsItem (env : BinEnv) (e : BinEntry) (name : Str) : Prop :=
  Spec.HasType env e "TftItemData".toList ∧ Spec.Gives e.fields "mName".toList (.value (.str name)) ∧ ¬ "Template".toList <:+: name ∧ name ≠ "TFT_Item_Null".toList

/-- A field with a text, or without value -/
def Spec.TextField (fields : List BinField) (name : Str) (o : Option Str) : Prop :=
  (∃ s, o = some s ∧ Spec.Gives fields name (.value (.str s))) ∨ (o = none ∧ Spec.GivesOr fields name .none .none)

/-- A field with a list of links -/
def Spec.LinkField (fields : List BinField) (name : Str) (l : List Nat) : Prop :=
  ∃ p items, Spec.GivesOr fields name (.list []) p ∧ Spec.Items p items ∧ List.Forall₂ (fun i h => ∃ k, i = .value (.hashed k h)) items l

/-- An item, from its entry; links to other items and to traits are replaced by names in the output (C54). -/
structure Spec.ItemFrom (env : BinEnv) (e : BinEntry) (i : RawItem ItemData) : Prop where
  hash : i.hash = e.path
  name : ∃ s, i.name = some s ∧ Spec.Gives e.fields "mName".toList (.value (.str s))
  id : (∃ n, i.id = some n ∧ Spec.Gives e.fields "mId".toList (.value (.int n))) ∨ (i.id = none ∧ Spec.GivesOr e.fields "mId".toList .none .none)
  displayName : Spec.TextField e.fields "mDisplayNameTra".toList i.displayName
  desc : Spec.TextField e.fields "mDescriptionNameTra".toList i.desc
  composition : Spec.LinkField e.fields "mComposition".toList i.composition
  associatedTraits : Spec.LinkField e.fields "AssociatedTraits".toList i.associatedTraits
  incompatibleTraits : Spec.LinkField e.fields "IncompatibleTraits".toList i.incompatibleTraits
  icon : ∀ p, Spec.GivesOr e.fields "mIconPath".toList .none p → Spec.StrOf env p i.data.icon
  isAugment : Spec.GivesOr e.fields "IsAugment".toList (.value (.bool false)) i.data.isAugment
  unique : Spec.GivesOr e.fields "mIsUnique".toList (.value (.bool false)) i.data.unique
  effects : Spec.Effects env e.fields i.data.effects
  tags : ∃ p items, Spec.GivesOr e.fields "ItemTags".toList (.list []) p ∧ Spec.Items p items ∧ List.Forall₂ (Spec.StrOf env) items i.data.tags

end Cdtb
