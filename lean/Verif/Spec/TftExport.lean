import Verif.Spec.TftBin
import Verif.Model.TftExport
import Verif.Props.C54
import Verif.Lemmas.ExportFiles
import Verif.Lemmas.FS
/-!
# Specification: files of TFT data
-/
namespace Cdtb
set_option autoImplicit false
open Py Spec

/-! ## Data read in files -/

open Classical in
/-- What is read in BIN files (C73): names of characters, traits, sets, champions, items -/
structure Spec.TftParsed (lib : TftLib) (fs : FS) (input : Str) (entries : List BinEntry) (names : Dict Nat Str) (traits : Dict Nat TraitData)
    (sets : List SetDef) (champs : Dict Str ChampData) (items : List (TftItem ItemData)) : Prop where
  namesRead : ∀ p n, names.get? p = some n ↔
    ∃ e s, Spec.EntryOf (Spec.IsCharacter lib.bin) entries p e ∧ Spec.Gives e.fields "name".toList (.value (.str s)) ∧ n = lower s
  traitsRead : ∀ p t, traits.get? p = some t → ∃ e, Spec.EntryOf (Spec.IsTrait lib.bin) entries p e ∧ Spec.TraitFrom lib.bin e.fields t
  allTraits : ∀ e ∈ entries, Spec.IsTrait lib.bin e → ∃ t, traits.get? e.path = some t
  setsRead : List.Forall₂ (fun e s => Spec.SetFrom lib.bin entries names traits e.fields s)
    (entries.filter fun e => decide (Spec.HasType lib.bin e "TFTSetData".toList ∧ Spec.UsedSet e.fields)) sets
  champsRead : ∃ results, List.Forall₂ (fun e o => Spec.ShopEntry lib fs input entries traits e.fields o)
      (entries.filter fun e => decide (Spec.HasType lib.bin e "TftShopData".toList)) results ∧ Spec.LastPairs (results.filterMap id) champs
  itemsRead : ∃ raw named, List.Forall₂ (Spec.ItemFrom lib.bin) (entries.filter fun e => decide (∃ name, Spec.IsItem lib.bin e name)) raw ∧
    List.Forall₂ (fun e (x : Nat × Option Str) => x.1 = e.path ∧ Spec.TextField e.fields "mName".toList x.2)
      (entries.filter fun e => decide (Spec.HasType lib.bin e "TftTraitData".toList)) named ∧
    List.Forall₂ (Spec.ItemOutput raw named) raw items

/-! ## Template -/

/-- A text, or no value -/
def Spec.TextValue (p : BinPy) (o : Option Str) : Prop := (∃ s, p = .value (.str s) ∧ o = some s) ∨ (p = .none ∧ o = none)

/-- A trait as an object of the output -/
structure Spec.TraitShown (t : TraitData) (o : TftTrait TftPart) : Prop where
  name : Spec.TextValue t.name o.name
  desc : Spec.TextValue t.desc o.desc
  data : o.data = .trait t

/-- A champion as an object of the output -/
structure Spec.ChampShown (c : ChampData) (o : TftChamp TftPart) : Prop where
  name : Spec.TextValue c.name o.name
  traits : List.Forall₂ Spec.TextValue c.traits o.traits
  abilityName : Spec.TextValue c.abilityName o.abilityName
  abilityDesc : Spec.TextValue c.abilityDesc o.abilityDesc
  data : o.data = .champ c

/-- An item as an object of the output -/
structure Spec.ItemShown (i : TftItem ItemData) (o : TftItem TftPart) : Prop where
  id : o.id = i.id
  name : o.name = i.name
  apiName : o.apiName = i.apiName
  desc : o.desc = i.desc
  composition : o.composition = i.composition
  associatedTraits : o.associatedTraits = i.associatedTraits
  incompatibleTraits : o.incompatibleTraits = i.incompatibleTraits
  old : o.from = i.from
  data : o.data = .item i.data

/-- A set of the output: `traitRef` and `champRef` are the objects of traits and champions. Characters that are not champions are not kept. -/
structure Spec.SetShown (traitRef : Nat → Nat) (champRef : Str → Nat) (champs : Dict Str ChampData) (s : SetDef) (d : TftSetData) : Prop where
  number : s.number = .value (.int d.number)
  mutator : Spec.TextValue s.mutator d.mutator
  name : Spec.TextValue s.name d.name
  traits : d.traits = s.traits.map fun x => traitRef x.1
  champions : Spec.Picks (fun n r => n ∈ champs.keys ∧ r = champRef n) s.chars d.champions
  augments : s.augments = d.augments.map fun x => .value (.str x)
  items : s.items = d.items.map fun x => .value (.str x)

/-- The template made from parsed data -/
structure Spec.TemplateFrom (traits : Dict Nat TraitData) (sets : List SetDef) (champs : Dict Str ChampData) (items : List (TftItem ItemData))
    (traitRef : Nat → Nat) (champRef : Str → Nat) (t : TftTemplate TftPart) : Prop where
  /-- each trait is an object -/
  traitsShown : ∀ h x, traits.get? h = some x → ∃ o, t.traits[traitRef h]? = some o ∧ Spec.TraitShown x o
  traitsInj : ∀ h ∈ traits.keys, ∀ h' ∈ traits.keys, traitRef h = traitRef h' → h = h'
  /-- each champion is an object -/
  champsShown : ∀ n c, champs.get? n = some c → ∃ o, t.champs[champRef n]? = some o ∧ Spec.ChampShown c o
  champsInj : ∀ n ∈ champs.keys, ∀ n' ∈ champs.keys, champRef n = champRef n' → n = n'
  /-- all sets, in order -/
  setData : List.Forall₂ (Spec.SetShown traitRef champRef champs) sets t.setData
  /-- sets by number: the last one -/
  setsShown : ∀ number info, t.sets.get? number = some info ↔ ∃ a d b, t.setData = a ++ d :: b ∧ d.number = number ∧ (∀ x ∈ b, x.number ≠ number) ∧
    info.name = d.name ∧ info.traits = d.traits ∧ info.champions = d.champions
  itemsShown : List.Forall₂ Spec.ItemShown items t.items

/-- The data of a directory -/
def Spec.TftData (lib : TftLib) (fs : FS) (input : Str) (t : TftTemplate TftPart) : Prop :=
  ∃ data bin names traits sets champs items traitRef champRef, fs (pjoin input "data/maps/shipping/map22/map22.bin".toList) = some (.file data) ∧
    parseBin none data = .ok bin ∧ Spec.TftParsed lib fs input bin.entries names traits sets champs items ∧
    Spec.TemplateFrom traits sets champs items traitRef champRef t

/-! ## Translation -/

/-- The text of an identifier in a string table -/
def Spec.tableText (env : RstEnv) : TrTable → Str → Option Str
  | .text d, s => d.get? s
  | .rst r, s => match keyToHash env (.str s) r.hashBits r.gameVersion with
    | .ok h => r.entries.get? h
    | .error _ => none

/-- An identifier is replaced by its text, if there is one. -/
def Spec.retext (text : Str → Option Str) (v : Option Str) : Option Str := v.map fun s => (text s).getD s

/-- The translation of a template. Objects are replaced each time they are listed (C54): only once when no text is an identifier. -/
structure Spec.TftTranslated (text : Str → Option Str) (t u : TftTemplate TftPart) : Prop where
  traits : ∀ r : Nat, u.traits[r]? = t.traits[r]?.map fun x =>
    { x with name := (Spec.retext text)^[Spec.traitUses t r] x.name, desc := (Spec.retext text)^[Spec.traitUses t r] x.desc }
  champs : ∀ r : Nat, u.champs[r]? = t.champs[r]?.map fun x =>
    { x with name := (Spec.retext text)^[Spec.champUses t r] x.name, traits := x.traits.map (Spec.retext text)^[Spec.champUses t r]
             abilityName := (Spec.retext text)^[Spec.champUses t r] x.abilityName, abilityDesc := (Spec.retext text)^[Spec.champUses t r] x.abilityDesc }
  sets : u.sets = t.sets
  setData : u.setData = t.setData
  items : u.items = t.items.map fun i => { i with name := Spec.retext text i.name, desc := Spec.retext text i.desc }

/-- The file of a language is complete: the whole template, with the texts of the string table of this language. `fs` is the file system before
the export. -/
def Spec.TftLangComplete (lib : TftOutLib) (version : Nat) (tables : Dict Str Str) (fs : FS) (t : TftTemplate TftPart) (output : Str) (fs' : FS) (lang : Str) : Prop :=
  ∃ path data table u, tables.get? lang = some path ∧ fs path = some (.file data) ∧ loadTranslations lib.rst version data = .ok table ∧
    Spec.TftTranslated (Spec.tableText lib.rst table) t u ∧ bodyErr (lib.json u) = none ∧
    fs' (pjoin output (lang ++ ".json".toList)) = some (.file (bodyBytes (lib.json u)))

end Cdtb
