import Verif.Model.Rst
import Verif.Model.Bin
import Verif.Py.Utf8
import Verif.Py.Str
/-!
# Model of `cdtb/tftdata.py`
-/
namespace Cdtb
set_option autoImplicit false
open Py

/-! ## Translations -/

/-- Lines of a file opened in binary mode: cut after each `\n` (the last one may have none). -/
def byteLines : Bytes → List Bytes
  | [] => []
  | b :: bs =>
    if b = 10 then [b] :: byteLines bs
    else match byteLines bs with
      | [] => [[b]]
      | l :: ls => (b :: l) :: ls

/-- `s[n:-m]` for positive `n` and `m` -/
def sliceEnds (n m : Nat) (s : Str) : Str := (s.take (s.length - m)).drop n

/-- `b'tr "'` -/
def trPrefix : Bytes := [116, 114, 32, 34]

/-- A line of a text table (cdtb/tftdata.py:17-22): nothing, or a key and a value. A line without `=` raises `ValueError`
(unpacking of one item), text that is not UTF-8 `UnicodeDecodeError`. -/
def trLine (line : Bytes) : Res (Option (Str × Str)) :=
  if trPrefix.isPrefixOf line then
    match utf8 line with
    | .error e => .error e
    | .ok s => match split1 '=' s with
      | none => .error .value
      | some (key, val) => .ok (some (sliceEnds 4 2 key, sliceEnds 2 2 val))
  else .ok none

/-- The loop on lines (cdtb/tftdata.py:15-22) -/
def trLines : Dict Str Str → List Bytes → Res (Dict Str Str)
  | d, [] => .ok d
  | d, l :: ls => match trLine l with
    | .error e => .error e
    | .ok none => trLines d ls
    | .ok (some (k, v)) => trLines (d.set k v) ls

/-- What `load_translations` returns -/
inductive TrTable where
  | rst (r : Rst)
  | text (d : Dict Str Str)

/-- `load_translations` (cdtb/tftdata.py:9-23) on the content of the file. The three bytes read to recognize RST files are
not read again for text files. -/
def loadTranslations (env : RstEnv) (gameVersion : Nat) (data : Bytes) : Res TrTable :=
  if data.take 3 = [0x52, 0x53, 0x54] then do
    let r ← (parseRst env gameVersion).run data
    .ok (.rst r)
  else do
    let d ← trLines [] (byteLines (data.drop 3))
    .ok (.text d)

/-- `replacements[v] if v in replacements else v`, `replacements.get(v, v)` (cdtb/tftdata.py:78-83) for a string or `None`.
Values of other types are not modelled. -/
def TrTable.tr (env : RstEnv) (t : TrTable) (v : Option Str) : Option Str :=
  match t with
  | .rst r =>
    let key : RstKey := match v with
      | some s => .str s
      | none => .other
    if r.hasKey env key then (match r.getitem env key with
      | .ok x => some x
      | .error _ => v) else v
  | .text d => match v with
    | some s => match d.get? s with
      | some x => some x
      | none => v
    | none => v

/-! ## Output

Dicts of the template that can be reached through several lists are objects with an identity (a position in a list of
objects), because the code modifies them in place. What is not translated is abstract (`P`). -/

/-- A trait (cdtb/tftdata.py:369-375) -/
structure TftTrait (P : Type) where
  name : Option Str
  desc : Option Str
  data : P
deriving DecidableEq, Repr

/-- A champion (cdtb/tftdata.py:310-337): there is no `desc`, and `ability` always exists -/
structure TftChamp (P : Type) where
  name : Option Str
  traits : List (Option Str)
  abilityName : Option Str
  abilityDesc : Option Str
  data : P
deriving DecidableEq, Repr

/-- An item (cdtb/tftdata.py:213-226, 231-239) -/
structure TftItem (P : Type) where
  id : Option Int
  name : Option Str
  apiName : Option Str
  desc : Option Str
  composition : List (Option Str)
  associatedTraits : List (Option Str)
  incompatibleTraits : List (Option Str)
  «from» : Option (List (Option Int))
  data : P
deriving DecidableEq, Repr

/-- A set, as returned by `parse_sets` (cdtb/tftdata.py:133-198): names of characters, traits (objects) -/
structure TftSet where
  number : Int
  mutator : Option Str
  name : Option Str
  chars : List Str
  traits : List Nat
  augments : List Str
  items : List Str
deriving DecidableEq, Repr

/-- An entry of `setData` (cdtb/tftdata.py:112-120); traits and champions are objects -/
structure TftSetData where
  number : Int
  mutator : Option Str
  name : Option Str
  traits : List Nat
  champions : List Nat
  augments : List Str
  items : List Str
deriving DecidableEq, Repr

/-- An entry of `sets` (cdtb/tftdata.py:121-125) -/
structure TftSetInfo where
  name : Option Str
  traits : List Nat
  champions : List Nat
deriving DecidableEq, Repr

/-- `[champs[name] for name in set_chars if name in champs]` (cdtb/tftdata.py:110-111): the objects -/
def setChampions (champs : Dict Str Nat) (chars : List Str) : List Nat := chars.filterMap champs.get?

/-- The entry of `setData` for a set (cdtb/tftdata.py:110-120) -/
def setDataOf (champs : Dict Str Nat) (s : TftSet) : TftSetData :=
  { number := s.number, mutator := s.mutator, name := s.name, traits := s.traits, champions := setChampions champs s.chars
    augments := s.augments, items := s.items }

/-- The loop of `build_output_sets` (cdtb/tftdata.py:109-125) -/
def outputSetsGo (champs : Dict Str Nat) (acc : Dict Int TftSetInfo × List TftSetData) : List TftSet → Dict Int TftSetInfo × List TftSetData
  | [] => acc
  | s :: rest => outputSetsGo champs
      (acc.1.set s.number { name := s.name, traits := s.traits, champions := setChampions champs s.chars }, acc.2 ++ [setDataOf champs s]) rest

/-- `build_output_sets` (cdtb/tftdata.py:104-126) -/
def buildOutputSets (sets : List TftSet) (champs : Dict Str Nat) : Dict Int TftSetInfo × List TftSetData := outputSetsGo champs ([], []) sets

/-- The template (cdtb/tftdata.py:40-57) with the objects it refers to -/
structure TftTemplate (P : Type) where
  traits : List (TftTrait P)
  champs : List (TftChamp P)
  sets : Dict Int TftSetInfo
  setData : List TftSetData
  items : List (TftItem P)

/-- `replace_in_data` on a trait (cdtb/tftdata.py:78-81, 86-87) -/
def TftTrait.translate {P : Type} (tr : Option Str → Option Str) (t : TftTrait P) : TftTrait P :=
  { t with name := tr t.name, desc := tr t.desc }

/-- The translation of a champion (cdtb/tftdata.py:88-92) -/
def TftChamp.translate {P : Type} (tr : Option Str → Option Str) (c : TftChamp P) : TftChamp P :=
  { c with name := tr c.name, traits := c.traits.map tr, abilityName := tr c.abilityName, abilityDesc := tr c.abilityDesc }

/-- `replace_in_data` on an item (cdtb/tftdata.py:78-81, 98-99) -/
def TftItem.translate {P : Type} (tr : Option Str → Option Str) (i : TftItem P) : TftItem P :=
  { i with name := tr i.name, desc := tr i.desc }

/-- In-place translation of one object after the other (cdtb/tftdata.py:85-92) -/
def translateObjects {α : Type} (f : α → α) (objs : List α) (refs : List Nat) : List α := refs.foldl (fun l r => l.modify r f) objs

/-- `replace_set_data` (cdtb/tftdata.py:85-92) -/
def replaceSetData {P : Type} (tr : Option Str → Option Str) (t : TftTemplate P) (traits champions : List Nat) : TftTemplate P :=
  { t with traits := translateObjects (TftTrait.translate tr) t.traits traits
           champs := translateObjects (TftChamp.translate tr) t.champs champions }

/-- The translation of a copy of the template (cdtb/tftdata.py:75-99); `copy.deepcopy` keeps the sharing of objects -/
def TftTemplate.translate {P : Type} (tr : Option Str → Option Str) (t : TftTemplate P) : TftTemplate P :=
  let t1 := t.sets.values.foldl (fun t s => replaceSetData tr t s.traits s.champions) t
  let t2 := t1.setData.foldl (fun t s => replaceSetData tr t s.traits s.champions) t1
  { t2 with items := t2.items.map (TftItem.translate tr) }

/-- `export` (cdtb/tftdata.py:59-102): for each language, the file `<lang>.json` and what it contains, and the exception that ends
the loop. `table` is `load_translations(stringtables[lang])`, with `KeyError` for languages without string table. Writing errors
are not modelled. -/
def tftExport {P : Type} (env : RstEnv) (table : Str → Res TrTable) (template : TftTemplate P) (out : Dict Str (TftTemplate P)) :
    List Str → Dict Str (TftTemplate P) × Res Unit
  | [] => (out, .ok ())
  | lang :: langs => match table lang with
    | .error e => (out, .error e)
    | .ok t => tftExport env table template (out.set lang (template.translate (t.tr env))) langs

/-! ## Items -/

/-- An entry of type `TftItemData`: the values the code reads (cdtb/tftdata.py:208-226). The reading of fields in BIN files is
`getv` (property C23). -/
structure RawItem (P : Type) where
  hash : Nat
  name : Option Str
  id : Option Int
  displayName : Option Str
  desc : Option Str
  composition : List Nat
  associatedTraits : List Nat
  incompatibleTraits : List Nat
  data : P
deriving DecidableEq, Repr

/-- `"Template" in name or name == "TFT_Item_Null"` (cdtb/tftdata.py:209-211); `TypeError` when there is no name -/
def itemSkipped (name : Option Str) : Res Bool :=
  match name with
  | none => .error .type
  | some n => .ok (containsSub n "Template".toList || n = "TFT_Item_Null".toList)

/-- The first loop (cdtb/tftdata.py:206-228): the items that are kept -/
def keptItems {P : Type} : List (RawItem P) → Res (List (RawItem P))
  | [] => .ok []
  | i :: rest => do
    let skip ← itemSkipped i.name
    let r ← keptItems rest
    .ok (if skip then r else i :: r)

/-- The second loop on an item (cdtb/tftdata.py:231-239): unknown hashes raise `KeyError` -/
def resolveItem {P : Type} (byHash : Dict Nat (RawItem P)) (traits : Dict Nat (Option Str)) (i : RawItem P) : Res (TftItem P) := do
  let from_ ← match i.id with
    | some _ => do
      let l ← i.composition.mapM fun h => (byHash.get h).map fun x => x.id
      .ok (some l)
    | none => .ok none
  let composition ← i.composition.mapM fun h => (byHash.get h).map fun x => x.name
  let incompatible ← i.incompatibleTraits.mapM traits.get
  let associated ← i.associatedTraits.mapM traits.get
  .ok { id := i.id, name := i.displayName, apiName := i.name, desc := i.desc, composition, associatedTraits := associated
        incompatibleTraits := incompatible, «from» := from_, data := i.data }

/-- `parse_items` (cdtb/tftdata.py:200-240); `traits` are the hashes and names of entries of type `TftTraitData` -/
def parseItems {P : Type} (items : List (RawItem P)) (traits : List (Nat × Option Str)) : Res (List (TftItem P)) := do
  let kept ← keptItems items
  kept.mapM (resolveItem (Dict.ofList (kept.map fun i => (i.hash, i))) (Dict.ofList traits))

end Cdtb
