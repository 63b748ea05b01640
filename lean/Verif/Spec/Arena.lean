import Verif.Spec.PyData
import Verif.Model.Arena
import Verif.Props.C49
/-!
# Specification: data of Arena
-/
namespace Cdtb
set_option autoImplicit false
open Py Spec

/-- Values that Python considers false -/
inductive Spec.Falsy : BinPy → Prop
  | default : Spec.Falsy .default
  | none : Spec.Falsy .none
  | bool : Spec.Falsy (.value (.bool false))
  | int : Spec.Falsy (.value (.int 0))
  | float (b : Nat) (h : b % 2 ^ 31 = 0) : Spec.Falsy (.value (.float b))
  | str : Spec.Falsy (.value (.str []))
  | tuple : Spec.Falsy (.value (.tuple []))
  | floats : Spec.Falsy (.value (.floats []))
  | matrix : Spec.Falsy (.value (.matrix []))
  | list : Spec.Falsy (.list [])
  | dict : Spec.Falsy (.dict [])

/-- A key of a dict that is equal to zero -/
inductive Spec.ZeroKey : BinValue → Prop
  | int : Spec.ZeroKey (.int 0)
  | bool : Spec.ZeroKey (.bool false)
  | float (b : Nat) (h : b % 2 ^ 31 = 0) : Spec.ZeroKey (.float b)
  | hashed (k : BinHashKind) : Spec.ZeroKey (.hashed k 0)

/-- The item `0` of a value -/
inductive Spec.FirstItem : BinPy → BinPy → Prop
  | list (x : BinValue) (l : List BinValue) : Spec.FirstItem (.list (x :: l)) (.value x)
  | dict (p : BinPair) (a b : List BinPair) (h : Spec.ZeroKey p.key) (ha : ∀ q ∈ a, ¬ Spec.ZeroKey q.key) : Spec.FirstItem (.dict (a ++ p :: b)) (.value p.value)
  | str (c : Char) (s : Str) : Spec.FirstItem (.value (.str (c :: s))) (.value (.str [c]))
  | tuple (n : Nat) (l : List Nat) : Spec.FirstItem (.value (.tuple (n :: l))) (.value (.int (Int.ofNat n)))
  | floats (b : Nat) (l : List Nat) : Spec.FirstItem (.value (.floats (b :: l))) (.value (.float b))
  | matrix (r : List Nat) (l : List (List Nat)) : Spec.FirstItem (.value (.matrix (r :: l))) (.value (.floats r))

/-- What a loop on a value goes through -/
inductive Spec.Items : BinPy → List BinPy → Prop
  | list (l : List BinValue) : Spec.Items (.list l) (l.map .value)
  | dict (l : List BinPair) : Spec.Items (.dict l) (l.map fun p => .value p.key)
  | str (s : Str) : Spec.Items (.value (.str s)) (s.map fun c => .value (.str [c]))
  | tuple (l : List Nat) : Spec.Items (.value (.tuple l)) (l.map fun n => .value (.int (Int.ofNat n)))
  | floats (l : List Nat) : Spec.Items (.value (.floats l)) (l.map fun b => .value (.float b))
  | matrix (l : List (List Nat)) : Spec.Items (.value (.matrix l)) (l.map fun r => .value (.floats r))

/-- Two values that are the same name -/
inductive Spec.SameName : BinPy → BinPy → Prop
  | none : Spec.SameName .none .none
  | str (s : Str) : Spec.SameName (.value (.str s)) (.value (.str s))
  | hashed (k k' : BinHashKind) (h : Nat) : Spec.SameName (.value (.hashed k h)) (.value (.hashed k' h))

/-- A value that can be a key of a dict -/
def Spec.Hashable (p : BinPy) : Prop := (∀ l, p ≠ .list l) ∧ ∀ l, p ≠ .dict l

/-- A data value of a spell: its name, and either all its values or the first of its old list of values, which cannot be empty. -/
def Spec.DataValue (item name value : BinPy) : Prop :=
  ∃ fields old first, Spec.IsObject item fields ∧ Spec.GivesOr fields "mValues".toList (.list [.int 0]) old ∧ Spec.FirstItem old first ∧
    Spec.GivesEither fields "name".toList "mName".toList .none name ∧ Spec.GivesOr fields "values".toList first value ∧ Spec.Hashable name

/-- `d` gives to each name the value of the last item with this name. -/
structure Spec.LastValues (items : List (BinPy × BinPy)) (d : List (BinPy × BinPy)) : Prop where
  /-- each name is there once -/
  once : d.Pairwise fun x y => ¬ Spec.SameName x.1 y.1
  /-- for names that are strings or hashes, or no name -/
  last : ∀ k v, Spec.SameName k k → ((∃ k', Spec.SameName k k' ∧ (k', v) ∈ d) ↔
    ∃ a b k', items = a ++ (k', v) :: b ∧ Spec.SameName k k' ∧ ∀ x ∈ b, ¬ Spec.SameName k x.1)

/-- `e` is the last spell of the file with the path `h`. -/
def Spec.SpellAt (env : BinEnv) (entries : List BinEntry) (h : Nat) (e : BinEntry) : Prop :=
  ∃ a b, entries = a ++ e :: b ∧ Spec.HasType env e "SpellObject".toList ∧ e.path = h ∧ ∀ x ∈ b, Spec.HasType env x "SpellObject".toList → x.path ≠ h

/-- A value which is the path `h` -/
inductive Spec.IsPath : BinPy → Nat → Prop
  | hashed (k : BinHashKind) (h : Nat) : Spec.IsPath (.value (.hashed k h)) h
  | int (h : Nat) : Spec.IsPath (.value (.int h)) h

/-- Data values and calculations of an augment: those of its spell, if there is one. Calculations are the serialized value (C24). -/
def Spec.AugmentData (env : BinEnv) (entries : List BinEntry) (fields : List BinField) (values : List (BinPy × BinPy)) (calculations : Ser) : Prop :=
  ∃ root, Spec.GivesOr fields "RootSpell".toList .none root ∧
    ((Spec.Falsy root ∧ values = [] ∧ calculations = .obj []) ∨
     (¬ Spec.Falsy root ∧ ∃ h e spell sf l items pairs, Spec.IsPath root h ∧ Spec.SpellAt env entries h e ∧
        Spec.Gives e.fields "mSpell".toList spell ∧ Spec.IsObject spell sf ∧
        Spec.GivesEither sf "DataValues".toList "mDataValues".toList (.list []) l ∧ Spec.Items l items ∧
        List.Forall₂ (fun item (x : BinPy × BinPy) => Spec.DataValue item x.1 x.2) items pairs ∧ Spec.LastValues pairs values ∧
        ((∃ f, FirstField sf (Spec.nameHash "mSpellCalculations".toList) f ∧ ser env f.value = .ok calculations) ∨
         (Spec.Lacks sf "mSpellCalculations".toList ∧ calculations = .obj []))))

/-- The text of a value, for the types that are used for paths -/
inductive Spec.Shown (env : BinEnv) : BinPy → Str → Prop
  | none : Spec.Shown env .none "None".toList
  | str (s : Str) : Spec.Shown env (.value (.str s)) s
  | known (k : BinHashKind) (h : Nat) (s : Str) (hs : (env.known k).get? h = some s) : Spec.Shown env (.value (.hashed k h)) s
  | unknown (k : BinHashKind) (h : Nat) (hk : k ≠ .path) (hs : (env.known k).get? h = none) : Spec.Shown env (.value (.hashed k h)) ('{' :: hexW 8 h ++ ['}'])
  | unknownPath (h : Nat) (hs : (env.known .path).get? h = none) : Spec.Shown env (.value (.hashed .path h)) ('{' :: hexW 16 h ++ ['}'])

/-- The public path of an icon: textures are PNG images, the path is in lower case. -/
def Spec.IconPath (path icon : Str) : Prop :=
  (∃ dir stem, IsTexture path dir stem ∧ icon = lower dir ++ lower stem ++ ".png".toList) ∨
  ((∀ dir stem, ¬ IsTexture path dir stem) ∧ icon = lower path)

/-- The icon in a field -/
def Spec.Icon (env : BinEnv) (fields : List BinField) (name icon : Str) : Prop :=
  ∀ p s, Spec.GivesOr fields name .none p → Spec.Shown env p s → Spec.IconPath s icon

/-- An augment of the output, from its entry -/
structure Spec.AugmentFrom (env : BinEnv) (entries : List BinEntry) (fields : List BinField) (a : Augment) : Prop where
  id : Spec.GivesOr fields "AugmentPlatformId".toList .none a.id
  apiName : Spec.GivesOr fields "AugmentNameId".toList .none a.apiName
  name : Spec.GivesOr fields "NameTra".toList .none a.name
  desc : Spec.GivesOr fields "DescriptionTra".toList .none a.desc
  tooltip : Spec.GivesOr fields "AugmentTooltipTra".toList .none a.tooltip
  iconSmall : Spec.Icon env fields "AugmentSmallIconPath".toList a.iconSmall
  iconLarge : Spec.Icon env fields "AugmentLargeIconPath".toList a.iconLarge
  rarity : Spec.GivesOr fields "rarity".toList (.value (.int 0)) a.rarity
  data : Spec.AugmentData env entries fields a.dataValues a.calculations

/-- An augment is used unless its field `enabled` is there and false. -/
def Spec.AugmentEnabled (fields : List BinField) : Prop := ∀ p, Spec.Gives fields "enabled".toList p → ¬ Spec.Falsy p

/-- `p` becomes `q` with the string table: the text of its identifier, when there is one. -/
def Spec.InLanguage (env : RstEnv) (r : Rst) (p q : BinPy) : Prop :=
  (∃ t, r.getitem env (rstKeyOf p) = .ok t ∧ q = .value (.str t)) ∨ ((∀ t, r.getitem env (rstKeyOf p) ≠ .ok t) ∧ q = p)

/-- The augment in a language: only three fields change. -/
def Spec.AugmentIn (env : RstEnv) (r : Rst) (a b : Augment) : Prop :=
  ∃ name desc tooltip, Spec.InLanguage env r a.name name ∧ Spec.InLanguage env r a.desc desc ∧ Spec.InLanguage env r a.tooltip tooltip ∧
    b = { a with name, desc, tooltip }

end Cdtb
