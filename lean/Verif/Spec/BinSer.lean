import Verif.Model.Bin
/-!
# Specification: what BIN values look like once serialized, when no name collides

`Shows display v s`: `s` shows the whole content of `v`; `display` gives the text of hashed names.
-/
namespace Cdtb.Spec
set_option autoImplicit false
open Py

/-- Serialized values that cannot be keys of dicts: lists and dicts -/
def Ser.IsContainer : Ser → Prop
  | .list _ => True
  | .obj _ => True
  | .dict _ => True
  | _ => False

/-- An object shows one item per field, in order, then its type; the names must be distinct, and not `__type`. -/
def objectItems (names : List Str) (values : List Ser) (type : Str) : List (Str × Ser) :=
  names.zip values ++ [("__type".toList, .str type)]
def NoClash (names : List Str) : Prop := names.Nodup ∧ "__type".toList ∉ names

mutual
inductive Shows (display : BinHashKind → Nat → Str) : BinValue → Ser → Prop
  | tuple (l : List Nat) : Shows display (.tuple l) (.tuple l)
  | bool (b : Bool) : Shows display (.bool b) (.bool b)
  | int (n : Int) : Shows display (.int n) (.int n)
  | float (b : Nat) : Shows display (.float b) (.float b)
  | floats (l : List Nat) : Shows display (.floats l) (.floats l)
  | matrix (l : List (List Nat)) : Shows display (.matrix l) (.matrix l)
  | str (s : Str) : Shows display (.str s) (.str s)
  | hashed (k : BinHashKind) (h : Nat) : Shows display (.hashed k h) (.str (display k h))
  | list (t : BinType) (vs : List BinValue) (ss : List Ser) : ShowsList display vs ss → Shows display (.list t vs) (.list ss)
  | null : Shows display (.struct 0 []) .none
  | struct (htype : Nat) (fs : List BinField) (ss : List Ser) : htype ≠ 0 → ShowsFields display fs ss →
      NoClash (fs.map (fun f => display .field f.name)) →
      Shows display (.struct htype fs) (.obj (objectItems (fs.map (fun f => display .field f.name)) ss (display .type htype)))
  | embedded (htype : Nat) (fs : List BinField) (ss : List Ser) : ShowsFields display fs ss →
      NoClash (fs.map (fun f => display .field f.name)) →
      Shows display (.embedded htype fs) (.obj (objectItems (fs.map (fun f => display .field f.name)) ss (display .type htype)))
  | nothing (t : BinType) : Shows display (.option t none) .none
  | some (t : BinType) (v : BinValue) (s : Ser) : Shows display v s → Shows display (.option t (some v)) s
  | map (kt vt : BinType) (ps : List BinPair) (d : List (Ser × Ser)) : ShowsPairs display ps d →
      (∀ kv ∈ d, ¬ Ser.IsContainer kv.1) → d.Pairwise (fun a b => ¬ a.1.sameKey b.1) → Shows display (.map kt vt ps) (.dict d)
inductive ShowsList (display : BinHashKind → Nat → Str) : List BinValue → List Ser → Prop
  | nil : ShowsList display [] []
  | cons (v : BinValue) (s : Ser) (vs : List BinValue) (ss : List Ser) :
      Shows display v s → ShowsList display vs ss → ShowsList display (v :: vs) (s :: ss)
inductive ShowsFields (display : BinHashKind → Nat → Str) : List BinField → List Ser → Prop
  | nil : ShowsFields display [] []
  | cons (name : Nat) (t : BinType) (v : BinValue) (s : Ser) (fs : List BinField) (ss : List Ser) :
      Shows display v s → ShowsFields display fs ss → ShowsFields display (.mk name t v :: fs) (s :: ss)
inductive ShowsPairs (display : BinHashKind → Nat → Str) : List BinPair → List (Ser × Ser) → Prop
  | nil : ShowsPairs display [] []
  | cons (k v : BinValue) (sk sv : Ser) (ps : List BinPair) (d : List (Ser × Ser)) :
      Shows display k sk → Shows display v sv → ShowsPairs display ps d → ShowsPairs display (.mk k v :: ps) ((sk, sv) :: d)
end

/-- The text of a hashed name: the known one, or its hash between braces, on 8 hexadecimal digits (16 for paths) -/
def displayed (known : BinHashKind → Nat → Option Str) (kind : BinHashKind) (h : Nat) : Str :=
  match known kind h with
  | some s => s
  | none => ['{'] ++ hexW (if kind = .path then 16 else 8) h ++ ['}']

/-- Keys that are neither lists, objects nor maps, at any depth of options -/
inductive PlainKey : BinValue → Prop
  | tuple (l : List Nat) : PlainKey (.tuple l)
  | bool (b : Bool) : PlainKey (.bool b)
  | int (n : Int) : PlainKey (.int n)
  | float (b : Nat) : PlainKey (.float b)
  | floats (l : List Nat) : PlainKey (.floats l)
  | matrix (l : List (List Nat)) : PlainKey (.matrix l)
  | str (s : Str) : PlainKey (.str s)
  | hashed (k : BinHashKind) (h : Nat) : PlainKey (.hashed k h)
  | null : PlainKey (.struct 0 [])
  | nothing (t : BinType) : PlainKey (.option t none)
  | some (t : BinType) (v : BinValue) : PlainKey v → PlainKey (.option t (some v))

mutual
/-- Values whose maps only have keys that stay plain values once serialized -/
inductive PlainMaps : BinValue → Prop
  | tuple (l : List Nat) : PlainMaps (.tuple l)
  | bool (b : Bool) : PlainMaps (.bool b)
  | int (n : Int) : PlainMaps (.int n)
  | float (b : Nat) : PlainMaps (.float b)
  | floats (l : List Nat) : PlainMaps (.floats l)
  | matrix (l : List (List Nat)) : PlainMaps (.matrix l)
  | str (s : Str) : PlainMaps (.str s)
  | hashed (k : BinHashKind) (h : Nat) : PlainMaps (.hashed k h)
  | list (t : BinType) (vs : List BinValue) : PlainMapsList vs → PlainMaps (.list t vs)
  | struct (htype : Nat) (fs : List BinField) : PlainMapsFields fs → PlainMaps (.struct htype fs)
  | embedded (htype : Nat) (fs : List BinField) : PlainMapsFields fs → PlainMaps (.embedded htype fs)
  | nothing (t : BinType) : PlainMaps (.option t none)
  | some (t : BinType) (v : BinValue) : PlainMaps v → PlainMaps (.option t (some v))
  | map (kt vt : BinType) (ps : List BinPair) : PlainMapsPairs ps → PlainMaps (.map kt vt ps)
inductive PlainMapsList : List BinValue → Prop
  | nil : PlainMapsList []
  | cons (v : BinValue) (vs : List BinValue) : PlainMaps v → PlainMapsList vs → PlainMapsList (v :: vs)
inductive PlainMapsFields : List BinField → Prop
  | nil : PlainMapsFields []
  | cons (name : Nat) (t : BinType) (v : BinValue) (fs : List BinField) :
      PlainMaps v → PlainMapsFields fs → PlainMapsFields (.mk name t v :: fs)
inductive PlainMapsPairs : List BinPair → Prop
  | nil : PlainMapsPairs []
  | cons (k v : BinValue) (ps : List BinPair) : PlainKey k → PlainMaps v → PlainMapsPairs ps → PlainMapsPairs (.mk k v :: ps)
end

end Cdtb.Spec
