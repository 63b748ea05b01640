import Verif.Model.Bin
import Verif.Model.Rst
import Verif.Model.ExportFiles
/-!
# What the exporters of game data use: values of BIN files as Python values, string tables (`cdtb/tools.py`)
-/
namespace Cdtb
set_option autoImplicit false
open Py

/-! ## Python values -/

/-- `getv(name)` (cdtb/binfile.py:161-166) for a name made of ASCII characters, as in all the calls: `none` when there is no such field -/
def fieldV (fields : List BinField) (name : Str) : Option BinPy := match getv fields (.str name) with
  | .ok .default => none
  | .ok p => some p
  | .error _ => none

/-- `getv(name, default)` (cdtb/binfile.py:161-166) -/
def fieldD (fields : List BinField) (name : Str) (default : BinPy) : BinPy := (fieldV fields name).getD default

/-- `x.type == name` (cdtb/binfile.py:41-50) for a name made of ASCII characters -/
def isType (env : BinEnv) (e : BinEntry) (name : Str) : Bool := match (env.mk' .type e.type).eq env (.str name) with
  | .ok b => b
  | .error _ => false

/-- The fields of a value on which `getv` is called: only structures have this method (cdtb/binfile.py:126-176). -/
def fieldsOf : BinPy → Res (List BinField)
  | .value (.struct _ fields) => .ok fields
  | .value (.embedded _ fields) => .ok fields
  | _ => .error .attribute

/-- `bool(v)`: hashes, structures and other objects are true (cdtb/binfile.py:32-293 define neither `__bool__` nor `__len__`). -/
def pyTruthy : BinPy → Bool
  | .default | .none => false
  | .value (.bool b) => b
  | .value (.int n) => decide (n ≠ 0)
  | .value (.float b) => decide (b % 2 ^ 31 ≠ 0)
  | .value (.str s) => !s.isEmpty
  | .value (.tuple l) => !l.isEmpty
  | .value (.floats l) => !l.isEmpty
  | .value (.matrix l) => !l.isEmpty
  | .value _ => true
  | .list l => !l.isEmpty
  | .dict l => !l.isEmpty
  | .self => true

/-- `for x in v`. Structures have `__getitem__`, which raises `KeyError` and not `IndexError` (cdtb/binfile.py:132-137); other objects cannot be
iterated (cdtb/binfile.py:245-293). -/
def iterPy : BinPy → Res (List BinPy)
  | .list l => .ok (l.map .value)
  | .dict l => .ok (l.map fun p => .value p.key)
  | .value (.str s) => .ok (s.map fun c => .value (.str [c]))
  | .value (.tuple l) => .ok (l.map fun n => .value (.int (Int.ofNat n)))
  | .value (.floats l) => .ok (l.map fun b => .value (.float b))
  | .value (.matrix l) => .ok (l.map fun r => .value (.floats r))
  | .value (.struct _ _) => .error .key
  | .value (.embedded _ _) => .error .key
  | _ => .error .type

/-- Whether a key of a dict is equal to `0` (cdtb/binfile.py:32-61 for hashes) -/
def isZeroKey : BinValue → Bool
  | .int n => decide (n = 0)
  | .bool b => !b
  | .float b => decide (b % 2 ^ 31 = 0)
  | .hashed _ h => decide (h = 0)
  | _ => false

/-- `v[0]`. For a dict, `0` is compared with the keys that are numbers or hashes. -/
def index0 : BinPy → Res BinPy
  | .list [] => .error .index
  | .list (x :: _) => .ok (.value x)
  | .dict l => match l.find? (fun p => isZeroKey p.key) with
    | some p => .ok (.value p.value)
    | none => .error .key
  | .value (.str []) => .error .index
  | .value (.str (c :: _)) => .ok (.value (.str [c]))
  | .value (.tuple []) => .error .index
  | .value (.tuple (n :: _)) => .ok (.value (.int (Int.ofNat n)))
  | .value (.floats []) => .error .index
  | .value (.floats (b :: _)) => .ok (.value (.float b))
  | .value (.matrix []) => .error .index
  | .value (.matrix (r :: _)) => .ok (.value (.floats r))
  | .value (.struct _ _) => .error .key
  | .value (.embedded _ _) => .error .key
  | _ => .error .type

/-- `str(v)`; `repr` is used for the other types (floats, tuples, lists, dicts, objects). -/
def strOf (env : BinEnv) (repr : BinPy → Str) : BinPy → Str
  | .none | .default => "None".toList
  | .value (.str s) => s
  | .value (.hashed k h) => (env.mk' k h).str
  | .value (.bool b) => if b then "True".toList else "False".toList
  | .value (.int n) => showInt n
  | p => repr p

/-- Whether `v` can be a key of a dict -/
def hashablePy : BinPy → Bool
  | .list _ | .dict _ => false
  | _ => true

/-- Whether two values are the same key of a dict; values of different types are considered different. -/
def samePy : BinPy → BinPy → Bool
  | .none, .none => true
  | .value a, .value b => a.sameKey b
  | _, _ => false

/-- `d[k] = v` on a dict whose keys are values of BIN files -/
def pySet {V : Type} (d : List (BinPy × V)) (k : BinPy) (v : V) : List (BinPy × V) := match d with
  | [] => [(k, v)]
  | (k', v') :: r => if samePy k' k then (k', v) :: r else (k', v') :: pySet r k v

/-- `d[k]` on a dict whose keys are paths of entries (cdtb/binfile.py:41-61: equal to the number or to another hash). The hash of a string is
considered different from the keys. -/
def byPath {V : Type} (d : Dict Nat V) : BinPy → Res V
  | .value (.hashed _ h) => match d.get? h with
    | some v => .ok v
    | none => .error .key
  | .value (.int n) => match d.get? n.toNat with
    | some v => if n < 0 then .error .key else .ok v
    | none => .error .key
  | .list _ | .dict _ => .error .type
  | _ => .error .key

/-- The key of a lookup in a string table (cdtb/rstfile.py:13-19): `n & mask` needs an integer. -/
def rstKeyOf : BinPy → RstKey
  | .value (.str s) => .str s
  | .value (.int n) => .int n
  | .value (.bool b) => .int (if b then 1 else 0)
  | _ => .other

/-! ## String tables -/

/-- Names that match `??_??` (`glob` skips names that start with a dot) -/
def globLang (n : Str) : Bool := match n with
  | [a, _, c, _, _] => decide (a ≠ '.' ∧ c = '_')
  | _ => false

/-- `re.search(pre + "(.._..)" + suffix + "$", path.replace('\\', '/')).group(1)` (cdtb/tools.py:98-104), for a path which ends with `suffix`:
the five characters before it. `AttributeError` when there is no match. -/
def searchLang (pre suffix path : Str) : Res Str :=
  let r := path.map fun c => if c = '\\' then '/' else c
  let r := r.take (r.length - suffix.length)
  let lang := r.drop (r.length - 5)
  let start := r.take (r.length - 5)
  match lang with
  | [a, b, c, d, e] => if c = '_' ∧ a ≠ '\n' ∧ b ≠ '\n' ∧ d ≠ '\n' ∧ e ≠ '\n' ∧ endsWith start pre then .ok lang else .error .attribute
  | _ => .error .attribute

/-- The dict of a format: cdtb/tools.py:98, 100, 102, 104 -/
def langDict (pre suffix : Str) (paths : List Str) : Res (Dict Str Str) := do
  let langs ← paths.mapM (searchLang pre suffix)
  .ok (Dict.ofList (langs.zip paths))

/-- `glob.glob(os.path.join(base_dir, "??_??" + suffix))` (cdtb/tools.py:98, 100); `ls` gives the names in a directory, in the order of the
system. `base` is a directory without special characters of `glob` and without final slash. -/
def globDirs (fs : FS) (ls : Str → List Str) (base suffix : Str) : List Str :=
  ((ls base).filter fun n => globLang n && decide (fs (pjoin base n) = some .dir) && (fs (pjoin base (n ++ suffix))).isSome).map fun n =>
    pjoin base (n ++ suffix)

/-- `glob.glob(os.path.join(base_dir, "data/menu/" + pre + "??_??" + suffix))` (cdtb/tools.py:102, 104) -/
def globFiles (ls : Str → List Str) (base pre suffix : Str) : List Str :=
  let dir := pjoin base "data/menu".toList
  ((ls dir).filter fun n => startsWith n pre && endsWith n suffix && decide (n.length = pre.length + 5 + suffix.length) &&
    decide (n[pre.length + 2]? = some '_')).map fun n => dir ++ '/' :: n

/-- `stringtable_paths`: cdtb/tools.py:84-108 -/
def stringTables (fs : FS) (ls : Str → List Str) (base game : Str) : Res (Dict Str Str) := do
  let s0 := "/data/menu/en_us/".toList ++ game ++ ".stringtable".toList
  let d ← langDict [] s0 (globDirs fs ls base s0)
  if !d.isEmpty then .ok d else
  let s1 := "/data/menu/en_us/main.stringtable".toList
  let d ← langDict [] s1 (globDirs fs ls base s1)
  if !d.isEmpty then .ok d else
  let d ← langDict "data/menu/main_".toList ".stringtable".toList (globFiles ls base "main_".toList ".stringtable".toList)
  if !d.isEmpty then .ok d else
  let d ← langDict "data/menu/fontconfig_".toList ".txt".toList (globFiles ls base "fontconfig_".toList ".txt".toList)
  if !d.isEmpty then .ok d else .error .runtime

end Cdtb
