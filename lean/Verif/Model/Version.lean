import Verif.Py.Str
/-!
# Model of cdtb/storage.py, version classes (lines 17-97)
-/
namespace Cdtb
set_option autoImplicit false
open Py

/-- The attribute `t` of a version: a tuple of ints, or the string "main" (cdtb/storage.py:81-83). -/
inductive VTuple where
  | nums (t : List Int)
  | main
deriving DecidableEq, Repr

/-- `BaseVersion` / `PatchVersion` instances: attributes `s` and `t` (cdtb/storage.py:17-33, 71-90). -/
structure Version where
  s : Str
  t : VTuple
deriving DecidableEq, Repr

/-- Constructor argument. Tuples are tuples of ints; `other` is any truthy value of another type. -/
inductive VArg where
  | str (s : Str)
  | tup (t : List Int)
  | other
deriving DecidableEq, Repr

/-- `int(x)` raising `ValueError` -/
def intOrErr (s : Str) : Res Int :=
  match int10 s with
  | some n => .ok n
  | none => .error .value

/-- `BaseVersion.__init__`: cdtb/storage.py:23-33 -/
def baseVersion : VArg → Res Version
  | .str s =>
    if s.isEmpty then .error .value
    else do
      let t ← (splitChar '.' s).mapM intOrErr
      .ok ⟨s, .nums t⟩
  | .tup t =>
    if t.isEmpty then .error .value
    else .ok ⟨join ['.'] (t.map showInt), .nums t⟩
  | .other => .error .type

/-- `PatchVersion.__init__`: cdtb/storage.py:80-90 -/
def patchVersion (v : VArg) : Res Version :=
  if v = .str "main".toList then .ok ⟨"main".toList, .main⟩
  else do
    let b ← baseVersion v
    match b.t with
    | .main => .error .assertion   -- `BaseVersion` never sets "main"
    | .nums t =>
      let b' : Version :=
        if 2 < t.length then ⟨join ['.'] ((t.take 2).map showInt), .nums (t.take 2)⟩ else b
      match b'.t with
      | .nums t' => if t'.length = 2 then .ok b' else .error .assertion
      | .main => .error .assertion

/-- `PatchVersion.as_int`: cdtb/storage.py:92-97 -/
def Version.asInt (v : Version) : Res Int :=
  match v.t with
  | .main => .ok 9999
  | .nums [v0, v1] => .ok (v0 * 100 + v1)
  | .nums _ => .error .value

/-- The four ordering operators. -/
inductive CmpOp where | lt | le | gt | ge
deriving DecidableEq, Repr

def CmpOp.eval : CmpOp → Int → Int → Bool
  | .lt, x, y => decide (x < y)
  | .le, x, y => decide (x ≤ y)
  | .gt, x, y => decide (y < x)
  | .ge, x, y => decide (y ≤ x)

/-- Python tuple comparison (CPython `tuplerichcompare`): the operator is applied to the first items
that differ, or to the lengths when there is none. -/
def tupleCmp (op : CmpOp) : List Int → List Int → Bool
  | x :: xs, y :: ys => if x = y then tupleCmp op xs ys else op.eval x y
  | xs, ys => op.eval xs.length ys.length

/-- `__lt__`, `__le__`, `__gt__`, `__ge__`: cdtb/storage.py:41-51. Comparing the string "main" with
a tuple raises `TypeError`. -/
def Version.cmp (op : CmpOp) (a b : Version) : Res Bool :=
  match a.t, b.t with
  | .nums t, .nums u => .ok (tupleCmp op t u)
  | .main, .main => .ok (op.eval 0 0)
  | _, _ => .error .type

/-- Values a version can be compared to with `==`. -/
inductive VOther where
  | ver (v : Version)
  | str (s : Str)
  | tup (t : List Int)
  | other

/-- `__eq__`: cdtb/storage.py:53-62 -/
def Version.eq (a : Version) : VOther → Bool
  | .ver v => decide (a.s = v.s)
  | .str s => decide (a.s = s)
  | .tup t => match a.t with
    | .nums u => decide (u = t)
    | .main => false
  | .other => false

/-- `__ne__`: cdtb/storage.py:64-65 -/
def Version.ne (a : Version) (o : VOther) : Bool := !a.eq o

/-- `__hash__`: cdtb/storage.py:67-68, for an arbitrary string hash function. -/
def Version.hash (h : Str → Int) (a : Version) : Int := h a.s

end Cdtb
