import Verif.Py.Str
import Verif.Py.Utf8
import Verif.Model.Version
import Verif.Spec.Patches
/-! Specification of the version of a patch: what is written in `system.yaml` and `content-metadata.json`. -/
namespace Cdtb.Spec
set_option autoImplicit false
open Py

/-- The lines of a text. Lines end with `\n`, `\r\n` or `\r`; the end of the last line may be missing. -/
inductive TextLines : Str → List Str → Prop
  | nil : TextLines [] []
  | last {l : Str} : l ≠ [] → '\n' ∉ l → '\r' ∉ l → TextLines l [l]
  | cons {l eol rest : Str} {ls : List Str} : '\n' ∉ l → '\r' ∉ l → eol ∈ [['\n'], ['\r', '\n'], ['\r']] →
      (eol = ['\r'] → ∀ r, rest ≠ '\n' :: r) → TextLines rest ls → TextLines (l ++ eol ++ rest) (l :: ls)

/-- A line giving the branch `v`: `branch: ` or `game-branch: ` after spaces, some text, a quote or a slash, `v` (digits
and dots), and possibly a quote. -/
def BranchLine (l v : Str) : Prop :=
  ∃ (n : Nat) (key text : Str) (q : Char) (close : Str),
    l = List.replicate n ' ' ++ key ++ "branch: ".toList ++ text ++ q :: v ++ close ∧
    (key = [] ∨ key = "game-".toList) ∧ (q = '"' ∨ q = '\'' ∨ q = '/') ∧ (close = [] ∨ close = ['"'] ∨ close = ['\'']) ∧
    v ≠ [] ∧ ∀ c ∈ v, c ∈ "0123456789.".toList

/-- `v` is given by the first line giving a branch. -/
def FirstBranch (ls : List Str) (v : Str) : Prop :=
  ∃ before l after, ls = before ++ l :: after ∧ BranchLine l v ∧ ∀ p ∈ before, ∀ x, ¬ BranchLine p x

/-- `s` is `X.Y.` followed by anything, and `v` is `X.Y`. -/
def ShortVersion (s v : Str) : Prop :=
  ∃ x y r, Digits x ∧ Digits y ∧ s = x ++ '.' :: y ++ '.' :: r ∧ v = x ++ '.' :: y

/-- The file of an element which gives its version, by the name of the element -/
inductive VersionFile : Str → Str → Prop
  | client : VersionFile "client".toList "system.yaml".toList
  | game : VersionFile "game".toList "content-metadata.json".toList

/-- The text of the version of an element, from the content of this file. `json b` is the value of the key `version` of a
JSON object. -/
inductive ElementVersion (json : Bytes → Res Str) : Str → Bytes → Str → Prop
  | client {b : Bytes} {text : Str} {ls : List Str} {v : Str} : utf8 b = .ok text → TextLines text ls → FirstBranch ls v →
      ElementVersion json "client".toList b v
  | game {b : Bytes} {s v : Str} : json b = .ok s → ShortVersion s v → ElementVersion json "game".toList b v

end Cdtb.Spec
