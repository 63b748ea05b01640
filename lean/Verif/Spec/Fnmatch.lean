import Verif.Py.Str
import Verif.Spec.WadCmd
/-!
# Specification of patterns: what a pattern of `wad-extract` matches
-/
namespace Cdtb.Spec
set_option autoImplicit false
open Py

/-- Characters of a class, read from left to right: characters, and ranges `a-b` (which hold nothing when `b` is before `a`) -/
inductive InClass : Str → Char → Prop
  | range (a b c : Char) (r : Str) : a ≤ c → c ≤ b → InClass (a :: '-' :: b :: r) c
  | afterRange (a b c : Char) (r : Str) : InClass r c → InClass (a :: '-' :: b :: r) c
  | char (c : Char) (r : Str) : (∀ b r', r ≠ '-' :: b :: r') → InClass (c :: r) c
  | afterChar (a c : Char) (r : Str) : (∀ b r', r ≠ '-' :: b :: r') → InClass r c → InClass (a :: r) c

/-- A text between brackets: at least one character; a closing bracket may only be the first one -/
def ClassBody (body : Str) : Prop := ∃ x b, body = x :: b ∧ ']' ∉ b

/-- A text after an opening bracket that is not the one of a class -/
def Unclosed (p : Str) : Prop :=
  ∀ body r, ClassBody body → (body.head? ≠ some '!' → p ≠ body ++ ']' :: r) ∧ p ≠ '!' :: body ++ ']' :: r

/-- Texts matched by a pattern: `*` is any text, `?` is any character, `[...]` a character of the class, `[!...]` a character out of the class, and
other characters are themselves, as is a bracket that opens no class -/
inductive Glob : Str → Str → Prop
  | done : Glob [] []
  | star (p s t : Str) : Glob p t → Glob ('*' :: p) (s ++ t)
  | one (p s : Str) (c : Char) : Glob p s → Glob ('?' :: p) (c :: s)
  | char (p s : Str) (c : Char) : c ≠ '*' → c ≠ '?' → c ≠ '[' → Glob p s → Glob (c :: p) (c :: s)
  | bracket (p s : Str) : Unclosed p → Glob p s → Glob ('[' :: p) ('[' :: s)
  | inClass (p s body : Str) (c : Char) : ClassBody body → body.head? ≠ some '!' → InClass body c → Glob p s →
      Glob ('[' :: body ++ ']' :: p) (c :: s)
  | notInClass (p s body : Str) (c : Char) : ClassBody body → ¬ InClass body c → Glob p s →
      Glob ('[' :: '!' :: body ++ ']' :: p) (c :: s)

/-- After a bracket, no range in the wrong order is followed by `!` -/
def Ordered (pat : Str) : Prop := ∀ a x y b, pat = a ++ x :: '-' :: y :: '!' :: b → '[' ∈ a → x ≤ y

/-- Files selected by the options of `wad-extract`: unknown or known ones, and those whose path is matched by one of the patterns -/
structure SelectedBy (hashes : Dict Int Str) (args : WadArgs) (r : WadRecord) : Prop where
  only : args.unknown = .only → ∀ p, ¬ KnownAs hashes r p
  no : args.unknown = .no → ∃ p, KnownAs hashes r p
  pattern : args.patterns ≠ [] → ∃ p, KnownAs hashes r p ∧ ∃ pat ∈ args.patterns, Glob pat p

end Cdtb.Spec
