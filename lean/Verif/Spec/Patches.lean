import Verif.Model.Patches
/-!
# Specification notions for C07-C09
-/
namespace Cdtb.Spec
set_option autoImplicit false

/-- A sequence with consecutive repeats merged. -/
def mergeRepeats {α : Type} [DecidableEq α] : List α → List α
  | [] => []
  | [x] => [x]
  | x :: y :: r => if x = y then mergeRepeats (y :: r) else x :: mergeRepeats (y :: r)

/-- Once a value is left in the sequence, it never comes back. -/
def NeverBack {α : Type} (l : List α) : Prop :=
  ∀ (i j k : Nat) (x y : α), i ≤ j → j ≤ k → l[i]? = some x → l[j]? = some y → l[k]? = some x → y = x

/-- The first element of each name, in order of appearance. -/
def newestOfEach : List Elem → List Elem
  | [] => []
  | e :: r => e :: (newestOfEach r).filter (fun x => decide (x.name ≠ e.name))

/-- What the patch made from a run of elements should be: it has their version, and holds the first
element of each name, in order of appearance. -/
structure IsPatchOf (run : List Elem) (p : Patch) : Prop where
  version : ∀ e ∈ run, e.version.s = p.version.s
  version_mem : ∃ e ∈ run, e.version = p.version
  elements : p.elements = newestOfEach run

/-- Nonempty string of ASCII digits -/
def Digits (s : Str) : Prop := s ≠ [] ∧ ∀ c ∈ s, c ∈ "0123456789".toList

/-- One group `.digits` with an optional final dot -/
def groupText (g : Str × Bool) : Str := '.' :: g.1 ++ (if g.2 then ['.'] else [])

/-- Version texts accepted in components: nothing, `main`, or digits followed by groups. -/
def VersionText (v : Str) : Prop :=
  v = [] ∨ v = "main".toList ∨
    ∃ (d : Str) (gs : List (Str × Bool)), Digits d ∧ (∀ g ∈ gs, Digits g.1) ∧ v = d ++ (gs.map groupText).flatten

/-- Component names -/
def ComponentName (n : Str) : Prop := n = "patch".toList ∨ n = "game".toList ∨ n = "client".toList

end Cdtb.Spec
