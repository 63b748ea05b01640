import Verif.Spec.RadsStorage
/-!
# Specification of the patch elements of RADS storages

`SolElems site exe name svs l`: `l` is the list of elements of the solution versions `svs`, those without a patch version being dropped.
-/
namespace Cdtb.Spec
set_option autoImplicit false
open Py

inductive SolElems (site : RadsSite) (exe : Bytes → Res (Option Str)) (name : Str) : List SolVer → List RadsElem → Prop
  | nil : SolElems site exe name [] []
  | skip {sv : SolVer} {svs : List SolVer} {l : List RadsElem} : site.Patch exe sv.name sv.version.s none → SolElems site exe name svs l →
      SolElems site exe name (sv :: svs) l
  | elem {sv : SolVer} {svs : List SolVer} {l : List RadsElem} {t : Str} {v : Version} : site.Patch exe sv.name sv.version.s (some t) →
      Cdtb.patchVersion (.str t) = .ok v → SolElems site exe name svs l → SolElems site exe name (sv :: svs) (⟨name, v, sv⟩ :: l)

/-- Elements with a name -/
def elemsNamed (name : Str) (l : List RadsElem) : List RadsElem := l.filter fun e => e.name = name

/-- `a` is at least as recent as `b`. -/
def NewerElem (a b : RadsElem) : Prop := a.version.cmp .ge b.version = .ok true

/-- The versions of a solution, from the newest, for the names listed (with `site`, the ones which have a patch give the elements) -/
structure NewestFirst (names : List Str) (vs : List Version) : Prop where
  listed : (vs.map (·.s)).Perm names
  numbers : ∀ v ∈ vs, ∃ a b c d, v.t = .nums [a, b, c, d]
  sorted : vs.Pairwise fun a b => a.cmp .ge b = .ok true

/-- `l` has all the elements of a solution, from its newest version. -/
def AllElems (site : RadsSite) (exe : Bytes → Res (Option Str)) (name solution : Str) (names : List Str) (l : List RadsElem) : Prop :=
  ∃ vs, NewestFirst names vs ∧ SolElems site exe name (vs.map (SolVer.mk solution)) l

/-- `l` has the first elements of a solution, from its newest version. -/
def FirstElems (site : RadsSite) (exe : Bytes → Res (Option Str)) (name solution : Str) (names : List Str) (l : List RadsElem) : Prop :=
  ∃ vs ws k, NewestFirst names (vs ++ ws) ∧ SolElems site exe name (vs.map (SolVer.mk solution)) k ∧ l <+: k

/-- The list of the versions of a solution is not there, or it has a name which is not a version. -/
def ListingFails (listing : Res (List Str)) (e : Err) : Prop :=
  listing = .error e ∨ ∃ names, listing = .ok names ∧ solutionVersions names = .error e

/-- A listing whose names are names of directories -/
def PlainListing (listing : Res (List Str)) : Prop := ∀ names, listing = .ok names → ∀ n ∈ names, '/' ∉ n

/-- The error comes from a call of `patch_version`, on a good storage. -/
def Blame (cfg : RadsCfg) (site : RadsSite) (served : Str → Option Bytes) (ws : Nat → RadsWorld) (svs : List SolVer) (e : Err) : Prop :=
  ∃ i fs sv e', sv ∈ svs ∧ GoodRads cfg.base site served cfg.exe fs ∧ (cfg.patchVersion (ws i) fs sv).2 = .error e' ∧ e = genErr e'

/-- The newest of the first elements, again and again; the client comes first when they are equal. -/
def mergeNewest : List RadsElem → List RadsElem → List RadsElem
  | [], gs => gs
  | c :: cs, [] => c :: cs
  | c :: cs, g :: gs => if g.version.cmp .gt c.version = .ok true then g :: mergeNewest (c :: cs) gs else c :: mergeNewest cs (g :: gs)
termination_by cs gs => cs.length + gs.length

/-- No two names are the same version. -/
def DistinctVersions (names : List Str) : Prop :=
  ∀ a ∈ names, ∀ b ∈ names, ∀ x y, radsVersion (.str a) = .ok x → radsVersion (.str b) = .ok y → x.t = y.t → a = b

end Cdtb.Spec
