import Verif.Model.RadsStorage
/-!
# Model of RADS components: identity, order, text (cdtb/rads.py:76-92, 165-200, 223-239, 414-435, 457-473, 599-636)
-/
namespace Cdtb
set_option autoImplicit false
open Py

/-! ## Identity and order -/

/-- Solutions, projects and their versions (cdtb/rads.py:154-157, 212-215, 403-406, 445-449). The storage is not compared. -/
inductive RadsObj where
  | solution (name : Str)
  | project (name : Str)
  | solutionVersion (name : Str) (version : Version)
  | projectVersion (name : Str) (version : Version)
deriving DecidableEq, Repr

/-- `a == b`: cdtb/rads.py:165-168, 223-226, 414-417, 457-460 -/
def RadsObj.eq : RadsObj → RadsObj → Bool
  | .solution n, .solution n' => decide (n = n')
  | .project n, .project n' => decide (n = n')
  | .solutionVersion n v, .solutionVersion n' v' => decide (n = n') && v.eq (.ver v')
  | .projectVersion n v, .projectVersion n' v' => decide (n = n') && v.eq (.ver v')
  | _, _ => false

/-- `hash(a)` (cdtb/rads.py:170-171, 228-229, 419-420, 462-463), for any hash functions of strings and pairs -/
def RadsObj.hash (h : Str → Int) (pair : Int → Int → Int) : RadsObj → Int
  | .solution n => h n
  | .project n => h n
  | .solutionVersion n v => pair (h n) (v.hash h)
  | .projectVersion n v => pair (h n) (v.hash h)

/-- `a < b` (cdtb/rads.py:173-176, 231-239, 422-425, 465-473). Objects of different classes cannot be compared. -/
def RadsObj.lt : RadsObj → RadsObj → Res Bool
  | .solution n, .solution n' => .ok (decide (n < n'))
  | .project n, .project n' => .ok (decide (n < n'))
  | .solutionVersion n v, .solutionVersion n' v' => if n < n' then .ok true else if n = n' then v.cmp .gt v' else .ok false
  | .projectVersion n v, .projectVersion n' v' => if n < n' then .ok true else if n = n' then v.cmp .gt v' else .ok false
  | _, _ => .error .type

/-- `str(a)`: cdtb/rads.py:159-160, 217-218, 408-409, 451-452 -/
def RadsObj.str : RadsObj → Str
  | .solution n => "rads:".toList ++ n
  | .project n => "rads:".toList ++ n
  | .solutionVersion n v => "rads:".toList ++ n ++ '=' :: v.s
  | .projectVersion n v => "rads:".toList ++ n ++ '=' :: v.s

/-- `a == b` on patch elements and `hash(a)`: cdtb/storage.py:348-355 -/
def Elem.eq (a b : Elem) : Bool := decide (a.name = b.name) && a.version.eq (.ver b.version)
def Elem.hash (h : Str → Int) (pair : Int → Int → Int) (a : Elem) : Int := pair (h a.name) (a.version.hash h)

/-- `a == b`, `hash(a)`, `a < b`, `str(a)` on patches: cdtb/storage.py:397-414 -/
def Patch.eq (a b : Patch) : Bool := a.version.eq (.ver b.version)
def Patch.hash (h : Str → Int) (a : Patch) : Int := a.version.hash h
def Patch.lt (a b : Patch) : Res Bool := a.version.cmp .gt b.version
def Patch.str (a : Patch) : Str := "patch=".toList ++ a.version.s

/-! ## Listings -/

/-- `RadsStorage.list_projects` and `RadsStorage.list_solutions` (cdtb/rads.py:76-92): names, in the order of the directory. `kind` is `projects` or
`solutions`, `listing` is `os.listdir` of its directory. -/
def listComponents (fs : FS) (base kind : Str) (listing : Res (List Str)) : Res (List Str) := do
  let names ← listing
  .ok (names.filter fun name => decide (fs (storageFspath base kind ++ '/' :: name ++ "/releases".toList) = some .dir))

/-- `RadsProject.versions`, from the text of the list: cdtb/rads.py:427-431 -/
def projectVersions (text : Str) : Res (List Version) := (splitlines text).mapM fun l => radsVersion (.str l)

/-- Loop of `RadsSolution.download` (cdtb/rads.py:199-200). `ws i` is the world during the `i`-th iteration. -/
def RadsCfg.downloadVersions (cfg : RadsCfg) (ws : Nat → RadsWorld) (name : Str) (langs : RadsLangs) : Nat → FS → List Version → FS × Res Unit
  | _, fs, [] => (fs, .ok ())
  | i, fs, v :: vs => match cfg.downloadSolution (ws i) fs ⟨name, v⟩ langs with
    | (fs', .error e) => (fs', .error e)
    | (fs', .ok ()) => cfg.downloadVersions ws name langs (i + 1) fs' vs

/-- `RadsSolution.download`: cdtb/rads.py:183-200. `text` is the list of versions of the CDN. -/
def RadsCfg.downloadAllVersions (cfg : RadsCfg) (ws : Nat → RadsWorld) (name : Str) (langs : RadsLangs) (text : Res Str) (fs : FS) : FS × Res Unit :=
  match text.bind fun t => solutionVersions (splitlines t) with
  | .error e => (fs, .error e)
  | .ok vs => cfg.downloadVersions ws name langs 0 fs vs

/-! ## Component strings -/

/-- `|[0-9]+(?:\.[0-9]+)*|main`, on a whole string: cdtb/rads.py:602 -/
def radsVersionMatch (v : Str) : Bool :=
  v = [] || (splitChar '.' v).all (fun d => d ≠ [] && d.all isDigit) || v = "main".toList

/-- First group, `(?:([sp]):)?`, and what follows (cdtb/rads.py:602) -/
def radsPrefix (c : Str) : Option Char × Str :=
  match c with
  | 's' :: ':' :: r => (some 's', r)
  | 'p' :: ':' :: r => (some 'p', r)
  | _ => (none, c)

/-- Second and third groups, `(\w+)(?:=(|[0-9]+(?:\.[0-9]+)*|main)?)?` (cdtb/rads.py:602): `isWord` are the characters of `\w`. The third group is never
missing after an equal sign, as it matches the empty string first. -/
def radsNameVersion (isWord : Char → Bool) (rest : Str) : Option (Str × Option Str) :=
  match split1 '=' rest with
  | none => if rest ≠ [] ∧ rest.all isWord then some (rest, none) else none
  | some (name, v) => if (name ≠ [] ∧ name.all isWord) ∧ radsVersionMatch v then some (name, some v) else none

/-- `re.match(r'^(?:([sp]):)?(\w+)(?:=(|[0-9]+(?:\.[0-9]+)*|main)?)?$', component)` and its groups (cdtb/rads.py:602-605). Colons, equal signs and newlines
are not among the characters of `\w`, so the prefix, the name and the version are determined; `$` also matches before a final newline. -/
def matchRads (isWord : Char → Bool) (component : Str) : Option (Option Char × Str × Option Str) :=
  let r := radsPrefix (dropFinalNewline component)
  (radsNameVersion isWord r.2).map fun nv => (r.1, nv)

/-- Results of `parse_rads_component` -/
inductive RadsComponent where
  | obj (o : RadsObj)
  | patch (p : Option Patch)
deriving DecidableEq, Repr

/-- What the storage gives: lists of versions of projects and solutions (as texts), and `storage.patch` -/
structure RadsLookup where
  project : Str → Res Str
  solution : Str → Res Str
  patch : Option VOther → Res (Option Patch)

/-- `l[0]` -/
def firstOf {α : Type} : List α → Res α
  | [] => .error .index
  | x :: _ => .ok x

/-- `parse_rads_component`: cdtb/rads.py:599-636 -/
def parseRadsComponent (isWord : Char → Bool) (st : RadsLookup) (component : Str) : Res RadsComponent :=
  match matchRads isWord component with
  | none => .error .value
  | some (typ, name, version) =>
    let kind : Str := match typ with
      | some c => [c]
      | none =>
        if name = "patch".toList then "patch".toList
        else if endsWith name "_sln".toList then ['s'] else ['p']
    if kind = ['p'] then
      match version with
      | none => .ok (.obj (.project name))
      | some v =>
        if v = [] then do
          let text ← st.project name
          let vs ← projectVersions text
          let x ← firstOf vs
          .ok (.obj (.projectVersion name x))
        else do
          let x ← radsVersion (.str v)
          .ok (.obj (.projectVersion name x))
    else if kind = ['s'] then
      match version with
      | none => .ok (.obj (.solution name))
      | some v =>
        if v = [] then do
          let text ← st.solution name
          let vs ← solutionVersions (splitlines text)
          let x ← firstOf vs
          .ok (.obj (.solutionVersion name x))
        else do
          let x ← radsVersion (.str v)
          .ok (.obj (.solutionVersion name x))
    else
      match version with
      | none => .error .value
      | some v => do
        let p ← st.patch (if v = [] then none else some (.str v))
        .ok (.patch p)

end Cdtb
