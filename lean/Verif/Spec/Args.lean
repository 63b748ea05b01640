import Verif.Model.Args
/-!
# What command lines mean

The options and the positional argument of each command are those declared (`commandParsers`). Here is what it means to give them.
-/
namespace Cdtb
set_option autoImplicit false
open Py

namespace Spec

/-- A word that does not begin with a dash -/
def PlainWord (s : Str) : Prop := s.head? ≠ some '-'

/-- An option given with its exact name, and its arguments as separate words -/
structure GivenOpt where
  opt : OptDef
  name : Str
  vals : List Str

/-- Its words -/
def GivenOpt.words (g : GivenOpt) : List Str := g.name :: g.vals

/-- It is declared, and has the arguments it takes -/
def GivenOpt.Fits (opts : List OptDef) (g : GivenOpt) : Prop :=
  g.opt ∈ opts ∧ g.name ∈ g.opt.names ∧ (∀ v ∈ g.vals, PlainWord v) ∧
    match g.opt.kind with
    | .flag _ => g.vals = []
    | .one none => ∃ v, g.vals = [v]
    | .one (some choices) => ∃ v ∈ choices, g.vals = [v]
    | .append => ∃ v, g.vals = [v]
    | .many => True
    | .count => False
    | .help => False

/-- What it says -/
def GivenOpt.Says (g : GivenOpt) (v : ArgVal) : Prop :=
  match g.opt.kind with
  | .flag c => v = c
  | .one _ => ∃ s, g.vals = [s] ∧ v = .str s
  | .many => v = .list g.vals
  | _ => False

/-- The value of an attribute: the default when no option is about it, what the last option about it says, or all the texts given for
options that can be repeated -/
inductive Tells (gs : List GivenOpt) (attr : Str) (default : ArgVal) : ArgVal → Prop
  | default : (∀ g ∈ gs, g.opt.dest ≠ attr) → Tells gs attr default default
  | last (a : List GivenOpt) (g : GivenOpt) (b : List GivenOpt) (v : ArgVal) : gs = a ++ g :: b → g.opt.dest = attr →
      (∀ x ∈ b, x.opt.dest ≠ attr) → g.Says v → Tells gs attr default v
  | all : (∃ g ∈ gs, g.opt.dest = attr) → (∀ g ∈ gs, g.opt.dest = attr → g.opt.kind = .append) →
      Tells gs attr default (.list ((gs.filter fun g => g.opt.dest = attr).flatMap GivenOpt.vals))

/-- The positional argument: the words given for it, and its value -/
def PosTells : PosKind → List Str → ArgVal → Prop
  | .one none, ws, v => ∃ s, ws = [s] ∧ v = .str s
  | .one (some choices), ws, v => ∃ s ∈ choices, ws = [s] ∧ v = .str s
  | .opt, ws, v => (ws = [] ∧ v = .none) ∨ ∃ s, ws = [s] ∧ v = .str s
  | .star, ws, v => v = .list ws
  | .plus, ws, v => ws ≠ [] ∧ v = .list ws

/-- All the words of options -/
def optWords (gs : List GivenOpt) : List Str := gs.flatMap GivenOpt.words

/-- The last option takes any number of arguments -/
def EndsOpen (gs : List GivenOpt) : Prop := ∃ g, gs.getLast? = some g ∧ g.opt.kind = .many

/-- The default declared for an attribute: that of the first option about it -/
def DefaultOf (opts : List OptDef) (attr : Str) (d : ArgVal) : Prop :=
  ∃ a o b, opts = a ++ o :: b ∧ o.dest = attr ∧ o.kind ≠ .help ∧ o.default = d ∧ ∀ x ∈ a, x.kind = .help ∨ x.dest ≠ attr

/-- A text that is a word of the command line, or the end of one (after `=` or after letters of options) -/
def InWords (argv : List Str) (s : Str) : Prop := ∃ w ∈ argv, s <:+ w

/-- The values an option can give -/
def CanGive (argv : List Str) (o : OptDef) (v : ArgVal) : Prop :=
  match o.kind with
  | .flag c => v = c
  | .one none => ∃ s, v = .str s ∧ InWords argv s
  | .one (some choices) => ∃ s ∈ choices, v = .str s ∧ InWords argv s
  | .append => ∃ s l, v = .list (s :: l) ∧ ∀ x ∈ s :: l, InWords argv x
  | .many => ∃ l, v = .list l ∧ ∀ x ∈ l, InWords argv x
  | .count => False
  | .help => False

/-! ## Attributes read by commands -/

/-- A text -/
def HasText (ns : Dict Str ArgVal) (k : String) : Prop := ∃ s, ns.get? k.toList = some (.str s)
/-- A text, or `None` -/
def HasOptText (ns : Dict Str ArgVal) (k : String) : Prop := ns.get? k.toList = some .none ∨ HasText ns k
/-- One of some texts -/
def HasChoice (ns : Dict Str ArgVal) (k : String) (l : List String) : Prop := ∃ s ∈ l, ns.get? k.toList = some (.str s.toList)
/-- A boolean -/
def HasBool (ns : Dict Str ArgVal) (k : String) : Prop := ∃ b, ns.get? k.toList = some (.bool b)
/-- A list of texts -/
def HasTexts (ns : Dict Str ArgVal) (k : String) : Prop := ∃ l, ns.get? k.toList = some (.list l)
/-- A list of texts that is not empty -/
def HasSomeTexts (ns : Dict Str ArgVal) (k : String) : Prop := ∃ s l, ns.get? k.toList = some (.list (s :: l))

/-- The attributes read by each function, and the values it expects (cdtb/__main__.py:73-330) -/
def Expects (f : String) (ns : Dict Str ArgVal) : Prop :=
  match f with
  | "command_download" => HasSomeTexts ns "component" ∧ (HasBool ns "langs" ∨ HasTexts ns "langs")
  | "command_files" => HasText ns "component" ∧ (HasBool ns "langs" ∨ HasTexts ns "langs") ∧ HasBool ns "relative"
  | "command_versions" => HasBool ns "stored" ∧ HasChoice ns "type" ["patch", "game", "client"]
  | "command_fetch_hashes" => True
  | "command_wad_extract" => HasText ns "wad" ∧ HasOptText ns "output" ∧ HasOptText ns "hashes" ∧ HasChoice ns "unknown" ["yes", "only", "no"] ∧
      (ns.get? "pattern".toList = some .none ∨ HasSomeTexts ns "pattern") ∧ HasBool ns "lazy"
  | "command_wad_list" => HasText ns "wad" ∧ HasOptText ns "hashes"
  | "command_hashes_guess" => HasBool ns "list_methods" ∧ HasTexts ns "wad" ∧ HasOptText ns "methods" ∧ HasBool ns "dry_run"
  | "command_export" => HasBool ns "lazy" ∧ HasBool ns "symlinks" ∧ HasOptText ns "patch" ∧ HasOptText ns "previous" ∧ HasOptText ns "first" ∧
      HasText ns "output"
  | "command_skn_extract" => HasText ns "skn" ∧ HasOptText ns "output"
  | "command_bin_dump" => HasText ns "bin" ∧ HasOptText ns "patch_version" ∧ HasBool ns "json"
  | _ => False

/-- Functions that use the storage (cdtb/__main__.py:74, 79, 86, 194, 265) -/
def UsesStorage (f : String) : Prop :=
  f ∈ ["command_download", "command_files", "command_versions", "command_hashes_guess", "command_export"]

/-- The commands of the documentation and their functions -/
def commandOf : List (String × String) :=
  [("download", "command_download"), ("files", "command_files"), ("versions", "command_versions"), ("fetch-hashes", "command_fetch_hashes"),
   ("wad-extract", "command_wad_extract"), ("wad-list", "command_wad_list"), ("hashes-guess", "command_hashes_guess"), ("export", "command_export"),
   ("bin-dump", "command_bin_dump"), ("skn-extract", "command_skn_extract")]

/-- Messages of a level are shown with the level set for them, or with the general one (`logging`) -/
def MsgShown (general : LogLevel) (own : Option LogLevel) : LogLevel → Prop
  | .debug => own.getD general = .debug
  | .info => own.getD general ≠ .warning
  | .warning => True

end Spec
end Cdtb
