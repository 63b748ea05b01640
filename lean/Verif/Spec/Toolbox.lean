import Verif.Model.Toolbox
import Verif.Spec.Args
/-!
# What it means to give arguments to a command, for the toolbox
-/
namespace Cdtb
set_option autoImplicit false
open Py

namespace Spec

/-- A command line for the command `c` that gives the options `gs`, with their exact names, and the positional arguments `ws`: options, positional
arguments in one place (not just after an option that takes any number of arguments), options; or options, `--`, positional arguments. Options `-v`
may come first. -/
inductive LineOf (c : String) (opts : List OptDef) : List GivenOpt → List Str → List Str → Prop
  | plain (n : Nat) (before after : List GivenOpt) (ws : List Str) : (∀ g ∈ before ++ after, g.Fits opts) → (∀ w ∈ ws, PlainWord w) →
      (ws ≠ [] → ¬ EndsOpen before) →
      LineOf c opts (before ++ after) ws (List.replicate n "-v".toList ++ c.toList :: (optWords before ++ ws ++ optWords after))
  | separated (n : Nat) (gs : List GivenOpt) (w : Str) (ws : List Str) : (∀ g ∈ gs, g.Fits opts) →
      LineOf c opts gs (w :: ws) (List.replicate n "-v".toList ++ c.toList :: (optWords gs ++ "--".toList :: w :: ws))

/-- The text given to an option, if any -/
def TextGiven (gs : List GivenOpt) (attr : String) (v : Option Str) : Prop :=
  Tells gs attr.toList .none (match v with
    | some s => .str s
    | none => .none)

/-- Whether an option without argument is given: it says `b`, and the default is the contrary -/
def FlagGiven (gs : List GivenOpt) (attr : String) (on : Bool) (b : Bool) : Prop := Tells gs attr.toList (.bool (!on)) (.bool b)

/-- The texts given to an option that can be repeated, in order -/
def TextsGiven (gs : List GivenOpt) (attr : String) : List Str := (gs.filter fun g => g.opt.dest = attr.toList).flatMap GivenOpt.vals

/-- The files to extract -/
def UnknownGiven (gs : List GivenOpt) (u : UnknownArg) : Prop :=
  Tells gs "unknown".toList (.str "yes".toList) (.str (match u with
    | .yes => "yes"
    | .only => "only"
    | .no => "no").toList)

/-- The languages: all, none, or those given -/
def LangsGiven (gs : List GivenOpt) (l : LangArg) : Prop :=
  Tells gs "langs".toList (.bool true) (match l with
    | .all => .bool true
    | .noLang => .bool false
    | .given l => .list l)

/-- A run that only changes files -/
def changesFiles : FS × Res Unit → ToolRun
  | (fs, r) => ⟨fs, [], r⟩

/-- A run that only prints -/
def prints (fs : FS) : Res (List Str) → ToolRun
  | .ok out => ⟨fs, out, .ok ()⟩
  | .error e => ⟨fs, [], .error e⟩

/-- The storage selected by options, then what the command does with it -/
def withStorage (fs : FS) (conf : ConfLib) (env path patchline : Option Str) (k : StorageObj → ToolRun) : ToolRun :=
  match parseStorageArgs fs conf env path patchline with
  | .error e => ⟨fs, [], .error e⟩
  | .ok st => k st

/-- Exporters are processed in order, up to the first failure -/
inductive Processed (T : ToolLib) (overwrite : Bool) : FS → List PatchExporter → FS × Res Unit → Prop
  | done (fs : FS) : Processed T overwrite fs [] (fs, .ok ())
  | failed (fs fs' : FS) (e : PatchExporter) (es : List PatchExporter) (err : Err) : T.process e overwrite fs = (fs', .error err) →
      Processed T overwrite fs (e :: es) (fs', .error err)
  | next (fs fs' : FS) (e : PatchExporter) (es : List PatchExporter) (r : FS × Res Unit) : T.process e overwrite fs = (fs', .ok ()) →
      Processed T overwrite fs' es r → Processed T overwrite fs (e :: es) r

/-- A text of the command line, or nothing -/
def FromLine (argv : List Str) (o : Option Str) : Prop := ∀ s, o = some s → InWords argv s

/-- What a command line may do, whatever its words: print a help, be refused, or one command, with arguments of the types it expects, that come from the
command line; a storage is selected before the commands that need one -/
inductive Ran (T : ToolLib) (conf : ConfLib) (env dir : Option Str) (fs : FS) (argv : List Str) : ToolRun → Prop
  | help : Ran T conf env dir fs argv ⟨fs, [], .ok ()⟩
  | refused : Ran T conf env dir fs argv ⟨fs, [], .error .usage⟩
  | wadExtract (a : WadArgs) : "wad-extract".toList ∈ argv → a.wad ∈ argv → FromLine argv a.output → FromLine argv a.hashes → (∀ s ∈ a.patterns, InWords argv s) →
      Ran T conf env dir fs argv (changesFiles (commandWadExtract T.cx T.fnmatch T.hashDir T.writes fs a))
  | wadList (wad : Str) (hashes : Option Str) : "wad-list".toList ∈ argv → wad ∈ argv → FromLine argv hashes →
      Ran T conf env dir fs argv (prints fs (commandWadList T.cx T.hashDir fs wad hashes))
  | binDump (bin : Str) (version : Option Str) (json : Bool) : "bin-dump".toList ∈ argv → bin ∈ argv → FromLine argv version →
      Ran T conf env dir fs argv (prints fs ((T.dump.printed T.json fs bin version json).map fun t => [t]))
  | sknExtract (skn : Str) (output : Option Str) : "skn-extract".toList ∈ argv → skn ∈ argv → FromLine argv output →
      Ran T conf env dir fs argv (changesFiles (sknExtract T.showF fs skn output T.mkdirs T.texts))
  | fetchHashes : "fetch-hashes".toList ∈ argv → Ran T conf env dir fs argv ⟨(T.fetch fs).1, (T.fetch fs).2.1, (T.fetch fs).2.2⟩
  | download (path patchline : Option Str) (components : List Str) (langs : LangArg) : "download".toList ∈ argv → FromLine argv path →
      components ≠ [] → (∀ s ∈ components, s ∈ argv) →
      Ran T conf env dir fs argv (withStorage fs conf env path patchline fun st => changesFiles (T.download st components langs fs))
  | files (path patchline : Option Str) (component : Str) (langs : LangArg) (relative : Bool) : "files".toList ∈ argv → FromLine argv path →
      component ∈ argv →
      Ran T conf env dir fs argv (withStorage fs conf env path patchline fun st =>
        ⟨(T.files st component langs relative fs).1, (T.files st component langs relative fs).2.1, (T.files st component langs relative fs).2.2⟩)
  | versions (path patchline : Option Str) (type : Str) (stored : Bool) : "versions".toList ∈ argv → FromLine argv path →
      type ∈ ["patch".toList, "game".toList, "client".toList] →
      Ran T conf env dir fs argv (withStorage fs conf env path patchline fun st => prints fs (commandVersions (T.elems st stored fs) type))
  | guess (path patchline : Option Str) (a : GuessArgs) : "hashes-guess".toList ∈ argv → FromLine argv path → (∀ s ∈ a.wad, s ∈ argv) →
      Ran T conf env dir fs argv (withStorage fs conf env path patchline fun st =>
        let r := commandGuess T.hash T.text T.cx T.hashDir (T.component st fs) T.saves fs a
        ⟨r.fs, r.out, r.res⟩)
  | export (path patchline : Option Str) (a : ExportArgs) (overwrite : Bool) : "export".toList ∈ argv → FromLine argv path → (∀ s, a.patch = some s → s ∈ argv) →
      (a.output = dir.getD "export".toList ∨ InWords argv a.output) →
      Ran T conf env dir fs argv (withStorage fs conf env path patchline fun st =>
        match commandExport (T.elems st false fs) (T.elems st true fs) (T.dirs fs a.output) a with
        | .error e => ⟨fs, [], .error e⟩
        | .ok es => changesFiles (T.processAll overwrite fs es))

end Spec
end Cdtb
