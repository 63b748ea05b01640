import Verif.Model.Cli
/-!
# Model of the command line (`create_parser` and `main`, cdtb/__main__.py:333-519)

The parsers are data: options and at most one positional argument. What `argparse` does with them is a model of this library
(that of CPython 3.11.10: `_parse_known_args`, `_parse_optional`, `_get_option_tuples`, `consume_optional`, `consume_positionals`), for parsers of this
shape. Texts of messages and of help are not modelled: a usage error is `ArgStop.usage`, a printed help is `ArgStop.help`.
-/
namespace Cdtb
set_option autoImplicit false
open Py

/-! ## Declarations -/

/-- Attributes of the parsed arguments -/
inductive ArgVal where
  | none
  | bool (b : Bool)
  | nat (n : Nat)
  | str (s : Str)
  | list (l : List Str)
deriving DecidableEq, Repr

/-- Actions of options: `store_true`, `store_false` and `store_const` (`flag`), `count`, `help`, `store` (with `choices`), `append`,
`store` with `nargs='*'` (`many`) -/
inductive OptKind where
  | flag (v : ArgVal)
  | count
  | help
  | one (choices : Option (List Str))
  | append
  | many
deriving DecidableEq, Repr

/-- An option: `add_argument('-x', '--xyz', dest=..., default=...)` -/
structure OptDef where
  names : List Str
  dest : Str
  kind : OptKind
  default : ArgVal
deriving DecidableEq, Repr

/-- `nargs` of positional arguments: none (with `choices`), `'?'`, `'*'`, `'+'` -/
inductive PosKind where
  | one (choices : Option (List Str))
  | opt
  | star
  | plus
deriving DecidableEq, Repr

/-- A positional argument -/
structure PosDef where
  dest : Str
  kind : PosKind
deriving DecidableEq, Repr

/-- A parser -/
structure ParserDef where
  opts : List OptDef
  pos : Option PosDef
deriving DecidableEq, Repr

/-! ## `argparse` -/

/-- Parsing stops: a usage error, or the help is printed -/
inductive ArgStop where
  | usage
  | help
deriving DecidableEq, Repr

/-- A word of the command line: an option (`eq` and `arg`: with the text after `=`, or after a letter), an unknown option, an argument, `--` -/
inductive Tok where
  | opt (o : OptDef) (name : Str) (eq : Bool) (arg : Option Str)
  | unknown (s : Str)
  | arg (s : Str)
  | sep
deriving DecidableEq, Repr

/-- `self._option_string_actions.get(name)` (model of `argparse`, for cdtb/__main__.py:491) -/
def findOpt (opts : List OptDef) (name : Str) : Option OptDef := opts.find? fun o => o.names.contains name

/-- All the option strings, with their options (model of `argparse`, for cdtb/__main__.py:491) -/
def optStrings (opts : List OptDef) : List (Str × OptDef) := opts.flatMap fun o => o.names.map fun n => (n, o)

/-- `option_string.partition('=')` (model of `argparse`, for cdtb/__main__.py:491) -/
def longParts (s : Str) : Str × Option Str :=
  match split1 '=' s with
  | some (a, b) => (a, some b)
  | none => (s, none)

/-- `_get_option_tuples`: abbreviations of long options, and letters followed by a text (model of `argparse`, for cdtb/__main__.py:491) -/
def optTuples (opts : List OptDef) (s : Str) : List Tok :=
  if "--".toList.isPrefixOf s then
    ((optStrings opts).filter fun x => (longParts s).1.isPrefixOf x.1).map fun x => .opt x.2 x.1 (longParts s).2.isSome (longParts s).2
  else
    (optStrings opts).filterMap fun x =>
      if x.1 = s.take 2 then some (.opt x.2 x.1 false (some (s.drop 2)))
      else if s.isPrefixOf x.1 then some (.opt x.2 x.1 false none)
      else none

/-- Texts that look like negative numbers: `^-\d+$|^-\d*\.\d+$` (model of `argparse`, for cdtb/__main__.py:491; `\d` for ASCII digits only) -/
def looksNegative (s : Str) : Bool :=
  match s with
  | '-' :: r => (!r.isEmpty && r.all isDigit) ||
      (match split1 '.' r with
        | some (a, b) => a.all isDigit && !b.isEmpty && b.all isDigit
        | none => false)
  | _ => false

/-- `_parse_optional` (model of `argparse`, for cdtb/__main__.py:491) -/
def classify (opts : List OptDef) (s : Str) : Except ArgStop Tok :=
  if s.head? ≠ some '-' then .ok (.arg s)
  else match findOpt opts s with
    | some o => .ok (.opt o s false none)
    | none =>
      if s.length = 1 then .ok (.arg s)
      else match (split1 '=' s).bind fun (a, b) => (findOpt opts a).map fun o => (o, a, b) with
        | some (o, a, b) => .ok (.opt o a true (some b))
        | none => match optTuples opts s with
          | [t] => .ok t
          | _ :: _ :: _ => .error .usage
          | [] => if looksNegative s || s.contains ' ' then .ok (.arg s) else .ok (.unknown s)

/-- The words of a command line: all are arguments after the first `--` (model of `argparse`, for cdtb/__main__.py:491) -/
def tokens (opts : List OptDef) : List Str → Except ArgStop (List Tok)
  | [] => .ok []
  | s :: l =>
    if s = "--".toList then .ok (.sep :: l.map .arg)
    else do
      let t ← classify opts s
      let ts ← tokens opts l
      .ok (t :: ts)

/-- What is expected: nothing special, the argument of an option (after options without argument in the same word), the arguments of an option that takes many, further positional
arguments, nothing special just after the only positional argument -/
inductive PMode where
  | idle
  | want (flags : List OptDef) (o : OptDef)
  | many (o : OptDef) (acc : List Str)
  | pos (p : PosDef) (acc : List Str)
  | after
deriving DecidableEq, Repr

/-- State of the parser: attributes, positional argument not met yet, unrecognized words -/
structure PState where
  ns : Dict Str ArgVal
  pos : Option PosDef
  extras : List Str
  mode : PMode
deriving DecidableEq, Repr

/-- `choices` (model of `argparse`, for cdtb/__main__.py:491) -/
def chosen (choices : Option (List Str)) (s : Str) : Except ArgStop Unit :=
  match choices with
  | none => .ok ()
  | some l => if s ∈ l then .ok () else .error .usage

/-- Stores the argument of an option (`_StoreAction`, `_AppendAction`; model of `argparse`, for cdtb/__main__.py:491) -/
def storeOne (ns : Dict Str ArgVal) (o : OptDef) (s : Str) : Except ArgStop (Dict Str ArgVal) :=
  match o.kind with
  | .one choices => do
    chosen choices s
    .ok (ns.set o.dest (.str s))
  | .append => .ok (ns.set o.dest (match ns.get? o.dest with
      | some (.list l) => .list (l ++ [s])
      | _ => .list [s]))
  | .many => .ok (ns.set o.dest (.list [s]))
  | _ => .error .usage

/-- An option without argument (`_StoreTrueAction`, `_CountAction`...; model of `argparse`, for cdtb/__main__.py:491) -/
def applyFlag (ns : Dict Str ArgVal) (o : OptDef) : Except ArgStop (Dict Str ArgVal) :=
  match o.kind with
  | .flag v => .ok (ns.set o.dest v)
  | .count => .ok (ns.set o.dest (match ns.get? o.dest with
      | some (.nat n) => .nat (n + 1)
      | _ => .nat 1))
  | .help => .error .help
  | _ => .error .usage

/-- Options that take no argument -/
def OptKind.noArg : OptKind → Bool
  | .flag _ | .count | .help => true
  | _ => false

/-- The last option of a word: with its argument if there is one in the word, or unrecognized letters -/
inductive LastOpt where
  | opt (o : OptDef) (arg : Option Str)
  | extra (s : Str)
deriving DecidableEq, Repr

/-- The letters after `-a` in `-abc`, where `a` takes no argument: options without argument, then the last option and its argument if any
(`consume_optional`; model of `argparse`, for cdtb/__main__.py:491) -/
def cluster (opts : List OptDef) (o : OptDef) : Str → Except ArgStop (List OptDef × LastOpt)
  | [] => .error .usage
  | c :: rest =>
    if c = '-' then .error .usage
    else match findOpt opts ['-', c] with
      | none => .ok ([o], .extra ('-' :: c :: rest))
      | some o' =>
        if rest.isEmpty then .ok ([o], .opt o' none)
        else if rest.head? = some '=' then (if o'.kind.noArg then .error .usage else .ok ([o], .opt o' (some rest.tail)))
        else if o'.kind.noArg then do
          let (l, r) ← cluster opts o' rest
          .ok (o :: l, r)
        else .ok ([o], .opt o' (some rest))

/-- The options of a word, and the argument of the last one (`consume_optional`; model of `argparse`, for cdtb/__main__.py:491) -/
def expandOpt (opts : List OptDef) (o : OptDef) (name : Str) (eq : Bool) : Option Str → Except ArgStop (List OptDef × LastOpt)
  | none => .ok ([], .opt o none)
  | some a =>
    if !o.kind.noArg then .ok ([], .opt o (some a))
    else if eq || "--".toList.isPrefixOf name then .error .usage
    else cluster opts o a

/-- Positional arguments are given to their action (`_get_values`; model of `argparse`, for cdtb/__main__.py:491) -/
def closeMode (st : PState) : Except ArgStop PState :=
  match st.mode with
  | .want _ _ => .error .usage
  | .many o acc => .ok { st with ns := st.ns.set o.dest (.list acc), mode := .idle }
  | .pos p acc => .ok { st with ns := st.ns.set p.dest (.list acc), mode := .idle }
  | .idle => .ok st
  | .after => .ok { st with mode := .idle }

/-- `consume_optional` (model of `argparse`, for cdtb/__main__.py:491) -/
def consumeOpt (opts : List OptDef) (st : PState) (o : OptDef) (name : Str) (eq : Bool) (arg : Option Str) : Except ArgStop PState := do
  let (flags, last) ← expandOpt opts o name eq arg
  match last with
  | .extra s => do
    let ns ← flags.foldlM applyFlag st.ns
    .ok { st with ns := ns, extras := st.extras ++ [s] }
  | .opt o (some s) => do
    let ns ← flags.foldlM applyFlag st.ns
    let ns ← storeOne ns o s
    .ok { st with ns := ns }
  | .opt o none =>
    if o.kind.noArg then do
      let ns ← flags.foldlM applyFlag st.ns
      let ns ← applyFlag ns o
      .ok { st with ns := ns }
    else if o.kind = .many then do
      let ns ← flags.foldlM applyFlag st.ns
      .ok { st with ns := ns, mode := .many o [] }
    else .ok { st with mode := .want flags o }

/-- An argument (`consume_positionals`, or the argument of the option before it; model of `argparse`, for cdtb/__main__.py:491) -/
def consumeArg (st : PState) (s : Str) : Except ArgStop PState :=
  match st.mode with
  | .want flags o => do
    let ns ← flags.foldlM applyFlag st.ns
    let ns ← storeOne ns o s
    .ok { st with ns := ns, mode := .idle }
  | .many o acc => .ok { st with mode := .many o (acc ++ [s]) }
  | .pos p acc => .ok { st with mode := .pos p (acc ++ [s]) }
  | .idle | .after => match st.pos with
    | none => .ok { st with extras := st.extras ++ [s] }
    | some p => match p.kind with
      | .one choices => do
        chosen choices s
        .ok { st with ns := st.ns.set p.dest (.str s), pos := none, mode := .after }
      | .opt => .ok { st with ns := st.ns.set p.dest (.str s), pos := none, mode := .after }
      | .star | .plus => .ok { st with pos := none, mode := .pos p [s] }

/-- One word (`_parse_known_args`; model of `argparse`, for cdtb/__main__.py:491) -/
def parseStep (opts : List OptDef) (st : PState) : Tok → Except ArgStop PState
  | .arg s => consumeArg st s
  | .opt o name eq arg => do
    let st ← closeMode st
    consumeOpt opts st o name eq arg
  | .unknown s => do
    let st ← closeMode st
    .ok { st with extras := st.extras ++ [s] }
  | .sep => match st.mode with
    | .want _ _ => .error .usage
    | .many o acc =>
      .ok { st with ns := st.ns.set o.dest (.list acc), mode := .idle, extras := if st.pos.isSome then st.extras else st.extras ++ ["--".toList] }
    | .pos _ _ => .ok st
    | .after => .ok { st with mode := .idle }
    | .idle => .ok { st with extras := if st.pos.isSome then st.extras else st.extras ++ ["--".toList] }

/-- End of the command line: a required argument is missing, or a word is not recognized
(`_parse_known_args`, `parse_args`; model of `argparse`, for cdtb/__main__.py:491) -/
def parseEnd (st : PState) : Except ArgStop (Dict Str ArgVal) := do
  let st ← closeMode st
  let ns ← match st.pos with
    | none => .ok st.ns
    | some p => match p.kind with
      | .one _ | .plus => .error .usage
      | .opt => .ok st.ns
      | .star => .ok (st.ns.set p.dest (.list []))
  if st.extras.isEmpty then .ok ns else .error .usage

/-- Attributes before parsing: the default of the first option declared for each one (model of `argparse`, for cdtb/__main__.py:491) -/
def ParserDef.defaults (p : ParserDef) : Dict Str ArgVal :=
  let d : Dict Str ArgVal := p.opts.foldl (fun (d : Dict Str ArgVal) o => if o.kind = .help ∨ d.contains o.dest then d else d.set o.dest o.default) []
  match p.pos with
  | none => d
  | some q => if d.contains q.dest then d else d.set q.dest .none

/-- `parser.parse_args(argv)` for the parser of a command (model of `argparse`, for cdtb/__main__.py:491) -/
def ParserDef.parse (p : ParserDef) (argv : List Str) : Except ArgStop (Dict Str ArgVal) := do
  let ts ← tokens p.opts argv
  let st ← ts.foldlM (parseStep p.opts) ⟨p.defaults, p.pos, [], .idle⟩
  parseEnd st

/-! ## The parsers of the toolbox -/

/-- Option without argument: `action='store_true'` -/
def optTrue (names : List String) (dest : String) : OptDef := ⟨names.map String.toList, dest.toList, .flag (.bool true), .bool false⟩

/-- Option with an argument -/
def optOne (names : List String) (dest : String) (default : ArgVal := .none) (choices : Option (List String) := none) : OptDef :=
  ⟨names.map String.toList, dest.toList, .one (choices.map fun l => l.map String.toList), default⟩

/-- `-h`, `--help`: added by `argparse` to all the parsers with `add_help` (cdtb/__main__.py:334, 384) -/
def optHelp : OptDef := ⟨["-h".toList, "--help".toList], "help".toList, .help, .none⟩

/-- `storage_parser` (cdtb/__main__.py:371-375) -/
def storageOpts : List OptDef := [optOne ["-s", "--storage"] "storage", optOne ["--patchline"] "patchline" (choices := some ["pbe", "live"])]

/-- `component_parser` (cdtb/__main__.py:379-383) -/
def componentOpts : List OptDef := storageOpts ++
  [⟨["--no-lang".toList], "langs".toList, .flag (.bool false), .bool true⟩, ⟨["--lang".toList], "langs".toList, .many, .none⟩]

/-- The commands and their parsers (cdtb/__main__.py:369, 385-484); `exportDir` is the variable `CDTB_EXPORT` -/
def commandParsers (exportDir : Option Str) : List (Str × ParserDef) :=
  [("download".toList, ⟨optHelp :: componentOpts, some ⟨"component".toList, .plus⟩⟩),
   ("files".toList, ⟨optHelp :: componentOpts ++ [optTrue ["-r", "--relative"] "relative"], some ⟨"component".toList, .one none⟩⟩),
   ("versions".toList, ⟨optHelp :: storageOpts ++ [⟨["-a".toList, "--all".toList], "stored".toList, .flag (.bool false), .bool true⟩],
      some ⟨"type".toList, .one (some ["patch".toList, "game".toList, "client".toList])⟩⟩),
   ("fetch-hashes".toList, ⟨[optHelp], none⟩),
   ("wad-extract".toList, ⟨[optHelp, optOne ["-o", "--output"] "output", optOne ["-H", "--hashes"] "hashes",
      ⟨["-p".toList, "--pattern".toList], "pattern".toList, .append, .none⟩,
      optOne ["-u", "--unknown"] "unknown" (.str "yes".toList) (some ["yes", "only", "no"]), optTrue ["--lazy"] "lazy"],
      some ⟨"wad".toList, .one none⟩⟩),
   ("wad-list".toList, ⟨[optHelp, optOne ["-H", "--hashes"] "hashes"], some ⟨"wad".toList, .one none⟩⟩),
   ("hashes-guess".toList, ⟨optHelp :: storageOpts ++ [optTrue ["-n", "--dry-run"] "dry_run", optOne ["-m", "--methods"] "methods",
      optTrue ["--list-methods"] "list_methods"], some ⟨"wad".toList, .star⟩⟩),
   ("export".toList, ⟨optHelp :: storageOpts ++ [optOne ["-o", "--output"] "output" (.str (exportDir.getD "export".toList)),
      optTrue ["-L", "--symlinks"] "symlinks", optOne ["--previous"] "previous",
      ⟨["--full".toList], "previous".toList, .flag (.str "none".toList), .none⟩, optOne ["--from"] "first", optTrue ["--lazy"] "lazy"],
      some ⟨"patch".toList, .opt⟩⟩),
   ("bin-dump".toList, ⟨[optHelp, optTrue ["-j", "--json"] "json", optOne ["-V", "--patch-version"] "patch_version"],
      some ⟨"bin".toList, .one none⟩⟩),
   ("skn-extract".toList, ⟨[optHelp, optOne ["-o", "--output"] "output"], some ⟨"skn".toList, .one none⟩⟩)]

/-- Options before the command (cdtb/__main__.py:334, 364-365) -/
def mainOpts : List OptDef := [optHelp, ⟨["-v".toList, "--verbose".toList], "verbose".toList, .count, .nat 0⟩]

/-- Arguments of `main`: the number of `-v`, the command and its attributes -/
structure MainArgs where
  verbose : Nat
  command : Option (Str × Dict Str ArgVal)
deriving DecidableEq, Repr

/-- The options before the command, up to the command: number of `-v`, unrecognized words (`_parse_known_args`; model of `argparse` for
cdtb/__main__.py:367, 491). All the words from the first argument are given to the parser of the command. -/
def mainLoop (parsers : List (Str × ParserDef)) : Nat → Bool → List (Tok × Str) → Except ArgStop MainArgs
  | n, bad, [] => if bad then .error .usage else .ok ⟨n, none⟩
  | _, _, (.sep, _) :: _ => .error .usage
  | n, _, (.unknown _, _) :: l => mainLoop parsers n true l
  | n, bad, (.opt o name eq arg, _) :: l => do
    let st ← consumeOpt mainOpts ⟨[("verbose".toList, .nat n)], none, [], .idle⟩ o name eq arg
    mainLoop parsers (match st.ns.get? "verbose".toList with
      | some (.nat n) => n
      | _ => n) (bad || !st.extras.isEmpty) l
  | n, bad, (.arg c, _) :: l =>
    match parsers.find? fun x => x.1 = c with
    | none => .error .usage
    | some x => do
      let ns ← x.2.parse (l.map Prod.snd)
      if bad then .error .usage else .ok ⟨n, some (c, ns)⟩

/-- `create_parser().parse_args(argv)` (cdtb/__main__.py:490-491) -/
def parseMain (exportDir : Option Str) (argv : List Str) : Except ArgStop MainArgs := do
  let ts ← tokens mainOpts argv
  mainLoop (commandParsers exportDir) 0 false (ts.zip argv)

/-! ## `main` -/

/-- Levels of messages -/
inductive LogLevel where | debug | info | warning
deriving DecidableEq, Repr

/-- Level of all messages (cdtb/__main__.py:497-502) -/
def rootLevel (verbose : Nat) : LogLevel := if verbose ≥ 3 then .debug else if verbose ≥ 1 then .info else .warning

/-- Level set for the messages of the toolbox, if any (cdtb/__main__.py:511-514) -/
def cdtbLevel (verbose : Nat) : Option LogLevel := if verbose ≥ 2 then some .debug else if verbose ≥ 1 then some .info else none

/-- Functions of the module whose names begin with `command_` (cdtb/__main__.py:73, 78, 85, 91, 116, 144, 159, 264, 305, 319) -/
def commandFunctions : List Str :=
  ["command_download", "command_files", "command_versions", "command_fetch_hashes", "command_wad_extract", "command_wad_list",
   "command_hashes_guess", "command_export", "command_skn_extract", "command_bin_dump"].map String.toList

/-- What `main` does: prints the help of a parser, refuses the command line, stops with an exception, or calls a function with the
attributes, the storage and the levels of messages -/
inductive MainRun where
  | help
  | usage
  | failed (e : Err)
  | call (function : Str) (args : Dict Str ArgVal) (storage : Option StorageObj) (root : LogLevel) (logger : Option LogLevel)
deriving DecidableEq, Repr

/-- An attribute that is `None` or a text -/
def ArgVal.text? : ArgVal → Option Str
  | .str s => some s
  | _ => Option.none

/-- `if hasattr(args, 'storage'): args.storage = parse_storage_args(parser, args)` (cdtb/__main__.py:516-517) -/
def mainStorage (fs : FS) (json : ConfLib) (env : Option Str) (args : Dict Str ArgVal) : Res (Option StorageObj) :=
  match args.get? "storage".toList with
  | none => .ok none
  | some s => match args.get? "patchline".toList with
    | none => .error .attribute
    | some p => do
      let st ← parseStorageArgs fs json env s.text? p.text?
      .ok (some st)

/-- `main` (cdtb/__main__.py:489-519); `env` and `exportDir` are the variables `CDTB_STORAGE` and `CDTB_EXPORT` -/
def mainRun (fs : FS) (json : ConfLib) (env exportDir : Option Str) (argv : List Str) : MainRun :=
  match parseMain exportDir argv with
  | .error .usage => .usage
  | .error .help => .help
  | .ok ⟨_, none⟩ => .help
  | .ok ⟨n, some (c, args)⟩ =>
    match mainStorage fs json env args with
    | .error .usage => .usage
    | .error e => .failed e
    | .ok st =>
      let f := "command_".toList ++ c.map fun x => if x = '-' then '_' else x
      if f ∈ commandFunctions then .call f args st (rootLevel n) (cdtbLevel n) else .failed .key

end Cdtb
