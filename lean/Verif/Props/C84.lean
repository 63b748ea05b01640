import Verif.Lemmas.Toolbox
/-!
# C84: what the commands do with the arguments of the command line

For all the command lines that give options `gs` and positional arguments, in one of the forms of `LineOf`: the command runs with these arguments.
-/
namespace Cdtb
set_option autoImplicit false
open Py Spec

variable (T : ToolLib) (conf : ConfLib) (env dir : Option Str) (fs : FS)

/-! ## Commands on files -/

/-- `wad-extract`: the WAD file is the one given, and so are the output, the hash file, the patterns, the files to keep, and whether existing files are kept -/
theorem C84_wad_extract {p : ParserDef} (hc : ("wad-extract".toList, p) ∈ commandParsers dir) {gs : List GivenOpt} {wad : Str} {argv : List Str}
    (h : LineOf "wad-extract" p.opts gs [wad] argv) :
    ∃ output hashes unknown lazy, TextGiven gs "output" output ∧ TextGiven gs "hashes" hashes ∧ UnknownGiven gs unknown ∧ FlagGiven gs "lazy" true lazy ∧
      T.main conf env dir fs argv = changesFiles (commandWadExtract T.cx T.fnmatch T.hashDir T.writes fs
        { wad, output, hashes, patterns := TextsGiven gs "pattern", unknown, lazy }) := by
  have hc' := hc
  simp only [commandParsers, List.mem_cons, Prod.mk.injEq, List.not_mem_nil, or_false] at hc'
  rcases hc' with ⟨hne, -⟩ | ⟨hne, -⟩ | ⟨hne, -⟩ | ⟨hne, -⟩ | ⟨-, rfl⟩ | ⟨hne, -⟩ | ⟨hne, -⟩ | ⟨hne, -⟩ | ⟨hne, -⟩ | ⟨hne, -⟩
  any_goals exact absurd hne (by decide +kernel)
  obtain ⟨n, ns, h1, h2, h3, hg⟩ := line_ns dir hc h (by exact ⟨_, _, rfl, rfl⟩)
  have hx : ("wad-extract", "command_wad_extract") ∈ commandOf := by simp [commandOf]
  obtain ⟨hex, hst, -⟩ := ns_types dir _ hx h1
  obtain ⟨v, hv, s, hs, rfl⟩ := h3 _ rfl
  cases hs
  replace hv := text_of (k := "wad") hv
  obtain ⟨-, x1, x2, x3, -, x5⟩ := hex
  obtain ⟨woutput, hwoutput, htoutput'⟩ := h2 "output".toList .none rfl
  obtain ⟨output, htoutput, heoutput, -⟩ := textGiven_of hwoutput htoutput' x1
  obtain ⟨whashes, hwhashes, hthashes'⟩ := h2 "hashes".toList .none rfl
  obtain ⟨hashes, hthashes, hehashes, -⟩ := textGiven_of hwhashes hthashes' x2
  obtain ⟨wu, hwu, htu'⟩ := h2 "unknown".toList (.str "yes".toList) rfl
  obtain ⟨unknown, htu, heu⟩ := unknownGiven_of hwu htu' x3
  obtain ⟨wp, hwp, htp⟩ := h2 "pattern".toList .none rfl
  have hep := textsGiven_of (k := "pattern") hwp htp hg rfl
  obtain ⟨wlazy, hwlazy, htlazy'⟩ := h2 "lazy".toList (.bool (!true)) rfl
  obtain ⟨lazy, htlazy, helazy⟩ := flagGiven_of hwlazy htlazy' x5
  refine ⟨output, hashes, unknown, lazy, htoutput, hthashes, htu, htlazy, ?_⟩
  rw [main_free T conf env dir fs _ hx h1 (by unfold UsesStorage; decide +kernel), call_wad_extract]
  simp only [wadExtractArgs, hv, heoutput, hehashes, heu, hep, helazy, bind, Except.bind]
  rfl


/-- `wad-list`: the WAD file and the hash file are those given; no file is changed -/
theorem C84_wad_list {p : ParserDef} (hc : ("wad-list".toList, p) ∈ commandParsers dir) {gs : List GivenOpt} {wad : Str} {argv : List Str}
    (h : LineOf "wad-list" p.opts gs [wad] argv) :
    ∃ hashes, TextGiven gs "hashes" hashes ∧ T.main conf env dir fs argv = prints fs (commandWadList T.cx T.hashDir fs wad hashes) := by
  have hc' := hc
  simp only [commandParsers, List.mem_cons, Prod.mk.injEq, List.not_mem_nil, or_false] at hc'
  rcases hc' with ⟨hne, -⟩ | ⟨hne, -⟩ | ⟨hne, -⟩ | ⟨hne, -⟩ | ⟨hne, -⟩ | ⟨-, rfl⟩ | ⟨hne, -⟩ | ⟨hne, -⟩ | ⟨hne, -⟩ | ⟨hne, -⟩
  any_goals exact absurd hne (by decide +kernel)
  obtain ⟨n, ns, h1, h2, h3, hg⟩ := line_ns dir hc h (by exact ⟨_, _, rfl, rfl⟩)
  have hx : ("wad-list", "command_wad_list") ∈ commandOf := by simp [commandOf]
  obtain ⟨hex, hst, -⟩ := ns_types dir _ hx h1
  obtain ⟨v, hv, s, hs, rfl⟩ := h3 _ rfl
  cases hs
  replace hv := text_of (k := "wad") hv
  obtain ⟨-, x1⟩ := hex
  obtain ⟨whashes, hwhashes, hthashes'⟩ := h2 "hashes".toList .none rfl
  obtain ⟨hashes, hthashes, hehashes, -⟩ := textGiven_of hwhashes hthashes' x1
  refine ⟨hashes, hthashes, ?_⟩
  rw [main_free T conf env dir fs _ hx h1 (by unfold UsesStorage; decide +kernel), call_wad_list]
  simp only [hv, hehashes, bind, Except.bind]
  cases commandWadList T.cx T.hashDir fs wad hashes <;> rfl


/-- `bin-dump`: the BIN file, the version and the format are those given; no file is changed -/
theorem C84_bin_dump {p : ParserDef} (hc : ("bin-dump".toList, p) ∈ commandParsers dir) {gs : List GivenOpt} {bin : Str} {argv : List Str}
    (h : LineOf "bin-dump" p.opts gs [bin] argv) :
    ∃ version json, TextGiven gs "patch_version" version ∧ FlagGiven gs "json" true json ∧
      T.main conf env dir fs argv = prints fs ((T.dump.printed T.json fs bin version json).map fun t => [t]) := by
  have hc' := hc
  simp only [commandParsers, List.mem_cons, Prod.mk.injEq, List.not_mem_nil, or_false] at hc'
  rcases hc' with ⟨hne, -⟩ | ⟨hne, -⟩ | ⟨hne, -⟩ | ⟨hne, -⟩ | ⟨hne, -⟩ | ⟨hne, -⟩ | ⟨hne, -⟩ | ⟨hne, -⟩ | ⟨-, rfl⟩ | ⟨hne, -⟩
  any_goals exact absurd hne (by decide +kernel)
  obtain ⟨n, ns, h1, h2, h3, hg⟩ := line_ns dir hc h (by exact ⟨_, _, rfl, rfl⟩)
  have hx : ("bin-dump", "command_bin_dump") ∈ commandOf := by simp [commandOf]
  obtain ⟨hex, hst, -⟩ := ns_types dir _ hx h1
  obtain ⟨v, hv, s, hs, rfl⟩ := h3 _ rfl
  cases hs
  replace hv := text_of (k := "bin") hv
  obtain ⟨-, x1, x2⟩ := hex
  obtain ⟨wversion, hwversion, htversion'⟩ := h2 "patch_version".toList .none rfl
  obtain ⟨version, htversion, heversion, -⟩ := textGiven_of hwversion htversion' x1
  obtain ⟨wjson, hwjson, htjson'⟩ := h2 "json".toList (.bool (!true)) rfl
  obtain ⟨json, htjson, hejson⟩ := flagGiven_of hwjson htjson' x2
  refine ⟨version, json, htversion, htjson, ?_⟩
  rw [main_free T conf env dir fs _ hx h1 (by unfold UsesStorage; decide +kernel), call_bin_dump]
  simp only [hv, heversion, hejson, bind, Except.bind]
  cases T.dump.printed T.json fs bin version json <;> rfl


/-- `skn-extract`: the SKN file and the output are those given -/
theorem C84_skn_extract {p : ParserDef} (hc : ("skn-extract".toList, p) ∈ commandParsers dir) {gs : List GivenOpt} {skn : Str} {argv : List Str}
    (h : LineOf "skn-extract" p.opts gs [skn] argv) :
    ∃ output, TextGiven gs "output" output ∧ T.main conf env dir fs argv = changesFiles (sknExtract T.showF fs skn output T.mkdirs T.texts) := by
  have hc' := hc
  simp only [commandParsers, List.mem_cons, Prod.mk.injEq, List.not_mem_nil, or_false] at hc'
  rcases hc' with ⟨hne, -⟩ | ⟨hne, -⟩ | ⟨hne, -⟩ | ⟨hne, -⟩ | ⟨hne, -⟩ | ⟨hne, -⟩ | ⟨hne, -⟩ | ⟨hne, -⟩ | ⟨hne, -⟩ | ⟨-, rfl⟩
  any_goals exact absurd hne (by decide +kernel)
  obtain ⟨n, ns, h1, h2, h3, hg⟩ := line_ns dir hc h (by exact ⟨_, _, rfl, rfl⟩)
  have hx : ("skn-extract", "command_skn_extract") ∈ commandOf := by simp [commandOf]
  obtain ⟨hex, hst, -⟩ := ns_types dir _ hx h1
  obtain ⟨v, hv, s, hs, rfl⟩ := h3 _ rfl
  cases hs
  replace hv := text_of (k := "skn") hv
  obtain ⟨-, x1⟩ := hex
  obtain ⟨woutput, hwoutput, htoutput'⟩ := h2 "output".toList .none rfl
  obtain ⟨output, htoutput, heoutput, -⟩ := textGiven_of hwoutput htoutput' x1
  refine ⟨output, htoutput, ?_⟩
  rw [main_free T conf env dir fs _ hx h1 (by unfold UsesStorage; decide +kernel), call_skn_extract]
  simp only [hv, heoutput, bind, Except.bind]
  rfl


/-- `fetch-hashes` has no argument -/
theorem C84_fetch_hashes {p : ParserDef} (hc : ("fetch-hashes".toList, p) ∈ commandParsers dir) {gs : List GivenOpt}  {argv : List Str}
    (h : LineOf "fetch-hashes" p.opts gs [] argv) :
    T.main conf env dir fs argv = ⟨(T.fetch fs).1, (T.fetch fs).2.1, (T.fetch fs).2.2⟩ := by
  have hc' := hc
  simp only [commandParsers, List.mem_cons, Prod.mk.injEq, List.not_mem_nil, or_false] at hc'
  rcases hc' with ⟨hne, -⟩ | ⟨hne, -⟩ | ⟨hne, -⟩ | ⟨-, rfl⟩ | ⟨hne, -⟩ | ⟨hne, -⟩ | ⟨hne, -⟩ | ⟨hne, -⟩ | ⟨hne, -⟩ | ⟨hne, -⟩
  any_goals exact absurd hne (by decide +kernel)
  obtain ⟨n, ns, h1, h2, h3, hg⟩ := line_ns dir hc h rfl
  have hx : ("fetch-hashes", "command_fetch_hashes") ∈ commandOf := by simp [commandOf]
  obtain ⟨hex, hst, -⟩ := ns_types dir _ hx h1
  rw [main_free T conf env dir fs _ hx h1 (by unfold UsesStorage; decide +kernel), call_fetch_hashes]


/-! ## Commands on storages -/

/-- `download`: the storage, the components and the languages are those given -/
theorem C84_download {p : ParserDef} (hc : ("download".toList, p) ∈ commandParsers dir) {gs : List GivenOpt} {w : Str} {ws : List Str} {argv : List Str}
    (h : LineOf "download" p.opts gs (w :: ws) argv) :
    ∃ path patchline langs, TextGiven gs "storage" path ∧ TextGiven gs "patchline" patchline ∧ LangsGiven gs langs ∧
      T.main conf env dir fs argv = withStorage fs conf env path patchline fun st => changesFiles (T.download st (w :: ws) langs fs) := by
  have hc' := hc
  simp only [commandParsers, List.mem_cons, Prod.mk.injEq, List.not_mem_nil, or_false] at hc'
  rcases hc' with ⟨-, rfl⟩ | ⟨hne, -⟩ | ⟨hne, -⟩ | ⟨hne, -⟩ | ⟨hne, -⟩ | ⟨hne, -⟩ | ⟨hne, -⟩ | ⟨hne, -⟩ | ⟨hne, -⟩ | ⟨hne, -⟩
  any_goals exact absurd hne (by decide +kernel)
  obtain ⟨n, ns, h1, h2, h3, hg⟩ := line_ns dir hc h (by exact ⟨_, by simp, rfl⟩)
  have hx : ("download", "command_download") ∈ commandOf := by simp [commandOf]
  obtain ⟨hex, hst, -⟩ := ns_types dir _ hx h1
  obtain ⟨v1, hv1, ht1⟩ := h2 "storage".toList .none rfl
  obtain ⟨path, hpath, -, he1⟩ := textGiven_of hv1 ht1 (hst.resolve_right (fun e => e.1 (by unfold UsesStorage; decide +kernel))).2.1
  obtain ⟨v2, hv2, ht2⟩ := h2 "patchline".toList .none rfl
  obtain ⟨patchline, hpatchline, -, he2⟩ := textGiven_of hv2 ht2 (by
    obtain ⟨-, -, v, h, h'⟩ := hst.resolve_right (fun e => e.1 (by unfold UsesStorage; decide +kernel))
    rcases h' with rfl | rfl | rfl
    · exact Or.inl h
    · exact Or.inr ⟨_, h⟩
    · exact Or.inr ⟨_, h⟩)
  obtain ⟨v, hv, -, rfl⟩ := h3 _ rfl
  obtain ⟨-, x1⟩ := hex
  obtain ⟨wl, hwl, htl'⟩ := h2 "langs".toList (.bool true) rfl
  obtain ⟨langs, htl, hel⟩ := langsGiven_of hwl htl' x1
  refine ⟨path, patchline, langs, hpath, hpatchline, htl, ?_⟩
  rw [main_stored T conf env dir fs _ hx h1 _ _ hv1 hv2, he1, he2]
  congr 1
  funext st
  have hcomp : attrTexts ns "component" = .ok (w :: ws) := by unfold attrTexts; rw [hv]
  rw [call_download]
  simp only [attrStorage, hcomp, hel, bind, Except.bind]
  rfl


/-- `files`: the storage, the component, the languages, and whether paths are relative, are those given -/
theorem C84_files {p : ParserDef} (hc : ("files".toList, p) ∈ commandParsers dir) {gs : List GivenOpt} {component : Str} {argv : List Str}
    (h : LineOf "files" p.opts gs [component] argv) :
    ∃ path patchline langs relative, TextGiven gs "storage" path ∧ TextGiven gs "patchline" patchline ∧ LangsGiven gs langs ∧ FlagGiven gs "relative" true relative ∧
      T.main conf env dir fs argv = withStorage fs conf env path patchline fun st =>
        ⟨(T.files st component langs relative fs).1, (T.files st component langs relative fs).2.1, (T.files st component langs relative fs).2.2⟩ := by
  have hc' := hc
  simp only [commandParsers, List.mem_cons, Prod.mk.injEq, List.not_mem_nil, or_false] at hc'
  rcases hc' with ⟨hne, -⟩ | ⟨-, rfl⟩ | ⟨hne, -⟩ | ⟨hne, -⟩ | ⟨hne, -⟩ | ⟨hne, -⟩ | ⟨hne, -⟩ | ⟨hne, -⟩ | ⟨hne, -⟩ | ⟨hne, -⟩
  any_goals exact absurd hne (by decide +kernel)
  obtain ⟨n, ns, h1, h2, h3, hg⟩ := line_ns dir hc h (by exact ⟨_, _, rfl, rfl⟩)
  have hx : ("files", "command_files") ∈ commandOf := by simp [commandOf]
  obtain ⟨hex, hst, -⟩ := ns_types dir _ hx h1
  obtain ⟨v1, hv1, ht1⟩ := h2 "storage".toList .none rfl
  obtain ⟨path, hpath, -, he1⟩ := textGiven_of hv1 ht1 (hst.resolve_right (fun e => e.1 (by unfold UsesStorage; decide +kernel))).2.1
  obtain ⟨v2, hv2, ht2⟩ := h2 "patchline".toList .none rfl
  obtain ⟨patchline, hpatchline, -, he2⟩ := textGiven_of hv2 ht2 (by
    obtain ⟨-, -, v, h, h'⟩ := hst.resolve_right (fun e => e.1 (by unfold UsesStorage; decide +kernel))
    rcases h' with rfl | rfl | rfl
    · exact Or.inl h
    · exact Or.inr ⟨_, h⟩
    · exact Or.inr ⟨_, h⟩)
  obtain ⟨v, hv, s, hs, rfl⟩ := h3 _ rfl
  cases hs
  replace hv := text_of (k := "component") hv
  obtain ⟨-, x1, x2⟩ := hex
  obtain ⟨wl, hwl, htl'⟩ := h2 "langs".toList (.bool true) rfl
  obtain ⟨langs, htl, hel⟩ := langsGiven_of hwl htl' x1
  obtain ⟨wrelative, hwrelative, htrelative'⟩ := h2 "relative".toList (.bool (!true)) rfl
  obtain ⟨relative, htrelative, herelative⟩ := flagGiven_of hwrelative htrelative' x2
  refine ⟨path, patchline, langs, relative, hpath, hpatchline, htl, htrelative, ?_⟩
  rw [main_stored T conf env dir fs _ hx h1 _ _ hv1 hv2, he1, he2]
  congr 1
  funext st
  rw [call_files]
  simp only [attrStorage, hv, hel, herelative, bind, Except.bind]


/-- `versions`: the storage and the type are those given, and without `--all` only stored elements are used; no file is changed -/
theorem C84_versions {p : ParserDef} (hc : ("versions".toList, p) ∈ commandParsers dir) {gs : List GivenOpt} {type : Str} {argv : List Str}
    (h : LineOf "versions" p.opts gs [type] argv) :
    type ∈ ["patch".toList, "game".toList, "client".toList] → ∃ path patchline stored, TextGiven gs "storage" path ∧ TextGiven gs "patchline" patchline ∧ FlagGiven gs "stored" false stored ∧
      T.main conf env dir fs argv = withStorage fs conf env path patchline fun st => prints fs (commandVersions (T.elems st stored fs) type) := by
  have hc' := hc
  simp only [commandParsers, List.mem_cons, Prod.mk.injEq, List.not_mem_nil, or_false] at hc'
  rcases hc' with ⟨hne, -⟩ | ⟨hne, -⟩ | ⟨-, rfl⟩ | ⟨hne, -⟩ | ⟨hne, -⟩ | ⟨hne, -⟩ | ⟨hne, -⟩ | ⟨hne, -⟩ | ⟨hne, -⟩ | ⟨hne, -⟩
  any_goals exact absurd hne (by decide +kernel)
  intro hty
  obtain ⟨n, ns, h1, h2, h3, hg⟩ := line_ns dir hc h (by exact ⟨_, _, hty, rfl, rfl⟩)
  have hx : ("versions", "command_versions") ∈ commandOf := by simp [commandOf]
  obtain ⟨hex, hst, -⟩ := ns_types dir _ hx h1
  obtain ⟨v1, hv1, ht1⟩ := h2 "storage".toList .none rfl
  obtain ⟨path, hpath, -, he1⟩ := textGiven_of hv1 ht1 (hst.resolve_right (fun e => e.1 (by unfold UsesStorage; decide +kernel))).2.1
  obtain ⟨v2, hv2, ht2⟩ := h2 "patchline".toList .none rfl
  obtain ⟨patchline, hpatchline, -, he2⟩ := textGiven_of hv2 ht2 (by
    obtain ⟨-, -, v, h, h'⟩ := hst.resolve_right (fun e => e.1 (by unfold UsesStorage; decide +kernel))
    rcases h' with rfl | rfl | rfl
    · exact Or.inl h
    · exact Or.inr ⟨_, h⟩
    · exact Or.inr ⟨_, h⟩)
  obtain ⟨v, hv, s, -, hs, rfl⟩ := h3 _ rfl
  cases hs
  replace hv := text_of (k := "type") hv
  obtain ⟨x1, -⟩ := hex
  obtain ⟨wstored, hwstored, htstored'⟩ := h2 "stored".toList (.bool (!false)) rfl
  obtain ⟨stored, htstored, hestored⟩ := flagGiven_of hwstored htstored' x1
  refine ⟨path, patchline, stored, hpath, hpatchline, htstored, ?_⟩
  rw [main_stored T conf env dir fs _ hx h1 _ _ hv1 hv2, he1, he2]
  congr 1
  funext st
  rw [call_versions]
  simp only [attrStorage, hv, hestored, bind, Except.bind]
  cases commandVersions (T.elems st stored fs) type <;> rfl


/-- `hashes-guess`: the storage, the WAD files and components, the methods, and whether results are saved, are those given -/
theorem C84_hashes_guess {p : ParserDef} (hc : ("hashes-guess".toList, p) ∈ commandParsers dir) {gs : List GivenOpt} {ws : List Str} {argv : List Str}
    (h : LineOf "hashes-guess" p.opts gs ws argv) :
    ∃ path patchline methods listMethods dryRun, TextGiven gs "storage" path ∧ TextGiven gs "patchline" patchline ∧ TextGiven gs "methods" methods ∧ FlagGiven gs "list_methods" true listMethods ∧
      FlagGiven gs "dry_run" true dryRun ∧
      T.main conf env dir fs argv = withStorage fs conf env path patchline fun st =>
        let r := commandGuess T.hash T.text T.cx T.hashDir (T.component st fs) T.saves fs { dryRun, methods, listMethods, wad := ws }
        ⟨r.fs, r.out, r.res⟩ := by
  have hc' := hc
  simp only [commandParsers, List.mem_cons, Prod.mk.injEq, List.not_mem_nil, or_false] at hc'
  rcases hc' with ⟨hne, -⟩ | ⟨hne, -⟩ | ⟨hne, -⟩ | ⟨hne, -⟩ | ⟨hne, -⟩ | ⟨hne, -⟩ | ⟨-, rfl⟩ | ⟨hne, -⟩ | ⟨hne, -⟩ | ⟨hne, -⟩
  any_goals exact absurd hne (by decide +kernel)
  obtain ⟨n, ns, h1, h2, h3, hg⟩ := line_ns dir hc h (by exact ⟨_, rfl⟩)
  have hx : ("hashes-guess", "command_hashes_guess") ∈ commandOf := by simp [commandOf]
  obtain ⟨hex, hst, -⟩ := ns_types dir _ hx h1
  obtain ⟨v1, hv1, ht1⟩ := h2 "storage".toList .none rfl
  obtain ⟨path, hpath, -, he1⟩ := textGiven_of hv1 ht1 (hst.resolve_right (fun e => e.1 (by unfold UsesStorage; decide +kernel))).2.1
  obtain ⟨v2, hv2, ht2⟩ := h2 "patchline".toList .none rfl
  obtain ⟨patchline, hpatchline, -, he2⟩ := textGiven_of hv2 ht2 (by
    obtain ⟨-, -, v, h, h'⟩ := hst.resolve_right (fun e => e.1 (by unfold UsesStorage; decide +kernel))
    rcases h' with rfl | rfl | rfl
    · exact Or.inl h
    · exact Or.inr ⟨_, h⟩
    · exact Or.inr ⟨_, h⟩)
  obtain ⟨v, hv, hv'⟩ := h3 _ rfl
  simp only [PosTells] at hv'
  subst hv'
  obtain ⟨x1, -, x2, x3⟩ := hex
  obtain ⟨wmethods, hwmethods, htmethods'⟩ := h2 "methods".toList .none rfl
  obtain ⟨methods, htmethods, hemethods, -⟩ := textGiven_of hwmethods htmethods' x2
  obtain ⟨wlistMethods, hwlistMethods, htlistMethods'⟩ := h2 "list_methods".toList (.bool (!true)) rfl
  obtain ⟨listMethods, htlistMethods, helistMethods⟩ := flagGiven_of hwlistMethods htlistMethods' x1
  obtain ⟨wdryRun, hwdryRun, htdryRun'⟩ := h2 "dry_run".toList (.bool (!true)) rfl
  obtain ⟨dryRun, htdryRun, hedryRun⟩ := flagGiven_of hwdryRun htdryRun' x3
  refine ⟨path, patchline, methods, listMethods, dryRun, hpath, hpatchline, htmethods, htlistMethods, htdryRun, ?_⟩
  rw [main_stored T conf env dir fs _ hx h1 _ _ hv1 hv2, he1, he2]
  congr 1
  funext st
  have hwad : attrTexts ns "wad" = .ok ws := by unfold attrTexts; rw [hv]
  rw [call_hashes_guess]
  simp only [guessArgs, attrStorage, hwad, hemethods, helistMethods, hedryRun, bind, Except.bind]


/-- `export`: the storage, the patch if any, the previous one, the first one, the output, whether links are made and whether existing files are kept, are those
given; the default of the output is `CDTB_EXPORT`, or `export`. Nothing is changed when exporters cannot be made. -/
theorem C84_export {p : ParserDef} (hc : ("export".toList, p) ∈ commandParsers dir) {gs : List GivenOpt} {ws : List Str} (hws : ws.length ≤ 1) {argv : List Str}
    (h : LineOf "export" p.opts gs ws argv) :
    ∃ path patchline previous first output symlinks lazy, TextGiven gs "storage" path ∧ TextGiven gs "patchline" patchline ∧ TextGiven gs "previous" previous ∧ TextGiven gs "first" first ∧
      Tells gs "output".toList (.str (dir.getD "export".toList)) (.str output) ∧ FlagGiven gs "symlinks" true symlinks ∧ FlagGiven gs "lazy" true lazy ∧
      T.main conf env dir fs argv = withStorage fs conf env path patchline fun st =>
        match commandExport (T.elems st false fs) (T.elems st true fs) (T.dirs fs output) { patch := ws.head?, previous, first, output, symlinks } with
        | .error e => ⟨fs, [], .error e⟩
        | .ok es => changesFiles (T.processAll (!lazy) fs es) := by
  have hc' := hc
  simp only [commandParsers, List.mem_cons, Prod.mk.injEq, List.not_mem_nil, or_false] at hc'
  rcases hc' with ⟨hne, -⟩ | ⟨hne, -⟩ | ⟨hne, -⟩ | ⟨hne, -⟩ | ⟨hne, -⟩ | ⟨hne, -⟩ | ⟨hne, -⟩ | ⟨-, rfl⟩ | ⟨hne, -⟩ | ⟨hne, -⟩
  any_goals exact absurd hne (by decide +kernel)
  have hpt : ∃ v, PosTells .opt ws v := by
    match ws, hws with
    | [], _ => exact ⟨_, Or.inl ⟨rfl, rfl⟩⟩
    | [s], _ => exact ⟨_, Or.inr ⟨s, rfl, rfl⟩⟩
    | _ :: _ :: _, h => simp at h
  obtain ⟨n, ns, h1, h2, h3, hg⟩ := line_ns dir hc h (by exact hpt)
  have hx : ("export", "command_export") ∈ commandOf := by simp [commandOf]
  obtain ⟨hex, hst, -⟩ := ns_types dir _ hx h1
  obtain ⟨v1, hv1, ht1⟩ := h2 "storage".toList .none rfl
  obtain ⟨path, hpath, -, he1⟩ := textGiven_of hv1 ht1 (hst.resolve_right (fun e => e.1 (by unfold UsesStorage; decide +kernel))).2.1
  obtain ⟨v2, hv2, ht2⟩ := h2 "patchline".toList .none rfl
  obtain ⟨patchline, hpatchline, -, he2⟩ := textGiven_of hv2 ht2 (by
    obtain ⟨-, -, v, h, h'⟩ := hst.resolve_right (fun e => e.1 (by unfold UsesStorage; decide +kernel))
    rcases h' with rfl | rfl | rfl
    · exact Or.inl h
    · exact Or.inr ⟨_, h⟩
    · exact Or.inr ⟨_, h⟩)
  obtain ⟨v, hv, hv'⟩ := h3 _ rfl
  have hpatch : attrOptText ns "patch" = .ok ws.head? := by
    unfold attrOptText
    rcases hv' with ⟨rfl, rfl⟩ | ⟨s, rfl, rfl⟩
    · rw [hv]; rfl
    · rw [hv]; rfl
  obtain ⟨x1, x2, -, x4, x5, s, x6⟩ := hex
  obtain ⟨wprevious, hwprevious, htprevious'⟩ := h2 "previous".toList .none rfl
  obtain ⟨previous, htprevious, heprevious, -⟩ := textGiven_of hwprevious htprevious' x4
  obtain ⟨wfirst, hwfirst, htfirst'⟩ := h2 "first".toList .none rfl
  obtain ⟨first, htfirst, hefirst, -⟩ := textGiven_of hwfirst htfirst' x5
  obtain ⟨wsymlinks, hwsymlinks, htsymlinks'⟩ := h2 "symlinks".toList (.bool (!true)) rfl
  obtain ⟨symlinks, htsymlinks, hesymlinks⟩ := flagGiven_of hwsymlinks htsymlinks' x2
  obtain ⟨wlazy, hwlazy, htlazy'⟩ := h2 "lazy".toList (.bool (!true)) rfl
  obtain ⟨lazy, htlazy, helazy⟩ := flagGiven_of hwlazy htlazy' x1
  obtain ⟨wo, hwo, hto⟩ := h2 "output".toList _ rfl
  rw [x6] at hwo
  cases hwo
  have heo := text_of (k := "output") x6
  refine ⟨path, patchline, previous, first, s, symlinks, lazy, hpath, hpatchline, htprevious, htfirst, hto, htsymlinks, htlazy, ?_⟩
  rw [main_stored T conf env dir fs _ hx h1 _ _ hv1 hv2, he1, he2]
  congr 1
  funext st
  rw [call_export]
  simp only [exportArgs, attrStorage, hpatch, heprevious, hefirst, hesymlinks, helazy, heo, bind, Except.bind]
  cases commandExport (T.elems st false fs) (T.elems st true fs) (T.dirs fs s) { patch := ws.head?, previous, first, output := s, symlinks } with
  | error e => rfl
  | ok es => rfl



/-! ## All command lines -/

theorem optText_from {p : ParserDef} {argv : List Str} {ns : Dict Str ArgVal}
    (hn : ∀ o ∈ p.opts, o.kind ≠ .help → ∃ v, ns.get? o.dest = some v ∧
        (DefaultOf p.opts o.dest v ∨ ∃ o' ∈ p.opts, o'.dest = o.dest ∧ CanGive argv o' v)) (k : String)
    (hf : ((p.opts.find? fun o => decide (o.kind ≠ .help ∧ o.dest = k.toList)).map OptDef.default) = some .none)
    (hk : (p.opts.all fun o => o.dest != k.toList || decide (o.kind = .one none)) = true) :
    ∃ o, attrOptText ns k = .ok o ∧ FromLine argv o ∧ ∃ v, ns.get? k.toList = some v ∧ v.text? = o := by
  have hf' := hf
  rw [Option.map_eq_some_iff] at hf
  obtain ⟨o, ho, -⟩ := hf
  have h1 := List.find?_some ho
  simp only [decide_eq_true_eq] at h1
  obtain ⟨h2, h3⟩ := h1
  obtain ⟨v, hv, hd⟩ := hn o (List.mem_of_find?_eq_some ho) h2
  rw [h3] at hv hd
  unfold attrOptText
  rcases hd with hd | ⟨o', ho', hd, hg⟩
  · have := default_find hd
    rw [hf'] at this
    cases this
    exact ⟨none, by rw [hv], by rintro s ⟨⟩, _, hv, rfl⟩
  · have := List.all_eq_true.1 hk o' ho'
    simp only [Bool.or_eq_true, bne_iff_ne, ne_eq, decide_eq_true_eq, hd, not_true_eq_false, false_or] at this
    unfold CanGive at hg
    rw [this] at hg
    obtain ⟨s, rfl, hs⟩ := hg
    exact ⟨some s, by rw [hv], by rintro s' ⟨⟩; exact hs, _, hv, rfl⟩

/-- Whatever the command line: it prints a help, is refused, or runs one command with arguments of the types it expects, which come from it. No command
line makes a command fail because of an argument that is missing or of a wrong type, or runs two commands. -/
theorem C84_any (argv : List Str) : Ran T conf env dir fs argv (T.main conf env dir fs argv) := by
  cases hm : parseMain dir argv with
  | error e =>
    cases e with
    | usage =>
      have : T.main conf env dir fs argv = ⟨fs, [], .error .usage⟩ := by unfold ToolLib.main mainRun; rw [hm]
      rw [this]; exact .refused
    | help =>
      have : T.main conf env dir fs argv = ⟨fs, [], .ok ()⟩ := by unfold ToolLib.main mainRun; rw [hm]
      rw [this]; exact .help
  | ok m =>
    obtain ⟨n, _ | ⟨c, ns⟩⟩ := m
    · have : T.main conf env dir fs argv = ⟨fs, [], .ok ()⟩ := by unfold ToolLib.main mainRun; rw [hm]
      rw [this]; exact .help
    · obtain ⟨p, hc, -, hn, hpos⟩ := C81_values dir argv n c ns hm
      obtain ⟨-, -, hin, -⟩ := parseMain_sound dir argv n c ns hm
      obtain ⟨x, hx, rfl, -⟩ := command_function dir hc
      have ht := ns_types dir x hx hm
      simp only [commandParsers, List.mem_cons, Prod.mk.injEq, List.not_mem_nil, or_false] at hc
      have hx' := hx
      simp only [commandOf, List.mem_cons, List.not_mem_nil, or_false] at hx
      rcases hx with rfl | rfl | rfl | rfl | rfl | rfl | rfl | rfl | rfl | rfl
      · rcases hc with ⟨-, rfl⟩ | ⟨hne, -⟩ | ⟨hne, -⟩ | ⟨hne, -⟩ | ⟨hne, -⟩ | ⟨hne, -⟩ | ⟨hne, -⟩ | ⟨hne, -⟩ | ⟨hne, -⟩ | ⟨hne, -⟩
        any_goals exact absurd hne (by decide +kernel)
        obtain ⟨hex, hst, -⟩ := ht
        obtain ⟨-, -, v2, hv2, -⟩ := hst.resolve_right (fun e => e.1 (by unfold UsesStorage; decide +kernel))
        obtain ⟨path, -, hpath, v1, hv1, he1⟩ := optText_from hn "storage" rfl rfl
        obtain ⟨-, xl⟩ := hex
        have hl : ∃ l, attrLangs ns = .ok l := by
          rcases xl with ⟨b, hb⟩ | ⟨l, hb⟩
          · cases b
            · exact ⟨.noLang, by unfold attrLangs; rw [hb]⟩
            · exact ⟨.all, by unfold attrLangs; rw [hb]⟩
          · exact ⟨.given l, by unfold attrLangs; rw [hb]⟩
        obtain ⟨langs, hel⟩ := hl
        obtain ⟨ws, v, hv, ⟨hne, rfl⟩, hw⟩ := hpos _ rfl
        have hcomp : attrTexts ns "component" = .ok ws := by unfold attrTexts; rw [hv]
        rw [main_stored T conf env dir fs _ hx' hm _ _ hv1 hv2, he1]
        have : (fun st => T.call fs "command_download".toList ns (some st)) = fun st => changesFiles (T.download st ws langs fs) := by
          funext st
          rw [call_download]
          simp only [hcomp, hel, attrStorage, bind, Except.bind]
          rfl
        rw [this]
        exact .download _ _ _ _ hin hpath hne hw
      · rcases hc with ⟨hne, -⟩ | ⟨-, rfl⟩ | ⟨hne, -⟩ | ⟨hne, -⟩ | ⟨hne, -⟩ | ⟨hne, -⟩ | ⟨hne, -⟩ | ⟨hne, -⟩ | ⟨hne, -⟩ | ⟨hne, -⟩
        any_goals exact absurd hne (by decide +kernel)
        obtain ⟨hex, hst, -⟩ := ht
        obtain ⟨-, -, v2, hv2, -⟩ := hst.resolve_right (fun e => e.1 (by unfold UsesStorage; decide +kernel))
        obtain ⟨path, -, hpath, v1, hv1, he1⟩ := optText_from hn "storage" rfl rfl
        obtain ⟨-, xl, xr⟩ := hex
        have hl : ∃ l, attrLangs ns = .ok l := by
          rcases xl with ⟨b, hb⟩ | ⟨l, hb⟩
          · cases b
            · exact ⟨.noLang, by unfold attrLangs; rw [hb]⟩
            · exact ⟨.all, by unfold attrLangs; rw [hb]⟩
          · exact ⟨.given l, by unfold attrLangs; rw [hb]⟩
        obtain ⟨langs, hel⟩ := hl
        obtain ⟨ws, v, hv, ⟨s, rfl, rfl⟩, hw⟩ := hpos _ rfl
        have hs : s ∈ argv := hw s (by simp)
        replace hv := text_of (k := "component") hv
        obtain ⟨relative, hbrelative⟩ := xr
        have herelative : attrBool ns "relative" = .ok relative := by unfold attrBool; rw [hbrelative]
        rw [main_stored T conf env dir fs _ hx' hm _ _ hv1 hv2, he1]
        have : (fun st => T.call fs "command_files".toList ns (some st)) = fun st => ⟨(T.files st s langs relative fs).1, (T.files st s langs relative fs).2.1, (T.files st s langs relative fs).2.2⟩ := by
          funext st
          rw [call_files]
          simp only [hv, hel, herelative, attrStorage, bind, Except.bind]
          try rfl
        rw [this]
        exact .files _ _ _ _ _ hin hpath hs
      · rcases hc with ⟨hne, -⟩ | ⟨hne, -⟩ | ⟨-, rfl⟩ | ⟨hne, -⟩ | ⟨hne, -⟩ | ⟨hne, -⟩ | ⟨hne, -⟩ | ⟨hne, -⟩ | ⟨hne, -⟩ | ⟨hne, -⟩
        any_goals exact absurd hne (by decide +kernel)
        obtain ⟨hex, hst, -⟩ := ht
        obtain ⟨-, -, v2, hv2, -⟩ := hst.resolve_right (fun e => e.1 (by unfold UsesStorage; decide +kernel))
        obtain ⟨path, -, hpath, v1, hv1, he1⟩ := optText_from hn "storage" rfl rfl
        obtain ⟨xs, -⟩ := hex
        obtain ⟨stored, hbstored⟩ := xs
        have hestored : attrBool ns "stored" = .ok stored := by unfold attrBool; rw [hbstored]
        obtain ⟨ws, v, hv, ⟨s, hty, rfl, rfl⟩, hw⟩ := hpos _ rfl
        replace hv := text_of (k := "type") hv
        rw [main_stored T conf env dir fs _ hx' hm _ _ hv1 hv2, he1]
        have : (fun st => T.call fs "command_versions".toList ns (some st)) = fun st => prints fs (commandVersions (T.elems st stored fs) s) := by
          funext st
          rw [call_versions]
          simp only [hv, hestored, attrStorage, bind, Except.bind]
          cases commandVersions (T.elems st stored fs) s <;> rfl
        rw [this]
        exact .versions _ _ _ _ hin hpath hty
      · rw [main_free T conf env dir fs _ hx' hm (by unfold UsesStorage; decide +kernel), call_fetch_hashes]
        exact .fetchHashes hin
      · rcases hc with ⟨hne, -⟩ | ⟨hne, -⟩ | ⟨hne, -⟩ | ⟨hne, -⟩ | ⟨-, rfl⟩ | ⟨hne, -⟩ | ⟨hne, -⟩ | ⟨hne, -⟩ | ⟨hne, -⟩ | ⟨hne, -⟩
        any_goals exact absurd hne (by decide +kernel)
        obtain ⟨hex, hst, -⟩ := ht
        obtain ⟨ws, v, hv, ⟨s, rfl, rfl⟩, hw⟩ := hpos _ rfl
        have hs : s ∈ argv := hw s (by simp)
        replace hv := text_of (k := "wad") hv
        obtain ⟨-, -, -, x3, x4, x5⟩ := hex
        obtain ⟨output, heoutput, hfoutput, -⟩ := optText_from hn "output" rfl rfl
        obtain ⟨hashes, hehashes, hfhashes, -⟩ := optText_from hn "hashes" rfl rfl
        obtain ⟨lazy, hblazy⟩ := x5
        have helazy : attrBool ns "lazy" = .ok lazy := by unfold attrBool; rw [hblazy]
        have hu : ∃ u, attrUnknown ns = .ok u := by
          obtain ⟨s, -, hs⟩ := x3
          unfold attrUnknown
          rw [text_of (k := "unknown") hs]
          exact ⟨_, rfl⟩
        obtain ⟨u, hu⟩ := hu
        have hp : ∃ ps, attrOptTexts ns "pattern" = .ok ps ∧ ∀ s ∈ ps, InWords argv s := by
          unfold attrOptTexts
          obtain ⟨v, hv, hd⟩ := hn ⟨["-p".toList, "--pattern".toList], "pattern".toList, .append, .none⟩ (by simp) (by simp)
          rcases hd with hd | ⟨o', ho', hd, hg⟩
          · have := default_find hd
            cases this
            exact ⟨[], by rw [hv], by simp⟩
          · have hk : o'.kind = .append := by
              have : ([optHelp, optOne ["-o", "--output"] "output", optOne ["-H", "--hashes"] "hashes",
                ⟨["-p".toList, "--pattern".toList], "pattern".toList, .append, .none⟩,
                optOne ["-u", "--unknown"] "unknown" (.str "yes".toList) (some ["yes", "only", "no"]), optTrue ["--lazy"] "lazy"].all
                  fun (o : OptDef) => o.dest != "pattern".toList || decide (o.kind = .append)) = true := by decide +kernel
              have := List.all_eq_true.1 this o' ho'
              rw [show o'.dest = "pattern".toList from hd] at this
              simpa using this
            unfold CanGive at hg
            rw [hk] at hg
            obtain ⟨s, l, rfl, hs⟩ := hg
            exact ⟨s :: l, by rw [hv], hs⟩
        obtain ⟨ps, hp, hps⟩ := hp
        rw [main_free T conf env dir fs _ hx' hm (by unfold UsesStorage; decide +kernel), call_wad_extract]
        have h := Ran.wadExtract (T := T) (conf := conf) (env := env) (dir := dir) (fs := fs) (argv := argv) ⟨s, output, hashes, ps, u, lazy⟩ hin hs hfoutput hfhashes hps
        simp only [wadExtractArgs, hv, heoutput, hehashes, hu, hp, helazy, bind, Except.bind]
        exact h
      · rcases hc with ⟨hne, -⟩ | ⟨hne, -⟩ | ⟨hne, -⟩ | ⟨hne, -⟩ | ⟨hne, -⟩ | ⟨-, rfl⟩ | ⟨hne, -⟩ | ⟨hne, -⟩ | ⟨hne, -⟩ | ⟨hne, -⟩
        any_goals exact absurd hne (by decide +kernel)
        obtain ⟨hex, hst, -⟩ := ht
        obtain ⟨ws, v, hv, ⟨s, rfl, rfl⟩, hw⟩ := hpos _ rfl
        have hs : s ∈ argv := hw s (by simp)
        replace hv := text_of (k := "wad") hv
        obtain ⟨hashes, hehashes, hfhashes, -⟩ := optText_from hn "hashes" rfl rfl
        rw [main_free T conf env dir fs _ hx' hm (by unfold UsesStorage; decide +kernel), call_wad_list]
        have h := Ran.wadList (T := T) (conf := conf) (env := env) (dir := dir) (fs := fs) (argv := argv) s hashes hin hs hfhashes
        simp only [hv, hehashes, bind, Except.bind]
        cases hr : commandWadList T.cx T.hashDir fs s hashes <;> rw [hr] at h <;> exact h
      · rcases hc with ⟨hne, -⟩ | ⟨hne, -⟩ | ⟨hne, -⟩ | ⟨hne, -⟩ | ⟨hne, -⟩ | ⟨hne, -⟩ | ⟨-, rfl⟩ | ⟨hne, -⟩ | ⟨hne, -⟩ | ⟨hne, -⟩
        any_goals exact absurd hne (by decide +kernel)
        obtain ⟨hex, hst, -⟩ := ht
        obtain ⟨-, -, v2, hv2, -⟩ := hst.resolve_right (fun e => e.1 (by unfold UsesStorage; decide +kernel))
        obtain ⟨path, -, hpath, v1, hv1, he1⟩ := optText_from hn "storage" rfl rfl
        obtain ⟨x1, -, -, x3⟩ := hex
        obtain ⟨ws, v, hv, hv', hw⟩ := hpos _ rfl
        simp only [PosTells] at hv'
        subst hv'
        have hwad : attrTexts ns "wad" = .ok ws := by unfold attrTexts; rw [hv]
        obtain ⟨methods, hemethods, hfmethods, -⟩ := optText_from hn "methods" rfl rfl
        obtain ⟨lm, hblm⟩ := x1
        have helm : attrBool ns "list_methods" = .ok lm := by unfold attrBool; rw [hblm]
        obtain ⟨dr, hbdr⟩ := x3
        have hedr : attrBool ns "dry_run" = .ok dr := by unfold attrBool; rw [hbdr]
        rw [main_stored T conf env dir fs _ hx' hm _ _ hv1 hv2, he1]
        have : (fun st => T.call fs "command_hashes_guess".toList ns (some st)) = fun st => (let r := commandGuess T.hash T.text T.cx T.hashDir (T.component st fs) T.saves fs ⟨dr, methods, lm, ws⟩; ⟨r.fs, r.out, r.res⟩ : ToolRun) := by
          funext st
          rw [call_hashes_guess]
          simp only [guessArgs, hwad, hemethods, helm, hedr, attrStorage, bind, Except.bind]
          try rfl
        rw [this]
        exact .guess _ _ ⟨dr, methods, lm, ws⟩ hin hpath hw
      · rcases hc with ⟨hne, -⟩ | ⟨hne, -⟩ | ⟨hne, -⟩ | ⟨hne, -⟩ | ⟨hne, -⟩ | ⟨hne, -⟩ | ⟨hne, -⟩ | ⟨-, rfl⟩ | ⟨hne, -⟩ | ⟨hne, -⟩
        any_goals exact absurd hne (by decide +kernel)
        obtain ⟨hex, hst, -⟩ := ht
        obtain ⟨-, -, v2, hv2, -⟩ := hst.resolve_right (fun e => e.1 (by unfold UsesStorage; decide +kernel))
        obtain ⟨path, -, hpath, v1, hv1, he1⟩ := optText_from hn "storage" rfl rfl
        obtain ⟨x1, x2, -, x4, x5, s, x6⟩ := hex
        obtain ⟨ws, v, hv, hv', hw⟩ := hpos _ rfl
        have hpatch : attrOptText ns "patch" = .ok ws.head? ∧ ∀ s, ws.head? = some s → s ∈ argv := by
          unfold attrOptText
          rcases hv' with ⟨rfl, rfl⟩ | ⟨s, rfl, rfl⟩
          · rw [hv]; exact ⟨rfl, by simp⟩
          · rw [hv]; exact ⟨rfl, by rintro s' ⟨⟩; exact hw s (by simp)⟩
        have hprev : ∃ o, attrOptText ns "previous" = .ok o := by
          unfold attrOptText
          rcases x4 with h | ⟨t, h⟩
          · exact ⟨_, by rw [h]⟩
          · exact ⟨_, by rw [h]⟩
        obtain ⟨previous, heprevious⟩ := hprev
        obtain ⟨first, hefirst, hffirst, -⟩ := optText_from hn "first" rfl rfl
        obtain ⟨symlinks, hbsymlinks⟩ := x2
        have hesymlinks : attrBool ns "symlinks" = .ok symlinks := by unfold attrBool; rw [hbsymlinks]
        obtain ⟨lazy, hblazy⟩ := x1
        have helazy : attrBool ns "lazy" = .ok lazy := by unfold attrBool; rw [hblazy]
        have heo := text_of (k := "output") x6
        have hout : s = dir.getD "export".toList ∨ InWords argv s := by
          obtain ⟨v, hv, hd⟩ := hn (optOne ["-o", "--output"] "output" (.str (dir.getD "export".toList))) (by simp) (by unfold optOne; simp)
          rw [show (optOne ["-o", "--output"] "output" (.str (dir.getD "export".toList))).dest = "output".toList from rfl] at hv hd
          rw [x6] at hv
          cases hv
          rcases hd with hd | ⟨o', ho', hd, hg⟩
          · have := default_find hd
            cases this
            exact Or.inl rfl
          · have hk : o'.kind = .one none := by
              have : ∀ d, ((optHelp :: storageOpts ++ [optOne ["-o", "--output"] "output" d,
                optTrue ["-L", "--symlinks"] "symlinks", optOne ["--previous"] "previous",
                ⟨["--full".toList], "previous".toList, .flag (.str "none".toList), .none⟩, optOne ["--from"] "first", optTrue ["--lazy"] "lazy"]).all
                  fun (o : OptDef) => o.dest != "output".toList || decide (o.kind = .one none)) = true := fun d => rfl
              have := List.all_eq_true.1 (this _) o' ho'
              rw [hd] at this
              simpa using this
            unfold CanGive at hg
            rw [hk] at hg
            obtain ⟨s', he, hs⟩ := hg
            cases he
            exact Or.inr hs
        rw [main_stored T conf env dir fs _ hx' hm _ _ hv1 hv2, he1]
        have : (fun st => T.call fs "command_export".toList ns (some st)) = fun st =>
            match commandExport (T.elems st false fs) (T.elems st true fs) (T.dirs fs s) ⟨ws.head?, previous, first, s, symlinks⟩ with
            | .error e => ⟨fs, [], .error e⟩
            | .ok es => changesFiles (T.processAll (!lazy) fs es) := by
          funext st
          rw [call_export]
          simp only [exportArgs, hpatch.1, heprevious, hefirst, hesymlinks, helazy, heo, attrStorage, bind, Except.bind]
          cases commandExport (T.elems st false fs) (T.elems st true fs) (T.dirs fs s) ⟨ws.head?, previous, first, s, symlinks⟩ <;> rfl
        rw [this]
        exact .export _ _ ⟨ws.head?, previous, first, s, symlinks⟩ _ hin hpath hpatch.2 hout
      · rcases hc with ⟨hne, -⟩ | ⟨hne, -⟩ | ⟨hne, -⟩ | ⟨hne, -⟩ | ⟨hne, -⟩ | ⟨hne, -⟩ | ⟨hne, -⟩ | ⟨hne, -⟩ | ⟨-, rfl⟩ | ⟨hne, -⟩
        any_goals exact absurd hne (by decide +kernel)
        obtain ⟨hex, hst, -⟩ := ht
        obtain ⟨-, -, x2⟩ := hex
        obtain ⟨ws, v, hv, ⟨s, rfl, rfl⟩, hw⟩ := hpos _ rfl
        have hs : s ∈ argv := hw s (by simp)
        replace hv := text_of (k := "bin") hv
        obtain ⟨version, heversion, hfversion, -⟩ := optText_from hn "patch_version" rfl rfl
        obtain ⟨json, hbjson⟩ := x2
        have hejson : attrBool ns "json" = .ok json := by unfold attrBool; rw [hbjson]
        rw [main_free T conf env dir fs _ hx' hm (by unfold UsesStorage; decide +kernel), call_bin_dump]
        have h := Ran.binDump (T := T) (conf := conf) (env := env) (dir := dir) (fs := fs) (argv := argv) s version json hin hs hfversion
        simp only [hv, heversion, hejson, bind, Except.bind]
        cases hr : T.dump.printed T.json fs s version json <;> rw [hr] at h <;> exact h
      · rcases hc with ⟨hne, -⟩ | ⟨hne, -⟩ | ⟨hne, -⟩ | ⟨hne, -⟩ | ⟨hne, -⟩ | ⟨hne, -⟩ | ⟨hne, -⟩ | ⟨hne, -⟩ | ⟨hne, -⟩ | ⟨-, rfl⟩
        any_goals exact absurd hne (by decide +kernel)
        obtain ⟨hex, hst, -⟩ := ht
        obtain ⟨ws, v, hv, ⟨s, rfl, rfl⟩, hw⟩ := hpos _ rfl
        have hs : s ∈ argv := hw s (by simp)
        replace hv := text_of (k := "skn") hv
        obtain ⟨output, heoutput, hfoutput, -⟩ := optText_from hn "output" rfl rfl
        rw [main_free T conf env dir fs _ hx' hm (by unfold UsesStorage; decide +kernel), call_skn_extract]
        have h := Ran.sknExtract (T := T) (conf := conf) (env := env) (dir := dir) (fs := fs) (argv := argv) s output hin hs hfoutput
        simp only [hv, heoutput, bind, Except.bind]
        exact h

/-- Listing, dumping and refused command lines change no file -/
theorem C84_reads (argv : List Str)
    (h : ∀ c ∈ ["wad-extract".toList, "skn-extract".toList, "fetch-hashes".toList, "download".toList, "files".toList, "hashes-guess".toList, "export".toList], c ∉ argv) :
    (T.main conf env dir fs argv).fs = fs := by
  have hs : ∀ (path patchline : Option Str) (k : StorageObj → ToolRun), (∀ st, (k st).fs = fs) → (withStorage fs conf env path patchline k).fs = fs := by
    intro path patchline k hk
    unfold withStorage
    split
    · rfl
    · exact hk _
  have hp : ∀ r, (prints fs r).fs = fs := by
    intro r
    cases r <;> rfl
  have hr := C84_any T conf env dir fs argv
  generalize T.main conf env dir fs argv = r at hr
  cases hr with
  | help => rfl
  | refused => rfl
  | wadList wad hashes _ _ _ => exact hp _
  | binDump bin version json _ _ _ => exact hp _
  | versions path patchline type stored _ _ _ => exact hs _ _ _ fun st => hp _
  | wadExtract a hc => exact absurd hc (h _ (by simp))
  | sknExtract skn output hc => exact absurd hc (h _ (by simp))
  | fetchHashes hc => exact absurd hc (h _ (by simp))
  | download path patchline components langs hc => exact absurd hc (h _ (by simp))
  | files path patchline component langs relative hc => exact absurd hc (h _ (by simp))
  | guess path patchline a hc => exact absurd hc (h _ (by simp))
  | «export» path patchline a overwrite hc => exact absurd hc (h _ (by simp))

/-- Command lines of the documentation, in both forms -/
theorem C84_lines_met : (∃ p, ("wad-extract".toList, p) ∈ commandParsers none ∧ ∃ gs, gs ≠ [] ∧ TextsGiven gs "pattern" = ["*.json".toList, "*.bin".toList] ∧
      LineOf "wad-extract" p.opts gs ["a.wad".toList] (["-v", "wad-extract", "-p", "*.json", "a.wad", "--lazy", "--pattern", "*.bin"].map String.toList)) ∧
    ∃ p, ("skn-extract".toList, p) ∈ commandParsers none ∧ ∃ gs, TextGiven gs "output" (some "out".toList) ∧
      LineOf "skn-extract" p.opts gs ["-a.skn".toList] (["skn-extract", "-o", "out", "--", "-a.skn"].map String.toList) := by
  refine ⟨⟨_, by unfold commandParsers; exact List.mem_of_getElem? (i := 4) rfl, ?_⟩, ⟨_, by unfold commandParsers; exact List.mem_of_getElem? (i := 9) rfl, ?_⟩⟩
  · let o : OptDef := ⟨["-p".toList, "--pattern".toList], "pattern".toList, .append, .none⟩
    have hl : LineOf "wad-extract" _ ([⟨o, "-p".toList, ["*.json".toList]⟩] ++ [⟨optTrue ["--lazy"] "lazy", "--lazy".toList, []⟩, ⟨o, "--pattern".toList, ["*.bin".toList]⟩])
        ["a.wad".toList] _ := LineOf.plain (opts := [optHelp, optOne ["-o", "--output"] "output", optOne ["-H", "--hashes"] "hashes", o,
          optOne ["-u", "--unknown"] "unknown" (.str "yes".toList) (some ["yes", "only", "no"]), optTrue ["--lazy"] "lazy"]) 1 _ _ _ ?_ ?_ ?_
    · exact ⟨_, by simp, by decide +kernel, hl⟩
    · intro g hg
      simp only [List.cons_append, List.nil_append, List.mem_cons, List.not_mem_nil, or_false] at hg
      rcases hg with rfl | rfl | rfl
      · exact ⟨by simp, by decide +kernel, by simp [PlainWord], ⟨_, rfl⟩⟩
      · exact ⟨by simp, by decide +kernel, by simp, rfl⟩
      · exact ⟨by simp, by decide +kernel, by simp [PlainWord], ⟨_, rfl⟩⟩
    · simp [PlainWord]
    · rintro - ⟨g, hg, hk⟩
      cases hg
      cases hk
  · let g : GivenOpt := ⟨optOne ["-o", "--output"] "output", "-o".toList, ["out".toList]⟩
    refine ⟨[g], .last [] g [] _ rfl rfl (by simp) ⟨_, rfl, rfl⟩, LineOf.separated 0 [g] _ [] ?_⟩
    intro g' hg
    rw [List.mem_singleton.1 hg]
    exact ⟨by simp [g], by decide +kernel, by simp [g, PlainWord], ⟨_, rfl⟩⟩

end Cdtb
