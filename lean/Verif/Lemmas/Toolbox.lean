import Verif.Spec.Toolbox
import Verif.Props.C81
/-!
# Lemmas on the toolbox
-/
namespace Cdtb
set_option autoImplicit false
open Py Spec

/-! ## Calls -/

theorem unless_names {a b : String} (h : (a == b) = false) : a.toList ≠ b.toList := by
  intro e
  rw [String.toList_inj] at e
  rw [e] at h
  simp at h

theorem call_download (T : ToolLib) (fs : FS) (ns : Dict Str ArgVal) (storage : Option StorageObj) :
    T.call fs "command_download".toList ns storage = match (do
      let st ← attrStorage storage
      let components ← attrTexts ns "component"
      let langs ← attrLangs ns
      let (fs', r) := T.download st components langs fs
      .ok ⟨fs', [], r⟩ : Res ToolRun) with
      | .ok r => r
      | .error e => ⟨fs, [], .error e⟩ := by
  unfold ToolLib.call
  dsimp only
  rw [if_pos rfl]
  all_goals rfl

theorem call_files (T : ToolLib) (fs : FS) (ns : Dict Str ArgVal) (storage : Option StorageObj) :
    T.call fs "command_files".toList ns storage = match (do
      let st ← attrStorage storage
      let component ← attrText ns "component"
      let relative ← attrBool ns "relative"
      let langs ← attrLangs ns
      let (fs', out, r) := T.files st component langs relative fs
      .ok ⟨fs', out, r⟩ : Res ToolRun) with
      | .ok r => r
      | .error e => ⟨fs, [], .error e⟩ := by
  unfold ToolLib.call
  dsimp only
  rw [if_neg (unless_names (a := "command_files") (b := "command_download") (by decide)),
    if_pos rfl]
  all_goals rfl

theorem call_versions (T : ToolLib) (fs : FS) (ns : Dict Str ArgVal) (storage : Option StorageObj) :
    T.call fs "command_versions".toList ns storage = match (do
      let st ← attrStorage storage
      let stored ← attrBool ns "stored"
      let type ← attrText ns "type"
      let out ← commandVersions (T.elems st stored fs) type
      .ok ⟨fs, out, .ok ()⟩ : Res ToolRun) with
      | .ok r => r
      | .error e => ⟨fs, [], .error e⟩ := by
  unfold ToolLib.call
  dsimp only
  rw [if_neg (unless_names (a := "command_versions") (b := "command_download") (by decide)),
    if_neg (unless_names (a := "command_versions") (b := "command_files") (by decide)),
    if_pos rfl]
  all_goals rfl

theorem call_fetch_hashes (T : ToolLib) (fs : FS) (ns : Dict Str ArgVal) (storage : Option StorageObj) :
    T.call fs "command_fetch_hashes".toList ns storage = match (let (fs', out, r) := T.fetch fs
      .ok ⟨fs', out, r⟩ : Res ToolRun) with
      | .ok r => r
      | .error e => ⟨fs, [], .error e⟩ := by
  unfold ToolLib.call
  dsimp only
  rw [if_neg (unless_names (a := "command_fetch_hashes") (b := "command_download") (by decide)),
    if_neg (unless_names (a := "command_fetch_hashes") (b := "command_files") (by decide)),
    if_neg (unless_names (a := "command_fetch_hashes") (b := "command_versions") (by decide)),
    if_pos rfl]
  all_goals rfl

theorem call_wad_extract (T : ToolLib) (fs : FS) (ns : Dict Str ArgVal) (storage : Option StorageObj) :
    T.call fs "command_wad_extract".toList ns storage = match (do
      let a ← wadExtractArgs ns
      let (fs', r) := commandWadExtract T.cx T.fnmatch T.hashDir T.writes fs a
      .ok ⟨fs', [], r⟩ : Res ToolRun) with
      | .ok r => r
      | .error e => ⟨fs, [], .error e⟩ := by
  unfold ToolLib.call
  dsimp only
  rw [if_neg (unless_names (a := "command_wad_extract") (b := "command_download") (by decide)),
    if_neg (unless_names (a := "command_wad_extract") (b := "command_files") (by decide)),
    if_neg (unless_names (a := "command_wad_extract") (b := "command_versions") (by decide)),
    if_neg (unless_names (a := "command_wad_extract") (b := "command_fetch_hashes") (by decide)),
    if_pos rfl]
  all_goals rfl

theorem call_wad_list (T : ToolLib) (fs : FS) (ns : Dict Str ArgVal) (storage : Option StorageObj) :
    T.call fs "command_wad_list".toList ns storage = match (do
      let wad ← attrText ns "wad"
      let hashes ← attrOptText ns "hashes"
      let out ← commandWadList T.cx T.hashDir fs wad hashes
      .ok ⟨fs, out, .ok ()⟩ : Res ToolRun) with
      | .ok r => r
      | .error e => ⟨fs, [], .error e⟩ := by
  unfold ToolLib.call
  dsimp only
  rw [if_neg (unless_names (a := "command_wad_list") (b := "command_download") (by decide)),
    if_neg (unless_names (a := "command_wad_list") (b := "command_files") (by decide)),
    if_neg (unless_names (a := "command_wad_list") (b := "command_versions") (by decide)),
    if_neg (unless_names (a := "command_wad_list") (b := "command_fetch_hashes") (by decide)),
    if_neg (unless_names (a := "command_wad_list") (b := "command_wad_extract") (by decide)),
    if_pos rfl]
  all_goals rfl

theorem call_hashes_guess (T : ToolLib) (fs : FS) (ns : Dict Str ArgVal) (storage : Option StorageObj) :
    T.call fs "command_hashes_guess".toList ns storage = match (do
      let st ← attrStorage storage
      let a ← guessArgs ns
      let r := commandGuess T.hash T.text T.cx T.hashDir (T.component st fs) T.saves fs a
      .ok ⟨r.fs, r.out, r.res⟩ : Res ToolRun) with
      | .ok r => r
      | .error e => ⟨fs, [], .error e⟩ := by
  unfold ToolLib.call
  dsimp only
  rw [if_neg (unless_names (a := "command_hashes_guess") (b := "command_download") (by decide)),
    if_neg (unless_names (a := "command_hashes_guess") (b := "command_files") (by decide)),
    if_neg (unless_names (a := "command_hashes_guess") (b := "command_versions") (by decide)),
    if_neg (unless_names (a := "command_hashes_guess") (b := "command_fetch_hashes") (by decide)),
    if_neg (unless_names (a := "command_hashes_guess") (b := "command_wad_extract") (by decide)),
    if_neg (unless_names (a := "command_hashes_guess") (b := "command_wad_list") (by decide)),
    if_pos rfl]
  all_goals rfl

theorem call_export (T : ToolLib) (fs : FS) (ns : Dict Str ArgVal) (storage : Option StorageObj) :
    T.call fs "command_export".toList ns storage = match (do
      let st ← attrStorage storage
      let (a, overwrite) ← exportArgs ns
      let es ← commandExport (T.elems st false fs) (T.elems st true fs) (T.dirs fs a.output) a
      let (fs', r) := T.processAll overwrite fs es
      .ok ⟨fs', [], r⟩ : Res ToolRun) with
      | .ok r => r
      | .error e => ⟨fs, [], .error e⟩ := by
  unfold ToolLib.call
  dsimp only
  rw [if_neg (unless_names (a := "command_export") (b := "command_download") (by decide)),
    if_neg (unless_names (a := "command_export") (b := "command_files") (by decide)),
    if_neg (unless_names (a := "command_export") (b := "command_versions") (by decide)),
    if_neg (unless_names (a := "command_export") (b := "command_fetch_hashes") (by decide)),
    if_neg (unless_names (a := "command_export") (b := "command_wad_extract") (by decide)),
    if_neg (unless_names (a := "command_export") (b := "command_wad_list") (by decide)),
    if_neg (unless_names (a := "command_export") (b := "command_hashes_guess") (by decide)),
    if_pos rfl]
  all_goals rfl

theorem call_skn_extract (T : ToolLib) (fs : FS) (ns : Dict Str ArgVal) (storage : Option StorageObj) :
    T.call fs "command_skn_extract".toList ns storage = match (do
      let skn ← attrText ns "skn"
      let output ← attrOptText ns "output"
      let (fs', r) := sknExtract T.showF fs skn output T.mkdirs T.texts
      .ok ⟨fs', [], r⟩ : Res ToolRun) with
      | .ok r => r
      | .error e => ⟨fs, [], .error e⟩ := by
  unfold ToolLib.call
  dsimp only
  rw [if_neg (unless_names (a := "command_skn_extract") (b := "command_download") (by decide)),
    if_neg (unless_names (a := "command_skn_extract") (b := "command_files") (by decide)),
    if_neg (unless_names (a := "command_skn_extract") (b := "command_versions") (by decide)),
    if_neg (unless_names (a := "command_skn_extract") (b := "command_fetch_hashes") (by decide)),
    if_neg (unless_names (a := "command_skn_extract") (b := "command_wad_extract") (by decide)),
    if_neg (unless_names (a := "command_skn_extract") (b := "command_wad_list") (by decide)),
    if_neg (unless_names (a := "command_skn_extract") (b := "command_hashes_guess") (by decide)),
    if_neg (unless_names (a := "command_skn_extract") (b := "command_export") (by decide)),
    if_pos rfl]
  all_goals rfl

theorem call_bin_dump (T : ToolLib) (fs : FS) (ns : Dict Str ArgVal) (storage : Option StorageObj) :
    T.call fs "command_bin_dump".toList ns storage = match (do
      let bin ← attrText ns "bin"
      let version ← attrOptText ns "patch_version"
      let json ← attrBool ns "json"
      let out ← T.dump.printed T.json fs bin version json
      .ok ⟨fs, [out], .ok ()⟩ : Res ToolRun) with
      | .ok r => r
      | .error e => ⟨fs, [], .error e⟩ := by
  unfold ToolLib.call
  dsimp only
  rw [if_neg (unless_names (a := "command_bin_dump") (b := "command_download") (by decide)),
    if_neg (unless_names (a := "command_bin_dump") (b := "command_files") (by decide)),
    if_neg (unless_names (a := "command_bin_dump") (b := "command_versions") (by decide)),
    if_neg (unless_names (a := "command_bin_dump") (b := "command_fetch_hashes") (by decide)),
    if_neg (unless_names (a := "command_bin_dump") (b := "command_wad_extract") (by decide)),
    if_neg (unless_names (a := "command_bin_dump") (b := "command_wad_list") (by decide)),
    if_neg (unless_names (a := "command_bin_dump") (b := "command_hashes_guess") (by decide)),
    if_neg (unless_names (a := "command_bin_dump") (b := "command_export") (by decide)),
    if_neg (unless_names (a := "command_bin_dump") (b := "command_skn_extract") (by decide)),
    if_pos rfl]
  all_goals rfl

/-! ## Command lines -/

theorem default_find {opts : List OptDef} {k : Str} {d : ArgVal} (h : DefaultOf opts k d) :
    (opts.find? fun o => decide (o.kind ≠ .help ∧ o.dest = k)).map OptDef.default = some d := by
  obtain ⟨a, o, b, rfl, h1, h2, rfl, h3⟩ := h
  have : ((a ++ o :: b).find? fun o => decide (o.kind ≠ .help ∧ o.dest = k)) = some o := by
    rw [List.find?_eq_some_iff_append]
    refine ⟨by simp [h1, h2], a, b, rfl, fun x hx => ?_⟩
    rcases h3 x hx with h | h
    · simp [h]
    · simp [h]
  rw [this]
  rfl

/-- The attributes given by a command line -/
theorem line_ns (dir : Option Str) {c : String} {p : ParserDef} (hc : (c.toList, p) ∈ commandParsers dir) {gs : List GivenOpt} {ws argv : List Str}
    (h : LineOf c p.opts gs ws argv) (hv : match p.pos with
      | none => ws = []
      | some q => ∃ v, PosTells q.kind ws v) :
    ∃ n ns, parseMain dir argv = .ok ⟨n, some (c.toList, ns)⟩ ∧
      (∀ k d, ((p.opts.find? fun o => decide (o.kind ≠ .help ∧ o.dest = k)).map OptDef.default) = some d →
        ∃ v, ns.get? k = some v ∧ Tells gs k d v) ∧
      (∀ q ∈ p.pos, ∃ v, ns.get? q.dest = some v ∧ PosTells q.kind ws v) ∧ ∀ g ∈ gs, g.Fits p.opts := by
  have fin : ∀ (ns : Dict Str ArgVal), (∀ o ∈ p.opts, o.kind ≠ .help → ∃ d v, DefaultOf p.opts o.dest d ∧ ns.get? o.dest = some v ∧ Tells gs o.dest d v) →
      ∀ k d, ((p.opts.find? fun o => decide (o.kind ≠ .help ∧ o.dest = k)).map OptDef.default) = some d →
        ∃ v, ns.get? k = some v ∧ Tells gs k d v := by
    intro ns hn k d hd
    rw [Option.map_eq_some_iff] at hd
    obtain ⟨o, ho, rfl⟩ := hd
    have h1 := List.find?_some ho
    simp only [decide_eq_true_eq] at h1
    obtain ⟨h2, rfl⟩ := h1
    obtain ⟨d', v, hd', hv', ht⟩ := hn o (List.mem_of_find?_eq_some ho) h2
    have := default_find hd'
    rw [ho] at this
    cases this
    exact ⟨v, hv', ht⟩
  cases h with
  | plain n before after ws hg hw ho =>
    obtain ⟨ns, h1, h2, h3⟩ := C81_plain dir hc n before after ws hg hw ho hv
    exact ⟨n, ns, h1, fin ns h2, h3, hg⟩
  | separated n gs w ws hg =>
    cases hq : p.pos with
    | none => rw [hq] at hv; cases hv
    | some q =>
      rw [hq] at hv
      obtain ⟨v, hv⟩ := hv
      obtain ⟨ns, h1, h2, h3⟩ := C81_separator dir hc n gs hg q hq (w :: ws) v hv
      refine ⟨n, ns, h1, fin ns h2, fun q' hq' => ?_, hg⟩
      cases hq'
      exact ⟨v, h3, hv⟩

/-- Types of the attributes of an accepted command line -/
theorem ns_types (dir : Option Str) {argv : List Str} {n : Nat} {ns : Dict Str ArgVal} (x : String × String) (hx : x ∈ commandOf)
    (h : parseMain dir argv = .ok ⟨n, some (x.1.toList, ns)⟩) :
    Expects x.2 ns ∧ ((UsesStorage x.2 ∧ HasOptText ns "storage" ∧ ∃ v, ns.get? "patchline".toList = some v ∧
        (v = .none ∨ v = .str "pbe".toList ∨ v = .str "live".toList)) ∨
      (¬ UsesStorage x.2 ∧ ns.get? "storage".toList = none)) ∧
      ("command_".toList ++ x.1.toList.map fun x => if x = '-' then '_' else x) = x.2.toList ∧ x.2.toList ∈ commandFunctions := by
  obtain ⟨p, hc, -, rest, -, hns⟩ := parseMain_sound dir argv n _ ns h
  have hp := (commandParsers_ok dir _ hc).1
  obtain ⟨h1, h2, -⟩ := parse_sound hp hns
  have hall : (commandOf.all fun x => decide (("command_".toList ++ x.1.toList.map fun x => if x = '-' then '_' else x) = x.2.toList) &&
    decide (x.2.toList ∈ commandFunctions)) = true := by decide +kernel
  have h3 := List.all_eq_true.1 hall x hx
  simp only [Bool.and_eq_true, decide_eq_true_eq] at h3
  exact ⟨expects_of dir hc hp h1 h2 _ hx rfl, storage_attrs dir hc hp h1 _ hx rfl, h3⟩

theorem main_free (T : ToolLib) (conf : ConfLib) (env dir : Option Str) (fs : FS) {argv : List Str} {n : Nat} {ns : Dict Str ArgVal}
    (x : String × String) (hx : x ∈ commandOf) (h : parseMain dir argv = .ok ⟨n, some (x.1.toList, ns)⟩) (hu : ¬ UsesStorage x.2) :
    T.main conf env dir fs argv = T.call fs x.2.toList ns none := by
  obtain ⟨-, h2, h3, h4⟩ := ns_types dir x hx h
  rcases h2 with h2 | h2
  · exact absurd h2.1 hu
  · unfold ToolLib.main mainRun
    rw [h]
    dsimp only
    unfold mainStorage
    rw [h2.2, h3]
    simp only [if_pos h4]

theorem main_stored (T : ToolLib) (conf : ConfLib) (env dir : Option Str) (fs : FS) {argv : List Str} {n : Nat} {ns : Dict Str ArgVal}
    (x : String × String) (hx : x ∈ commandOf) (h : parseMain dir argv = .ok ⟨n, some (x.1.toList, ns)⟩) (s q : ArgVal)
    (hs : ns.get? "storage".toList = some s) (hq : ns.get? "patchline".toList = some q) :
    T.main conf env dir fs argv = withStorage fs conf env s.text? q.text? fun st => T.call fs x.2.toList ns (some st) := by
  obtain ⟨-, -, h3, h4⟩ := ns_types dir x hx h
  unfold ToolLib.main mainRun
  rw [h]
  dsimp only
  unfold mainStorage withStorage
  rw [hs, hq, h3]
  dsimp only
  cases hp : parseStorageArgs fs conf env s.text? q.text? with
  | error e =>
    cases e <;> rfl
  | ok st =>
    simp only [bind, Except.bind, if_pos h4]

/-! ## Values -/

theorem textGiven_of {gs : List GivenOpt} {ns : Dict Str ArgVal} {k : String} {v : ArgVal} (hv : ns.get? k.toList = some v)
    (ht : Tells gs k.toList .none v) (hx : HasOptText ns k) :
    ∃ o, TextGiven gs k o ∧ attrOptText ns k = .ok o ∧ v.text? = o := by
  rcases hx with h | ⟨s, h⟩
  · rw [hv] at h
    cases h
    exact ⟨none, ht, by unfold attrOptText; rw [hv], rfl⟩
  · rw [hv] at h
    cases h
    exact ⟨some s, ht, by unfold attrOptText; rw [hv], rfl⟩

theorem flagGiven_of {gs : List GivenOpt} {ns : Dict Str ArgVal} {k : String} {v : ArgVal} {on : Bool} (hv : ns.get? k.toList = some v)
    (ht : Tells gs k.toList (.bool (!on)) v) (hx : HasBool ns k) : ∃ b, FlagGiven gs k on b ∧ attrBool ns k = .ok b := by
  obtain ⟨b, h⟩ := hx
  rw [hv] at h
  cases h
  exact ⟨b, ht, by unfold attrBool; rw [hv]⟩

theorem textsGiven_of {p : ParserDef} {gs : List GivenOpt} {ns : Dict Str ArgVal} {k : String} {v : ArgVal} (hv : ns.get? k.toList = some v)
    (ht : Tells gs k.toList .none v) (hg : ∀ g ∈ gs, g.Fits p.opts) (hk : (p.opts.all fun o => o.dest != k.toList || decide (o.kind = .append)) = true) :
    attrOptTexts ns k = .ok (TextsGiven gs k) := by
  unfold attrOptTexts
  rw [hv]
  cases ht with
  | default h =>
    have : (gs.filter fun g => g.opt.dest = k.toList) = [] := by
      rw [List.filter_eq_nil_iff]
      intro g hgm
      simpa using h g hgm
    simp only [TextsGiven, this, List.flatMap_nil]
  | last a g b v he hd hb hs =>
    exfalso
    have hgm := (hg g (by rw [he]; simp)).1
    have := List.all_eq_true.1 hk _ hgm
    simp only [Bool.or_eq_true, bne_iff_ne, ne_eq, decide_eq_true_eq, hd, not_true_eq_false, false_or] at this
    unfold GivenOpt.Says at hs
    rw [this] at hs
    exact hs
  | all h1 h2 => rfl

theorem langsGiven_of {gs : List GivenOpt} {ns : Dict Str ArgVal} {v : ArgVal} (hv : ns.get? "langs".toList = some v)
    (ht : Tells gs "langs".toList (.bool true) v) (hx : HasBool ns "langs" ∨ HasTexts ns "langs") : ∃ l, LangsGiven gs l ∧ attrLangs ns = .ok l := by
  rcases hx with ⟨b, h⟩ | ⟨l, h⟩
  · rw [hv] at h
    cases h
    cases b
    · exact ⟨.noLang, ht, by unfold attrLangs; rw [hv]⟩
    · exact ⟨.all, ht, by unfold attrLangs; rw [hv]⟩
  · rw [hv] at h
    cases h
    exact ⟨.given l, ht, by unfold attrLangs; rw [hv]⟩

theorem unknownGiven_of {gs : List GivenOpt} {ns : Dict Str ArgVal} {v : ArgVal} (hv : ns.get? "unknown".toList = some v)
    (ht : Tells gs "unknown".toList (.str "yes".toList) v) (hx : HasChoice ns "unknown" ["yes", "only", "no"]) :
    ∃ u, UnknownGiven gs u ∧ attrUnknown ns = .ok u := by
  obtain ⟨s, hs, h⟩ := hx
  rw [hv] at h
  cases h
  have key : attrUnknown ns = .ok (if s.toList = "yes".toList then .yes else if s.toList = "only".toList then .only else if s.toList = "no".toList then .no else .yes) := by
    unfold attrUnknown attrText
    rw [hv]
    rfl
  simp only [List.mem_cons, List.not_mem_nil, or_false] at hs
  rcases hs with rfl | rfl | rfl
  · exact ⟨.yes, ht, key.trans (by rw [if_pos rfl])⟩
  · exact ⟨.only, ht, key.trans (by rw [if_neg (by decide +kernel), if_pos rfl])⟩
  · exact ⟨.no, ht, key.trans (by rw [if_neg (by decide +kernel), if_neg (by decide +kernel), if_pos rfl])⟩

theorem text_of {ns : Dict Str ArgVal} {k : String} {s : Str} (h : ns.get? k.toList = some (.str s)) : attrText ns k = .ok s := by
  unfold attrText
  rw [h]

end Cdtb
