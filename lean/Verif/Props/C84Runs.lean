import Verif.Props.C84
import Verif.Props.C62
import Verif.Props.C71
import Verif.Props.C78
/-!
# C84: consequences for whole runs
-/
namespace Cdtb
set_option autoImplicit false
open Py Spec

variable (T : ToolLib) (conf : ConfLib) (env dir : Option Str) (fs : FS)

/-- An option without argument that is given somewhere is taken into account -/
theorem flag_on {opts : List OptDef} {gs : List GivenOpt} (hg : ∀ g ∈ gs, g.Fits opts) {attr : String} {b : Bool}
    (hk : (opts.all fun o => o.dest != attr.toList || decide (o.kind = .flag (.bool true))) = true) (h : FlagGiven gs attr true b)
    (hm : ∃ g ∈ gs, g.opt.dest = attr.toList) : b = true := by
  unfold FlagGiven at h
  generalize hv : ArgVal.bool b = v at h
  cases h with
  | default h =>
    obtain ⟨g, hgm, hd⟩ := hm
    exact absurd hd (h g hgm)
  | last a g c v he hd _ hs =>
    have hgm := (hg g (by rw [he]; simp)).1
    have := List.all_eq_true.1 hk _ hgm
    simp only [Bool.or_eq_true, bne_iff_ne, ne_eq, decide_eq_true_eq, hd, not_true_eq_false, false_or] at this
    unfold GivenOpt.Says at hs
    rw [this] at hs
    rw [hs] at hv
    cases hv
    rfl
  | all h1 h2 => cases hv

theorem flag_off {gs : List GivenOpt} {attr : String} {on b : Bool} (h : FlagGiven gs attr on b) (hm : ∀ g ∈ gs, g.opt.dest ≠ attr.toList) : b = !on := by
  unfold FlagGiven at h
  generalize hv : ArgVal.bool b = v at h
  cases h with
  | default h => cases hv; rfl
  | last a g c v he hd _ hs => exact absurd hd (hm g (by rw [he]; simp))
  | all h1 h2 =>
    obtain ⟨g, hg, hd⟩ := h1
    exact absurd hd (hm g hg)

theorem text_none {gs : List GivenOpt} {attr : String} {o : Option Str} (h : TextGiven gs attr o) (hm : ∀ g ∈ gs, g.opt.dest ≠ attr.toList) : o = none := by
  unfold TextGiven at h
  cases o with
  | none => rfl
  | some s =>
    exfalso
    dsimp only at h
    generalize hv : ArgVal.str s = v at h
    cases h with
    | default h => cases hv
    | last a g c v he hd _ hs => exact hm g (by rw [he]; simp) hd
    | all h1 h2 => cases hv

theorem dest_named {opts : List OptDef} {names : List Str} {attr : Str}
    (hk : (opts.all fun o => !(o.names.any fun x => decide (x ∈ names)) || decide (o.dest = attr)) = true) {g : GivenOpt} (hf : g.Fits opts)
    (hn : g.name ∈ names) : g.opt.dest = attr := by
  have h1 := List.all_eq_true.1 hk _ hf.1
  have h2 : (g.opt.names.any fun x => decide (x ∈ names)) = true := List.any_eq_true.2 ⟨_, hf.2.1, decide_eq_true hn⟩
  rw [h2] at h1
  simpa only [Bool.not_true, Bool.false_or, decide_eq_true_eq] using h1

theorem lineOf_fits {c : String} {opts : List OptDef} {gs : List GivenOpt} {ws argv : List Str} (h : LineOf c opts gs ws argv) : ∀ g ∈ gs, g.Fits opts := by
  cases h with
  | plain n before after ws hg => exact hg
  | separated n gs w ws hg => exact hg

/-- `wad-extract` with `--lazy`, anywhere on the command line: nothing that exists is changed, whatever the WAD file and the failures. -/
theorem C84_lazy {p : ParserDef} (hc : ("wad-extract".toList, p) ∈ commandParsers dir) {gs : List GivenOpt} {wad : Str} {argv : List Str}
    (h : LineOf "wad-extract" p.opts gs [wad] argv) (hl : ∃ g ∈ gs, g.name = "--lazy".toList) (q : Str) (n : Node) (hq : fs q = some n) :
    (T.main conf env dir fs argv).fs q = some n := by
  obtain ⟨output, hashes, unknown, lazy, -, -, -, h4, h5⟩ := C84_wad_extract T conf env dir fs hc h
  have hfits := lineOf_fits h
  obtain ⟨g, hg, hname⟩ := hl
  simp only [commandParsers, List.mem_cons, Prod.mk.injEq, List.not_mem_nil, or_false] at hc
  rcases hc with ⟨hne, -⟩ | ⟨hne, -⟩ | ⟨hne, -⟩ | ⟨hne, -⟩ | ⟨-, rfl⟩ | ⟨hne, -⟩ | ⟨hne, -⟩ | ⟨hne, -⟩ | ⟨hne, -⟩ | ⟨hne, -⟩
  any_goals exact absurd hne (by decide +kernel)
  have hdest : g.opt.dest = "lazy".toList := dest_named (names := ["--lazy".toList]) (by decide +kernel) (hfits g hg) (by rw [hname]; exact List.mem_cons_self)
  have hlazy := flag_on hfits (by decide +kernel) h4 ⟨g, hg, hdest⟩
  rw [h5]
  exact C62_lazy T.cx T.hashDir fs _ T.fnmatch T.writes hlazy q n hq

/-- `hashes-guess` with `-n` or `--dry-run`, anywhere on the command line, changes no file. -/
theorem C84_dry_run {p : ParserDef} (hc : ("hashes-guess".toList, p) ∈ commandParsers dir) {gs : List GivenOpt} {ws argv : List Str}
    (h : LineOf "hashes-guess" p.opts gs ws argv) (hl : ∃ g ∈ gs, g.name = "-n".toList ∨ g.name = "--dry-run".toList) :
    (T.main conf env dir fs argv).fs = fs := by
  obtain ⟨path, patchline, methods, lm, dr, -, -, -, -, h4, h5⟩ := C84_hashes_guess T conf env dir fs hc h
  have hfits := lineOf_fits h
  obtain ⟨g, hg, hname⟩ := hl
  simp only [commandParsers, List.mem_cons, Prod.mk.injEq, List.not_mem_nil, or_false] at hc
  rcases hc with ⟨hne, -⟩ | ⟨hne, -⟩ | ⟨hne, -⟩ | ⟨hne, -⟩ | ⟨hne, -⟩ | ⟨hne, -⟩ | ⟨-, rfl⟩ | ⟨hne, -⟩ | ⟨hne, -⟩ | ⟨hne, -⟩
  any_goals exact absurd hne (by decide +kernel)
  have hdest : g.opt.dest = "dry_run".toList := dest_named (names := ["-n".toList, "--dry-run".toList]) (by decide +kernel) (hfits g hg) (by
    rcases hname with hname | hname
    · rw [hname]; exact List.mem_cons_self
    · rw [hname]; exact List.mem_cons_of_mem _ List.mem_cons_self)
  have hdr := flag_on hfits (by decide +kernel) h4 ⟨g, hg, hdest⟩
  rw [h5, hdr]
  unfold withStorage
  split
  · rfl
  · rename_i st _
    exact (C71_dry T.hash T.text T.cx T.hashDir (T.component st fs) T.saves fs { dryRun := true, methods, listMethods := lm, wad := ws }).1

/-- `skn-extract a`, for a name without extension: the run fails and no file is written. -/
theorem C84_skn_no_extension {p : ParserDef} (hc : ("skn-extract".toList, p) ∈ commandParsers dir) {skn : Str} {argv : List Str}
    (h : LineOf "skn-extract" p.opts [] [skn] argv) (he : (splitext skn).2 = []) :
    (∃ e, (T.main conf env dir fs argv).res = .error e) ∧
      ∀ q c, (T.main conf env dir fs argv).fs q = some (.file c) → fs q = some (.file c) := by
  obtain ⟨output, h1, h2⟩ := C84_skn_extract T conf env dir fs hc h
  have := text_none h1 (by simp)
  subst this
  rw [h2]
  exact C78_no_extension T.showF fs skn T.mkdirs T.texts he

theorem processed_from (overwrite : Bool) (es : List PatchExporter) : ∀ (i : Nat) (fs : FS),
    Processed T overwrite fs es (forElems (fun _ fs e => T.process e overwrite fs) i fs es) := by
  induction es with
  | nil => exact fun i fs => .done fs
  | cons e es ih =>
    intro i fs
    rw [forElems]
    rcases h : T.process e overwrite fs with ⟨fs', err | ⟨⟩⟩
    · exact .failed fs fs' e es err h
    · exact .next fs fs' e es _ h (ih _ fs')

/-- `export` processes all the exporters, in order, up to the first failure. -/
theorem C84_processed (overwrite : Bool) (es : List PatchExporter) : Processed T overwrite fs es (T.processAll overwrite fs es) :=
  processed_from T overwrite es 0 fs

/-- Only the options and the positional arguments matter: two command lines with the same ones, with options before or after, `-v` or not, `--` or not, do
the same. -/
theorem C84_same (argv argv' : List Str) (n n' : Nat) (c : Str) (ns : Dict Str ArgVal) (h : parseMain dir argv = .ok ⟨n, some (c, ns)⟩)
    (h' : parseMain dir argv' = .ok ⟨n', some (c, ns)⟩) : T.main conf env dir fs argv = T.main conf env dir fs argv' := by
  unfold ToolLib.main mainRun
  rw [h, h']
  dsimp only
  cases mainStorage fs conf env ns with
  | error e => cases e <;> rfl
  | ok st =>
    dsimp only
    by_cases hf : ("command_".toList ++ c.map fun x => if x = '-' then '_' else x) ∈ commandFunctions
    · rw [if_pos hf, if_pos hf]
    · rw [if_neg hf, if_neg hf]

/-- A command line of each kind: files that exist are kept, or nothing is written -/
theorem C84_runs_met : (∃ p, ("wad-extract".toList, p) ∈ commandParsers none ∧ ∃ gs, (∃ g ∈ gs, g.name = "--lazy".toList) ∧
      LineOf "wad-extract" p.opts gs ["a.wad".toList] (["wad-extract", "a.wad", "--lazy"].map String.toList)) ∧
    (∃ p, ("hashes-guess".toList, p) ∈ commandParsers none ∧ ∃ gs, (∃ g ∈ gs, g.name = "-n".toList) ∧
      LineOf "hashes-guess" p.opts gs ["a.wad".toList, "b.wad".toList] (["-v", "-v", "hashes-guess", "-n", "a.wad", "b.wad"].map String.toList)) ∧
    ∃ p, ("skn-extract".toList, p) ∈ commandParsers none ∧ LineOf "skn-extract" p.opts [] ["a".toList] (["skn-extract", "a"].map String.toList) ∧
      (splitext "a".toList).2 = [] := by
  refine ⟨⟨_, by unfold commandParsers; exact List.mem_of_getElem? (i := 4) rfl, ?_⟩, ⟨_, by unfold commandParsers; exact List.mem_of_getElem? (i := 6) rfl, ?_⟩,
    ⟨_, by unfold commandParsers; exact List.mem_of_getElem? (i := 9) rfl, ?_, by decide +kernel⟩⟩
  · let g : GivenOpt := ⟨optTrue ["--lazy"] "lazy", "--lazy".toList, []⟩
    refine ⟨[g], ⟨g, by simp, rfl⟩, LineOf.plain 0 [] [g] _ ?_ (by simp [PlainWord]) ?_⟩
    · intro g' hg
      have hg : g' ∈ [g] := by simpa using hg
      rw [List.mem_singleton.1 hg]
      exact ⟨by simp [g], by decide +kernel, by simp [g], rfl⟩
    · rintro - ⟨g, hg, -⟩
      cases hg
  · let g : GivenOpt := ⟨optTrue ["-n", "--dry-run"] "dry_run", "-n".toList, []⟩
    refine ⟨[g], ⟨g, by simp, rfl⟩, LineOf.plain 2 [g] [] _ ?_ (by simp [PlainWord]) ?_⟩
    · intro g' hg
      have hg : g' ∈ [g] := by simpa using hg
      rw [List.mem_singleton.1 hg]
      exact ⟨by simp [g], by decide +kernel, by simp [g], rfl⟩
    · rintro - ⟨g, hg, hk⟩
      cases hg
      cases hk
  · refine LineOf.plain 0 [] [] _ (by simp) (by simp [PlainWord]) ?_
    rintro - ⟨g, hg, -⟩
    cases hg

end Cdtb
