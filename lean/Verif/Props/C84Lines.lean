import Verif.Props.C84
/-!
# C84: command lines which meet the hypotheses, for each command
-/
namespace Cdtb
set_option autoImplicit false
open Py Spec

namespace C84ex

/-- Whether an option fits -/
def fits (opts : List OptDef) (g : GivenOpt) : Bool :=
  decide (g.opt ∈ opts) && decide (g.name ∈ g.opt.names) && g.vals.all (fun v => decide (v.head? ≠ some '-')) &&
    match g.opt.kind with
    | .flag _ => decide (g.vals = [])
    | .one none => decide (g.vals.length = 1)
    | .one (some choices) => decide (g.vals.length = 1) && g.vals.all (fun v => decide (v ∈ choices))
    | .append => decide (g.vals.length = 1)
    | .many => true
    | .count => false
    | .help => false

theorem fits_sound {opts : List OptDef} {g : GivenOpt} (h : fits opts g = true) : g.Fits opts := by
  obtain ⟨o, name, vals⟩ := g
  simp only [fits, Bool.and_eq_true, decide_eq_true_eq, List.all_eq_true] at h
  obtain ⟨⟨⟨h1, h2⟩, h3⟩, h4⟩ := h
  refine ⟨h1, h2, h3, ?_⟩
  revert h4
  cases hk : o.kind with
  | flag c => simp [hk]
  | one c =>
    cases c with
    | none => simp [hk, List.length_eq_one_iff]
    | some l =>
      simp only [hk, Bool.and_eq_true, decide_eq_true_eq, List.length_eq_one_iff, List.all_eq_true]
      rintro ⟨⟨v, rfl⟩, hv⟩
      exact ⟨v, hv v (by simp), rfl⟩
  | append => simp [hk, List.length_eq_one_iff]
  | many => simp [hk]
  | count => simp [hk]
  | help => simp [hk]

/-- Whether words are a line with options before and after the arguments -/
def plain (c : String) (opts : List OptDef) (n : Nat) (before after : List GivenOpt) (ws argv : List Str) : Bool :=
  (before ++ after).all (fits opts) && ws.all (fun w => decide (w.head? ≠ some '-')) &&
    (match before.getLast? with
      | some g => decide (g.opt.kind ≠ .many)
      | none => true) &&
    decide (argv = List.replicate n "-v".toList ++ c.toList :: (optWords before ++ ws ++ optWords after))

theorem plain_sound {c : String} {opts : List OptDef} {n : Nat} {before after : List GivenOpt} {ws argv : List Str}
    (h : plain c opts n before after ws argv = true) : LineOf c opts (before ++ after) ws argv := by
  simp only [plain, Bool.and_eq_true, decide_eq_true_eq, List.all_eq_true] at h
  obtain ⟨⟨⟨h1, h2⟩, h3⟩, rfl⟩ := h
  refine .plain n before after ws (fun g hg => fits_sound (h1 g hg)) h2 ?_
  rintro - ⟨g, hg, hk⟩
  rw [hg] at h3
  simp [hk] at h3

def optStorage : OptDef := optOne ["-s", "--storage"] "storage"
def optPatchline : OptDef := optOne ["--patchline"] "patchline" (choices := some ["pbe", "live"])
def optNoLang : OptDef := ⟨["--no-lang".toList], "langs".toList, .flag (.bool false), .bool true⟩
def optLang : OptDef := ⟨["--lang".toList], "langs".toList, .many, .none⟩
def optAll : OptDef := ⟨["-a".toList, "--all".toList], "stored".toList, .flag (.bool false), .bool true⟩
def optFull : OptDef := ⟨["--full".toList], "previous".toList, .flag (.str "none".toList), .none⟩

/-- The options of a command -/
def optsOf (c : String) : List OptDef := (((commandParsers none).find? fun x => x.1 = c.toList).map fun x => x.2.opts).getD []

theorem met {c : String} {n : Nat} {before after : List GivenOpt} {ws argv : List Str}
    (hc : ((commandParsers none).find? fun x => x.1 = c.toList).isSome = true)
    (h : plain c (optsOf c) n before after ws argv = true) :
    ∃ p, (c.toList, p) ∈ commandParsers none ∧ LineOf c p.opts (before ++ after) ws argv := by
  obtain ⟨⟨c', p⟩, hp⟩ := Option.isSome_iff_exists.1 hc
  have hm := List.mem_of_find?_eq_some hp
  have he := List.find?_some hp
  simp only [decide_eq_true_eq] at he
  subst he
  refine ⟨p, hm, ?_⟩
  have : optsOf c = p.opts := by rw [optsOf, hp]; rfl
  rw [← this]
  exact plain_sound h

def words (l : List String) : List Str := l.map String.toList

end C84ex

open C84ex in
/-- Each command has lines which meet the hypotheses: options with and without arguments, before and after the positional arguments -/
theorem C84_lines_all :
    (∃ p, ("download".toList, p) ∈ commandParsers none ∧ LineOf "download" p.opts
      ([⟨optPatchline, "--patchline".toList, words ["pbe"]⟩] ++ [⟨optLang, "--lang".toList, words ["fr_fr", "en_us"]⟩]) (words ["patch=10.1", "game=10.2"])
      (words ["download", "--patchline", "pbe", "patch=10.1", "game=10.2", "--lang", "fr_fr", "en_us"])) ∧
    (∃ p, ("files".toList, p) ∈ commandParsers none ∧ LineOf "files" p.opts
      ([⟨optTrue ["-r", "--relative"] "relative", "-r".toList, []⟩, ⟨optNoLang, "--no-lang".toList, []⟩] ++ [⟨optStorage, "--storage".toList, words ["cdn"]⟩])
      (words ["client=10.2"]) (words ["-v", "files", "-r", "--no-lang", "client=10.2", "--storage", "cdn"])) ∧
    (∃ p, ("versions".toList, p) ∈ commandParsers none ∧ LineOf "versions" p.opts ([⟨optAll, "-a".toList, []⟩] ++ []) (words ["game"])
      (words ["versions", "-a", "game"])) ∧
    (∃ p, ("fetch-hashes".toList, p) ∈ commandParsers none ∧ LineOf "fetch-hashes" p.opts ([] ++ []) (words []) (words ["-v", "-v", "fetch-hashes"])) ∧
    (∃ p, ("wad-list".toList, p) ∈ commandParsers none ∧ LineOf "wad-list" p.opts ([] ++ [⟨optOne ["-H", "--hashes"] "hashes", "-H".toList, words ["h.txt"]⟩])
      (words ["a.wad"]) (words ["wad-list", "a.wad", "-H", "h.txt"])) ∧
    (∃ p, ("hashes-guess".toList, p) ∈ commandParsers none ∧ LineOf "hashes-guess" p.opts
      ([⟨optTrue ["-n", "--dry-run"] "dry_run", "--dry-run".toList, []⟩] ++ [⟨optOne ["-m", "--methods"] "methods", "-m".toList, words ["grep,ext"]⟩])
      (words ["a.wad", "patch="]) (words ["hashes-guess", "--dry-run", "a.wad", "patch=", "-m", "grep,ext"])) ∧
    (∃ p, ("export".toList, p) ∈ commandParsers none ∧ LineOf "export" p.opts
      ([⟨optFull, "--full".toList, []⟩] ++ [⟨optOne ["-o", "--output"] "output" (.str "export".toList), "-o".toList, words ["out"]⟩, ⟨optTrue ["--lazy"] "lazy", "--lazy".toList, []⟩])
      (words ["latest"]) (words ["export", "--full", "latest", "-o", "out", "--lazy"])) ∧
    (∃ p, ("bin-dump".toList, p) ∈ commandParsers none ∧ LineOf "bin-dump" p.opts
      ([⟨optTrue ["-j", "--json"] "json", "-j".toList, []⟩] ++ [⟨optOne ["-V", "--patch-version"] "patch_version", "-V".toList, words ["10.1"]⟩])
      (words ["a.bin"]) (words ["bin-dump", "-j", "a.bin", "-V", "10.1"])) :=
  ⟨met (n := 0) (by decide +kernel) (by decide +kernel), met (n := 1) (by decide +kernel) (by decide +kernel), met (n := 0) (by decide +kernel) (by decide +kernel),
   met (n := 2) (by decide +kernel) (by decide +kernel), met (n := 0) (by decide +kernel) (by decide +kernel), met (n := 0) (by decide +kernel) (by decide +kernel),
   met (n := 0) (by decide +kernel) (by decide +kernel), met (n := 0) (by decide +kernel) (by decide +kernel)⟩

end Cdtb
