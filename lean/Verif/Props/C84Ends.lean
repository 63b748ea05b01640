import Verif.Props.C84Runs
import Verif.Props.C67Runs
import Verif.Props.C62lazy
/-!
# C81, C84: what options tell is unique; from the command line to the files of the archive
-/
namespace Cdtb
set_option autoImplicit false
open Py Spec

section
variable (T : ToolLib) (conf : ConfLib) (env dir : Option Str) (fs : FS)

theorem last_same {α : Type} {P : α → Prop} : ∀ {a a' : List α} {g g' : α} {b b' : List α}, a ++ g :: b = a' ++ g' :: b' → P g → P g' →
    (∀ x ∈ b, ¬ P x) → (∀ x ∈ b', ¬ P x) → g = g' := by
  intro a a' g g' b b' h hg hg' hb hb'
  rcases List.append_eq_append_iff.1 h with ⟨c, -, h2⟩ | ⟨c, -, h2⟩
  · cases c with
    | nil => simp only [List.nil_append, List.cons.injEq] at h2; exact h2.1
    | cons x c =>
      simp only [List.cons_append, List.cons.injEq] at h2
      exact absurd hg' (hb g' (by rw [h2.2]; simp))
  · cases c with
    | nil => simp only [List.nil_append, List.cons.injEq] at h2; exact h2.1.symm
    | cons x c =>
      simp only [List.cons_append, List.cons.injEq] at h2
      exact absurd hg (hb' g (by rw [h2.2]; simp))

theorem says_unique {g : GivenOpt} {v v' : ArgVal} (h : g.Says v) (h' : g.Says v') : v = v' := by
  unfold GivenOpt.Says at h h'
  cases hk : g.opt.kind <;> rw [hk] at h h'
  case flag => rw [h, h']
  case one =>
    obtain ⟨s, hs, rfl⟩ := h
    obtain ⟨s', hs', rfl⟩ := h'
    rw [hs] at hs'
    cases hs'
    rfl
  case many => rw [h, h']
  all_goals exact h.elim

theorem says_append {g : GivenOpt} {v : ArgVal} (h : g.Says v) : g.opt.kind ≠ .append := by
  intro hk
  unfold GivenOpt.Says at h
  rw [hk] at h
  exact h

/-- The options given tell one value for an attribute. -/
theorem C81_unique {gs : List GivenOpt} {attr : Str} {default v v' : ArgVal} (h : Tells gs attr default v) (h' : Tells gs attr default v') : v = v' := by
  cases h with
  | default h =>
    cases h' with
    | default => rfl
    | last a g b v he hd => exact absurd hd (h g (by rw [he]; simp))
    | all h1 => obtain ⟨g, hg, hd⟩ := h1; exact absurd hd (h g hg)
  | last a g b v he hd hb hs =>
    cases h' with
    | default h => exact absurd hd (h g (by rw [he]; simp))
    | last a' g' b' v' he' hd' hb' hs' =>
      have : g = g' := last_same (P := fun x => x.opt.dest = attr) (he ▸ he') hd hd' hb hb'
      subst this
      exact says_unique hs hs'
    | all h1 h2 => exact absurd (h2 g (by rw [he]; simp) hd) (says_append hs)
  | all h1 h2 =>
    cases h' with
    | default h => obtain ⟨g, hg, hd⟩ := h1; exact absurd hd (h g hg)
    | last a g b v he hd hb hs => exact absurd (h2 g (by rw [he]; simp) hd) (says_append hs)
    | all => rfl

theorem textGiven_unique {gs : List GivenOpt} {attr : String} {o o' : Option Str} (h : TextGiven gs attr o) (h' : TextGiven gs attr o') : o = o' := by
  have := C81_unique h h'
  cases o <;> cases o' <;> simp_all

theorem flagGiven_unique {gs : List GivenOpt} {attr : String} {on b b' : Bool} (h : FlagGiven gs attr on b) (h' : FlagGiven gs attr on b') : b = b' := by
  have := C81_unique h h'
  cases this
  rfl

theorem unknownGiven_unique {gs : List GivenOpt} {u u' : UnknownArg} (h : UnknownGiven gs u) (h' : UnknownGiven gs u') : u = u' := by
  have := C81_unique h h'
  cases u <;> cases u' <;> first | rfl | (simp only [ArgVal.str.injEq] at this; exact absurd this (by decide +kernel))

/-- The arguments of `wad-extract` given by a command line -/
structure Spec.WadArgsGiven (gs : List GivenOpt) (wad : Str) (args : WadArgs) : Prop where
  wad : args.wad = wad
  output : TextGiven gs "output" args.output
  hashes : TextGiven gs "hashes" args.hashes
  unknown : UnknownGiven gs args.unknown
  patterns : args.patterns = TextsGiven gs "pattern"
  lazy : FlagGiven gs "lazy" true args.lazy

/-- `wad-extract` from the command line to the disk: if the archive opens, and nothing is in the way of its files, which have separate paths and can be
written, the run prints nothing and succeeds, each selected file the archive holds is in the output directory with its content, and nothing else changes
except created directories. -/
theorem C84_wad_extracts {p : ParserDef} (hc : ("wad-extract".toList, p) ∈ commandParsers dir) {gs : List GivenOpt} {wad : Str} {argv : List Str}
    (hl : LineOf "wad-extract" p.opts gs [wad] argv) {args : WadArgs} (hargs : WadArgsGiven gs wad args) (hw : T.writes = fun _ => {})
    {hashes : Dict Int Str} {file : Bytes} {f : WadFormat} {version : Nat × Nat} {rs : List WadRecord} {toc : Option Bytes} {out : Str}
    (h : Spec.Opens T.cx T.hashDir fs args.wad args.hashes hashes file f version rs toc) (hlazy : args.lazy = false)
    (hout : Spec.OutputOf args out) (houtdir : ∀ b, fs out ≠ some (.file b))
    (hread : ∀ r ∈ rs, Spec.Selected T.fnmatch hashes args r → ∃ c, Spec.Contains T.cx file toc f r c)
    (hext : ∀ r ∈ rs, ∀ p e, Spec.KnownAs hashes r p → Spec.HasExt p e → e.length ≤ 232)
    (hsep : rs.Pairwise fun r r' => Spec.Selected T.fnmatch hashes args r → Spec.Selected T.fnmatch hashes args r' →
      ∀ d d' x x', Spec.Target T.cx hashes file toc f out r d x → Spec.Target T.cx hashes file toc f out r' d' x' →
        x ≠ x' ∧ ¬ Spec.DirOf x x' ∧ ¬ Spec.DirOf x' x)
    (hfree : ∀ r ∈ rs, Spec.Selected T.fnmatch hashes args r → ∀ d x, Spec.Target T.cx hashes file toc f out r d x →
      fs x ≠ some .dir ∧ ∀ q, Spec.DirOf q x → ∀ b, fs q ≠ some (.file b)) :
    ∃ fs', T.main conf env dir fs argv = ⟨fs', [], .ok ()⟩ ∧
      (∀ r ∈ rs, Spec.Selected T.fnmatch hashes args r → ∀ d, Spec.Contains T.cx file toc f r (some d) →
        ∃ x, Spec.Target T.cx hashes file toc f out r d x ∧ fs' x = some (.file d)) ∧
      (∀ q, (∀ r ∈ rs, Spec.Selected T.fnmatch hashes args r → ∀ d, ¬ Spec.Target T.cx hashes file toc f out r d q) →
        fs' q = fs q ∨ (fs q = none ∧ fs' q = some .dir ∧
          ∃ r ∈ rs, Spec.Selected T.fnmatch hashes args r ∧ ∃ d x, Spec.Target T.cx hashes file toc f out r d x ∧ Spec.DirOf q x)) := by
  obtain ⟨output, hashes', unknown, lazy, h1, h2, h3, h4, h5⟩ := C84_wad_extract T conf env dir fs hc hl
  obtain ⟨fs', h6, h7, h8⟩ := C62_extract T.fnmatch h hlazy hout houtdir hread hext hsep hfree
  have hargs' : args = { wad, output, hashes := hashes', patterns := TextsGiven gs "pattern", unknown, lazy } := by
    obtain ⟨a1, a2, a3, a4, a5, a6⟩ := hargs
    cases args
    simp only at a1 a2 a3 a4 a5 a6
    simp only [WadArgs.mk.injEq]
    exact ⟨a1, textGiven_unique a2 h1, textGiven_unique a3 h2, a5, unknownGiven_unique a4 h3, flagGiven_unique a6 h4⟩
  refine ⟨fs', ?_, h7, h8⟩
  rw [h5, ← hargs', hw, h6]
  rfl

/-- `wad-extract --lazy` from the command line to the disk: the same, except that whatever is at the path of a file is kept. -/
theorem C84_wad_lazy {p : ParserDef} (hc : ("wad-extract".toList, p) ∈ commandParsers dir) {gs : List GivenOpt} {wad : Str} {argv : List Str}
    (hl : LineOf "wad-extract" p.opts gs [wad] argv) {args : WadArgs} (hargs : WadArgsGiven gs wad args) (hw : T.writes = fun _ => {})
    {hashes : Dict Int Str} {file : Bytes} {f : WadFormat} {version : Nat × Nat} {rs : List WadRecord} {toc : Option Bytes} {out : Str}
    (h : Spec.Opens T.cx T.hashDir fs args.wad args.hashes hashes file f version rs toc) (hlazy : args.lazy = true)
    (hout : Spec.OutputOf args out) (houtdir : ∀ b, fs out ≠ some (.file b))
    (hread : ∀ r ∈ rs, Spec.Selected T.fnmatch hashes args r → ∃ c, Spec.Contains T.cx file toc f r c)
    (hext : ∀ r ∈ rs, ∀ p e, Spec.KnownAs hashes r p → Spec.HasExt p e → e.length ≤ 232)
    (hsep : rs.Pairwise fun r r' => Spec.Selected T.fnmatch hashes args r → Spec.Selected T.fnmatch hashes args r' →
      ∀ d d' x x', Spec.Target T.cx hashes file toc f out r d x → Spec.Target T.cx hashes file toc f out r' d' x' →
        x ≠ x' ∧ ¬ Spec.DirOf x x' ∧ ¬ Spec.DirOf x' x)
    (hfree : ∀ r ∈ rs, Spec.Selected T.fnmatch hashes args r → ∀ d x, Spec.Target T.cx hashes file toc f out r d x → fs x = none →
      ∀ q, Spec.DirOf q x → ∀ b, fs q ≠ some (.file b)) :
    ∃ fs', T.main conf env dir fs argv = ⟨fs', [], .ok ()⟩ ∧
      (∀ r ∈ rs, Spec.Selected T.fnmatch hashes args r → ∀ d, Spec.Contains T.cx file toc f r (some d) →
        ∃ x, Spec.Target T.cx hashes file toc f out r d x ∧ (fs x = none → fs' x = some (.file d)) ∧ ∀ n, fs x = some n → fs' x = some n) ∧
      (∀ q, (∀ r ∈ rs, Spec.Selected T.fnmatch hashes args r → ∀ d, ¬ Spec.Target T.cx hashes file toc f out r d q) →
        fs' q = fs q ∨ (fs q = none ∧ fs' q = some .dir ∧
          ∃ r ∈ rs, Spec.Selected T.fnmatch hashes args r ∧ ∃ d x, Spec.Target T.cx hashes file toc f out r d x ∧ Spec.DirOf q x)) := by
  obtain ⟨output, hashes', unknown, lazy, h1, h2, h3, h4, h5⟩ := C84_wad_extract T conf env dir fs hc hl
  obtain ⟨fs', h6, h7, h8⟩ := C62_lazy_extract T.fnmatch h hlazy hout houtdir hread hext hsep hfree
  have hargs' : args = { wad, output, hashes := hashes', patterns := TextsGiven gs "pattern", unknown, lazy } := by
    obtain ⟨a1, a2, a3, a4, a5, a6⟩ := hargs
    cases args
    simp only at a1 a2 a3 a4 a5 a6
    simp only [WadArgs.mk.injEq]
    exact ⟨a1, textGiven_unique a2 h1, textGiven_unique a3 h2, a5, unknownGiven_unique a4 h3, flagGiven_unique a6 h4⟩
  refine ⟨fs', ?_, h7, h8⟩
  rw [h5, ← hargs', hw, h6]
  rfl

/-- `wad-list` from the command line: the run changes nothing and prints, for each file of the archive, its hash and its known path or `?`, sorted by path. -/
theorem C84_wad_lists {p : ParserDef} (hc : ("wad-list".toList, p) ∈ commandParsers dir) {gs : List GivenOpt} {wad : Str} {argv : List Str}
    (hl : LineOf "wad-list" p.opts gs [wad] argv) {opt : Option Str} (hopt : TextGiven gs "hashes" opt)
    {hashes : Dict Int Str} {file : Bytes} {f : WadFormat} {version : Nat × Nat} {rs : List WadRecord} {toc : Option Bytes}
    (h : Spec.Opens T.cx T.hashDir fs wad opt hashes file f version rs toc) :
    ∃ l : List (Str × Nat), T.main conf env dir fs argv = ⟨fs, l.map fun x => hexW 16 x.2 ++ ' ' :: x.1, .ok ()⟩ ∧
      (∀ x ∈ l, Spec.Hex16 (hexW 16 x.2) x.2) ∧ l.Pairwise (fun a b => a.1 < b.1 ∨ (a.1 = b.1 ∧ a.2 ≤ b.2)) ∧
      ∃ names : List Str, List.Forall₂ (fun r n => Spec.KnownAs hashes r n ∧ n ≠ [] ∨ (∀ p, Spec.KnownAs hashes r p → p = []) ∧ n = ['?']) rs names ∧
        l.Perm (names.zip (rs.map WadRecord.hash)) := by
  obtain ⟨opt', h1, h2⟩ := C84_wad_list T conf env dir fs hc hl
  obtain ⟨l, h3, h4⟩ := C62_list h
  refine ⟨l, ?_, h4⟩
  rw [h2, textGiven_unique h1 hopt, h3]
  rfl

/-- `skn-extract` from the command line: if the file can be parsed, nothing is in the way of the directory and of its files, and nothing fails, the run
succeeds and the directory has one OBJ file per submesh. -/
theorem C84_skn_extracts {p : ParserDef} (hc : ("skn-extract".toList, p) ∈ commandParsers dir) {gs : List GivenOpt} {skn : Str} {argv : List Str}
    (hl : LineOf "skn-extract" p.opts gs [skn] argv) {output : Option Str} (ho : TextGiven gs "output" output) (hmk : T.mkdirs = none)
    (hf : ∀ i, (T.texts i).open_ = none ∧ (T.texts i).write = none) (b : Bytes) (s : Skn) (out : Str)
    (hout : out = output.getD (splitext skn).1) (hb : fs skn = some (.file b)) (hs : parseSkn.run b = .ok s) (hne : out ≠ []) (hlast : out.getLast? ≠ some '/')
    (hdirs : ∀ q c, fs q = some (.file c) → q ≠ out ∧ ∀ r, out ≠ q ++ '/' :: r) (hmul : ∀ e ∈ s.entries, e.indices.length % 3 = 0)
    (hplain : ∀ e ∈ s.entries, '/' ∉ e.name) (hnd : ∀ e ∈ s.entries, fs (objPath out e.name) ≠ some .dir) :
    ∃ fs' fs1, T.main conf env dir fs argv = ⟨fs', [], .ok ()⟩ ∧ DirsMade out fs fs1 ∧ Wrote T.showF out s.entries fs1 fs' := by
  obtain ⟨output', h1, h2⟩ := C84_skn_extract T conf env dir fs hc hl
  have := textGiven_unique h1 ho
  subst this
  have h3 := C78_succeeds T.showF fs skn output' T.texts b s out hout hb hs hne hlast hdirs hmul hplain hnd hf
  rw [hmk] at h2
  rcases h4 : sknExtract T.showF fs skn output' none T.texts with ⟨fs', r⟩
  rw [h4] at h3
  simp only at h3
  subst h3
  obtain ⟨b', s', fs1, h5, h6, h7, h8⟩ := C78_extract T.showF fs fs' skn output' none T.texts h4
  rw [hb] at h5
  cases h5
  rw [hs] at h6
  cases h6
  refine ⟨fs', fs1, ?_, hout ▸ h7, hout ▸ h8⟩
  rw [h2, h4]
  rfl

/-- `fetch-hashes` from the command line to the disk: when the server answers, files can be written and nothing is in the way, the run prints the directory and
succeeds; each hash file is then the one of the server, or one that was there and not older; no other file is changed; all the hash files which WAD commands read
by default exist. -/
theorem C84_fetches {p : ParserDef} (hc : ("fetch-hashes".toList, p) ∈ commandParsers dir) {gs : List GivenOpt} {argv : List Str}
    (hl : LineOf "fetch-hashes" p.opts gs [] argv) {source hdir : Str} {calls : Str → UpdateCall} {mtime : Str → Int}
    (hT : T.fetch = fetchHashesRun source hdir calls none mtime) (hd : hdir ≠ []) (hs : hdir ≠ source) (hclear : ClearHashes hdir fs)
    (content : Str → Bytes) (hans : ∀ b ∈ hashNames, Answered (calls b) (content b)) :
    ∃ fs', T.main conf env dir fs argv = ⟨fs', ["Updating hash files: ".toList ++ hdir], .ok ()⟩ ∧
      (∀ b ∈ hashNames, fs' (inDir hdir b) = some (.file (content b)) ∨
        ∃ old, fs (inDir hdir b) = some (.file old) ∧ fs' (inDir hdir b) = some (.file old) ∧
          ∀ h t, (calls b).head = .ok h → HttpDate h t → (t : Int) * 1000000000 ≤ mtime (inDir hdir b)) ∧
      (∀ q, (∀ b ∈ hashNames, q ≠ inDir hdir b) → ∀ x, fs' q = some (.file x) ↔ fs q = some (.file x)) ∧
      ∀ wad path, HashFileOf hdir wad none path → ∃ x, fs' path = some (.file x) := by
  have h1 := C84_fetch_hashes T conf env dir fs hc hl
  obtain ⟨h2, h3⟩ := C67_succeeds source hdir hd hs { fs, mtime } hclear calls content hans
  have h4 := (C67_fetch source hdir hd calls none { fs, mtime }).2.1
  have h5 := C67_all source hdir hd calls none { fs, mtime } hclear.files h2
  rw [hT] at h1
  unfold fetchHashesRun at h1
  rcases hr : commandFetchHashes source hdir calls none { fs, mtime } with ⟨d, r⟩
  rw [hr] at h2 h3 h4 h5
  simp only [hr] at h1
  simp only at h2
  subst h2
  rw [if_neg hs] at h1
  refine ⟨d.fs, h1, h3, h4, fun wad path hp => h5 path (Or.inl ⟨wad, ?_⟩)⟩
  exact ((C62_hashfile hdir wad none).1 path).2 hp

end

namespace C84ends

open C67ex in
/-- `cdtb fetch-hashes`, with the first call of the examples of C67 for all files -/
example (T0 : ToolLib) (conf : ConfLib) (env : Option Str) : ∃ fs',
    ({ T0 with fetch := fetchHashesRun "/src".toList C67ex.dir (fun _ => c1) none disk.mtime } : ToolLib).main conf env none disk.fs ["fetch-hashes".toList] =
      ⟨fs', ["Updating hash files: ".toList ++ C67ex.dir], .ok ()⟩ ∧ ∃ x, fs' path = some (.file x) := by
  have hline : LineOf "fetch-hashes" _ [] [] ["fetch-hashes".toList] :=
    LineOf.plain (opts := [optHelp]) 0 [] [] [] (by simp) (by simp) (by simp)
  obtain ⟨fs', h1, -, -, h2⟩ := C84_fetches { T0 with fetch := fetchHashesRun "/src".toList C67ex.dir (fun _ => c1) none disk.mtime } conf env none disk.fs
    (by unfold commandParsers; exact List.mem_of_getElem? (i := 3) rfl) hline (source := "/src".toList) (hdir := C67ex.dir) (calls := fun _ => c1) (mtime := disk.mtime) rfl (by decide) (by decide +kernel) disk_clear (fun _ => [1])
    (fun _ _ => ⟨⟨date0, 0, rfl, date0_ok⟩, by decide +kernel, rfl⟩)
  exact ⟨fs', h1, h2 "x.wad.client".toList path (((C62_hashfile _ _ none).1 _).1 (by decide +kernel))⟩

open C62ex in
/-- `cdtb wad-extract dir/w.wad`, for the archive of the example of C62, with any libraries besides those of WAD files -/
example (T0 : ToolLib) (conf : ConfLib) (env : Option Str) : ∃ fs', ({ T0 with cx := cx, fnmatch := fun _ _ => false, hashDir := "h".toList, writes := fun _ => {} } : ToolLib).main conf env none
      C62ex.fs ["wad-extract".toList, "dir/w.wad".toList] = ⟨fs', [], .ok ()⟩ ∧
    fs' "dir/w/a/x.bin".toList = some (.file [1, 2]) ∧
    fs' "dir/w/unknown/00000000000000cd.ogg".toList = some (.file [0x4f, 0x67, 0x67, 0x53]) := by
  have hsel : ∀ r, Spec.Selected (fun _ _ => false) hashes args r := fun r => ⟨by rintro ⟨⟩, by rintro ⟨⟩, fun h => absurd rfl h⟩
  have hline : LineOf "wad-extract" _ [] ["dir/w.wad".toList] ["wad-extract".toList, "dir/w.wad".toList] :=
    LineOf.plain (opts := [optHelp, optOne ["-o", "--output"] "output", optOne ["-H", "--hashes"] "hashes",
      ⟨["-p".toList, "--pattern".toList], "pattern".toList, .append, .none⟩,
      optOne ["-u", "--unknown"] "unknown" (.str "yes".toList) (some ["yes", "only", "no"]), optTrue ["--lazy"] "lazy"]) 0 [] [] ["dir/w.wad".toList] (by simp)
      (by simp [PlainWord]) (by rintro - ⟨g, hg, -⟩; simp at hg)
  have hgiven : WadArgsGiven [] "dir/w.wad".toList args :=
    ⟨rfl, .default (by simp), .default (by simp), .default (by simp), rfl, .default (by simp)⟩
  obtain ⟨fs', h1, h2, -⟩ := C84_wad_extracts { T0 with cx := cx, fnmatch := fun _ _ => false, hashDir := "h".toList, writes := fun _ => {} } conf env none C62ex.fs
    (by unfold commandParsers; exact List.mem_of_getElem? (i := 4) rfl) hline hgiven rfl opens rfl output
    (by
      intro b hb
      have : fs "dir/w".toList = none := by decide +kernel
      rw [this] at hb
      cases hb)
    (by
      intro r hr _
      simp only [List.mem_cons, List.not_mem_nil, or_false] at hr
      rcases hr with rfl | rfl
      · exact ⟨_, contains.1⟩
      · exact ⟨_, contains.2⟩)
    (by
      intro r hr p e hp he
      simp only [List.mem_cons, List.not_mem_nil, or_false] at hr
      rcases hr with rfl | rfl
      · have h1 : (some "a/x.bin".toList : Option Str) = some p := hp
        cases h1
        have h1 := hasExt_iff.1 he
        have h2 : (splitext "a/x.bin".toList).2 = '.' :: "bin".toList := by decide
        rw [h2] at h1
        cases h1
        decide
      · cases hp)
    (by
      rw [List.pairwise_cons]
      refine ⟨?_, List.pairwise_singleton _ _⟩
      intro r hr _ _ d d' x x' ht ht'
      simp only [List.mem_cons, List.not_mem_nil, or_false] at hr
      subst hr
      rcases target (List.mem_cons_self ..) ht with ⟨-, -, rfl⟩ | ⟨h, -, -⟩
      · rcases target (by simp) ht' with ⟨h, -, -⟩ | ⟨-, -, rfl⟩
        · exact absurd (congrArg WadRecord.hash h) (by decide)
        · exact ⟨by decide, not_dirOf (by decide) (by decide), not_dirOf (by decide) (by decide)⟩
      · exact absurd (congrArg WadRecord.hash h) (by decide))
    (by
      intro r hr _ d x ht
      have key : ∀ q b, fs q = some (.file b) → q = "dir/w.wad".toList ∨ q = "h/hashes.lcu.txt".toList := by
        intro q b hq
        unfold fs at hq
        split at hq
        · exact Or.inl ‹_›
        · split at hq
          · exact Or.inr ‹_›
          · cases hq
      rcases target hr ht with ⟨-, -, rfl⟩ | ⟨-, -, rfl⟩
      · refine ⟨by decide +kernel, fun q hq b hb => ?_⟩
        rcases key q b hb with rfl | rfl <;> exact not_dirOf (by decide) (by decide) hq
      · refine ⟨by decide +kernel, fun q hq b hb => ?_⟩
        rcases key q b hb with rfl | rfl <;> exact not_dirOf (by decide) (by decide) hq)
  refine ⟨fs', h1, ?_, ?_⟩
  · obtain ⟨x, hx, hf⟩ := h2 r1 (by simp) (hsel r1) _ contains.1
    rcases target (by simp) hx with ⟨-, -, rfl⟩ | ⟨h, -, -⟩
    · exact hf
    · exact absurd (congrArg WadRecord.hash h) (by decide)
  · obtain ⟨x, hx, hf⟩ := h2 r2 (by simp) (hsel r2) _ contains.2
    rcases target (by simp) hx with ⟨h, -, -⟩ | ⟨-, -, rfl⟩
    · exact absurd (congrArg WadRecord.hash h) (by decide)
    · exact hf

open C62ex in
/-- `cdtb wad-extract dir/w.wad --lazy`, when the first file of the archive is already extracted -/
example (T0 : ToolLib) (conf : ConfLib) (env : Option Str) : ∃ fs', ({ T0 with cx := cx, fnmatch := fun _ _ => false, hashDir := "h".toList, writes := fun _ => {} } : ToolLib).main conf env none
      lazyFs (["wad-extract", "dir/w.wad", "--lazy"].map String.toList) = ⟨fs', [], .ok ()⟩ ∧
    fs' "dir/w/a/x.bin".toList = some (.file [9]) ∧
    fs' "dir/w/unknown/00000000000000cd.ogg".toList = some (.file [0x4f, 0x67, 0x67, 0x53]) := by
  let g : GivenOpt := ⟨optTrue ["--lazy"] "lazy", "--lazy".toList, []⟩
  have hline : LineOf "wad-extract" _ [g] ["dir/w.wad".toList] (["wad-extract", "dir/w.wad", "--lazy"].map String.toList) :=
    LineOf.plain (opts := [optHelp, optOne ["-o", "--output"] "output", optOne ["-H", "--hashes"] "hashes",
      ⟨["-p".toList, "--pattern".toList], "pattern".toList, .append, .none⟩,
      optOne ["-u", "--unknown"] "unknown" (.str "yes".toList) (some ["yes", "only", "no"]), optTrue ["--lazy"] "lazy"]) 0 [] [g] ["dir/w.wad".toList]
      (by
        intro g' hg
        have hg : g' ∈ [g] := by simpa using hg
        rw [List.mem_singleton.1 hg]
        exact ⟨by simp [g], by decide +kernel, by simp [g], rfl⟩)
      (by simp [PlainWord]) (by rintro - ⟨g, hg, -⟩; simp at hg)
  have hno : ∀ k : String, k ≠ "lazy" → ∀ g' ∈ [g], g'.opt.dest ≠ k.toList := by
    intro k hk g' hg
    rw [List.mem_singleton.1 hg]
    intro h
    exact hk (String.toList_inj.1 h.symm)
  have hgiven : WadArgsGiven [g] "dir/w.wad".toList lazyArgs :=
    ⟨rfl, .default (hno _ (by decide)), .default (hno _ (by decide)), .default (hno _ (by decide)), rfl, .last [] g [] (.bool true) rfl rfl (by simp) rfl⟩
  obtain ⟨fs', h1, h2, -⟩ := C84_wad_lazy { T0 with cx := cx, fnmatch := fun _ _ => false, hashDir := "h".toList, writes := fun _ => {} } conf env none lazyFs
    (by unfold commandParsers; exact List.mem_of_getElem? (i := 4) rfl) hline hgiven rfl lazy_opens rfl lazy_output lazy_outdir
    (fun r hr _ => lazy_read r hr) lazy_ext lazy_sep (fun r hr _ d x ht _ => lazy_free r hr d x ht)
  exact ⟨fs', h1, lazy_files h2⟩

open C62ex in
/-- `cdtb wad-list dir/w.wad` -/
example (T0 : ToolLib) (conf : ConfLib) (env : Option Str) : ∃ l : List (Str × Nat),
    ({ T0 with cx := cx, hashDir := "h".toList } : ToolLib).main conf env none C62ex.fs ["wad-list".toList, "dir/w.wad".toList] =
      ⟨C62ex.fs, l.map fun x => hexW 16 x.2 ++ ' ' :: x.1, .ok ()⟩ ∧ l.length = 2 := by
  have hline : LineOf "wad-list" _ [] ["dir/w.wad".toList] ["wad-list".toList, "dir/w.wad".toList] :=
    LineOf.plain (opts := [optHelp, optOne ["-H", "--hashes"] "hashes"]) 0 [] [] ["dir/w.wad".toList] (by simp) (by simp [PlainWord])
      (by rintro - ⟨g, hg, -⟩; simp at hg)
  obtain ⟨l, h1, -, -, names, h2, h3⟩ := C84_wad_lists { T0 with cx := cx, hashDir := "h".toList } conf env none C62ex.fs
    (by unfold commandParsers; exact List.mem_of_getElem? (i := 5) rfl) hline (opt := none) (.default (by simp)) opens
  refine ⟨l, h1, ?_⟩
  have := h2.length_eq
  rw [h3.length_eq]
  simp at this ⊢
  omega

/-- `cdtb skn-extract a/b.skn`, for the file of the example of C78 -/
example (T0 : ToolLib) (conf : ConfLib) (env : Option Str) : ∃ fs',
    ({ T0 with mkdirs := none, texts := fun _ => {} } : ToolLib).main conf env none (sampleDisk [0, 1, 2]) ["skn-extract".toList, "a/b.skn".toList] = ⟨fs', [], .ok ()⟩ := by
  have hline : LineOf "skn-extract" _ [] ["a/b.skn".toList] ["skn-extract".toList, "a/b.skn".toList] :=
    LineOf.plain (opts := [optHelp, optOne ["-o", "--output"] "output"]) 0 [] [] ["a/b.skn".toList] (by simp) (by simp [PlainWord])
      (by rintro - ⟨g, hg, -⟩; simp at hg)
  have hparse : (match parseSkn.run (sampleSkn [0, 1, 2]) with
      | .ok s => decide (s.entries.map (·.name) = ["Unknown".toList] ∧ ∀ e ∈ s.entries, e.indices.length % 3 = 0)
      | .error _ => false) = true := by decide +kernel
  rcases hs : parseSkn.run (sampleSkn [0, 1, 2]) with _ | s
  · rw [hs] at hparse; cases hparse
  · rw [hs] at hparse
    obtain ⟨hn, hm⟩ := of_decide_eq_true hparse
    have hname : ∀ e ∈ s.entries, e.name = "Unknown".toList := fun e he => by
      have := List.mem_map_of_mem (f := (·.name)) he
      rw [hn] at this
      exact List.mem_singleton.1 this
    obtain ⟨fs', -, h, -⟩ := C84_skn_extracts { T0 with mkdirs := none, texts := fun _ => {} } conf env none (sampleDisk [0, 1, 2])
      (by unfold commandParsers; exact List.mem_of_getElem? (i := 9) rfl) hline (output := none) (.default (by simp)) rfl (fun _ => ⟨rfl, rfl⟩)
      (sampleSkn [0, 1, 2]) s "a/b".toList (by decide +kernel) (by unfold sampleDisk; rw [if_pos rfl]) hs (by decide) (by decide)
      (fun q c hq => by
        unfold sampleDisk at hq
        split at hq
        · rename_i h; subst h
          refine ⟨by decide, fun r hr => ?_⟩
          have := congrArg List.length hr
          simp at this
        · split at hq
          · cases hq
          · split at hq
            · rename_i h; subst h
              refine ⟨by decide, fun r hr => ?_⟩
              have := congrArg List.length hr
              simp at this
            · cases hq)
      hm (fun e he => by rw [hname e he]; decide) (fun e he => by rw [hname e he]; decide +kernel)
    exact ⟨fs', h⟩

end C84ends

end Cdtb
