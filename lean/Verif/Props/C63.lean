import Verif.Lemmas.RadsFiles
/-!
# C63  RADS storages: files on disk and patch versions, along any history

`cfg.On site served inflate`: the server publishes `site` (which is in order), `inflate` is what zlib decodes, and versions of executables are
made of digits and dots.
-/
namespace Cdtb
set_option autoImplicit false
open Py Spec

/-- Operations on a storage: download of a solution version, its patch version, its list of files -/
inductive RadsOp where
  | download (w : RadsWorld) (sv : SolVer) (langs : RadsLangs)
  | version (w : RadsWorld) (sv : SolVer)
  | paths (w : RadsWorld) (sv : SolVer) (langs : RadsLangs)

/-- The disk after an operation, whether it succeeds or not -/
def RadsOp.run (cfg : RadsCfg) (fs : FS) : RadsOp → FS
  | .download w sv langs => (cfg.downloadSolution w fs sv langs).1
  | .version w sv => (cfg.patchVersion w fs sv).1
  | .paths w sv langs => (cfg.filepaths w fs sv langs).1

/-- Responses are those of the server; requests and the disk may fail. -/
def RadsOp.Legit (served : Str → Option Bytes) : RadsOp → Prop
  | .download w sv _ => RadsWorldOk served w ∧ sv.Plain
  | .version w sv => RadsWorldOk served w ∧ sv.Plain
  | .paths w sv _ => RadsWorldOk served w ∧ sv.Plain

section
variable {cfg : RadsCfg} {site : RadsSite} {served : Str → Option Bytes} {inflate : Bytes → Res Bytes}

theorem patchVersion_pbe (h : cfg.url = urlPbe) (w : RadsWorld) (fs : FS) (sv : SolVer) :
    cfg.patchVersion w fs sv = (fs, .ok (some ⟨"main".toList, .main⟩)) := by
  unfold RadsCfg.patchVersion
  rw [if_pos h]
  simp [Cdtb.patchVersion, Except.map]

theorem op_adds (hon : cfg.On site served inflate) {fs : FS} (hg : GoodRads cfg.base site served cfg.exe fs) {op : RadsOp} (hop : op.Legit served) :
    Adds (RadsFile cfg.base site served cfg.exe) fs (op.run cfg fs) := by
  cases op with
  | download w sv langs => exact (downloadSolution_spec hon hop.1 hg hop.2 langs).1
  | paths w sv langs => exact (filepaths_spec hon hop.1 hg hop.2 langs).1
  | version w sv =>
    by_cases hpbe : cfg.url = urlPbe
    · simp only [RadsOp.run, patchVersion_pbe hpbe]; exact .refl _ _
    · exact (version_spec hpbe hon hop.1 hg hop.2).1

/-- After any history of operations, which may fail, files have only been added to the disk, and they are right: the storage is still in order. -/
theorem C63_history (hon : cfg.On site served inflate) (fs : FS) (hg : GoodRads cfg.base site served cfg.exe fs) (ops : List RadsOp)
    (hops : ∀ op ∈ ops, op.Legit served) :
    Adds (RadsFile cfg.base site served cfg.exe) fs (ops.foldl (RadsOp.run cfg) fs) ∧ GoodRads cfg.base site served cfg.exe (ops.foldl (RadsOp.run cfg) fs) := by
  induction ops generalizing fs with
  | nil => exact ⟨.refl _ _, hg⟩
  | cons op ops ih =>
    have h1 := op_adds hon hg (hops op (by simp))
    obtain ⟨h2, h3⟩ := ih _ (adds_good hg h1) (fun o ho => hops o (by simp [ho]))
    exact ⟨h1.trans h2, h3⟩

/-- A patch version which is returned, after any history, is the one of the files of the server; the text of a version is in the cache. -/
theorem C63_version (hpbe : cfg.url ≠ urlPbe) (hon : cfg.On site served inflate) (fs : FS) (hg : GoodRads cfg.base site served cfg.exe fs)
    (ops : List RadsOp) (hops : ∀ op ∈ ops, op.Legit served) (w : RadsWorld) (hw : RadsWorldOk served w) (sv : SolVer) (hsv : sv.Plain) (fs' : FS)
    (r : Option Version) (h : cfg.patchVersion w (ops.foldl (RadsOp.run cfg) fs) sv = (fs', .ok r)) :
    (∃ t, site.Patch cfg.exe sv.name sv.version.s t ∧ PatchOf t r) ∧
    ∀ v, r = some v → fs' (storageFspath cfg.base (solutionFile sv.name sv.version.s "_patch_version".toList)) = some (.file (utf8Bytes (v.s ++ ['\n']))) := by
  have h1 := (version_spec hpbe hon hw (C63_history hon fs hg ops hops).2 hsv).2 r (by rw [h])
  rw [h, cache_path] at h1
  exact h1

/-- There is at most one patch version. -/
theorem C63_unique (site : RadsSite) (exe : Bytes → Res (Option Str)) (n v : Str) (t t' : Option Str)
    (h : site.Patch exe n v t) (h' : site.Patch exe n v t') : t = t' :=
  patch_unique (cfg := ⟨[], [], ⟨Unit, (), fun _ _ => .error .value, fun _ => .error .value⟩, exe⟩) h h'

/-- Two storages, each with its own history, agree on the patch version. -/
theorem C63_agree {cfg' : RadsCfg} (hpbe : cfg.url ≠ urlPbe) (hpbe' : cfg'.url ≠ urlPbe) (hon : cfg.On site served inflate)
    (hon' : cfg'.On site served inflate) (hexe : cfg'.exe = cfg.exe) (fs1 fs2 : FS) (hg : GoodRads cfg.base site served cfg.exe fs1)
    (hg' : GoodRads cfg'.base site served cfg'.exe fs2) (w w' : RadsWorld) (hw : RadsWorldOk served w) (hw' : RadsWorldOk served w') (sv : SolVer)
    (hsv : sv.Plain) (r r' : Option Version) (h : (cfg.patchVersion w fs1 sv).2 = .ok r) (h' : (cfg'.patchVersion w' fs2 sv).2 = .ok r') : r = r' := by
  obtain ⟨⟨t, h1, h2⟩, -⟩ := (version_spec hpbe hon hw hg hsv).2 r h
  obtain ⟨⟨t', h1', h2'⟩, -⟩ := (version_spec hpbe' hon' hw' hg' hsv).2 r' h'
  rw [hexe] at h1'
  have := C63_unique _ _ _ _ _ _ h1 h1'
  subst this
  cases t with
  | none => simp only [PatchOf] at h2 h2'; rw [h2, h2']
  | some t =>
    obtain ⟨v, rfl, a⟩ := h2
    obtain ⟨v', rfl, a'⟩ := h2'
    rw [a] at a'
    cases a'
    rfl

/-- A version which has been returned is returned again as long as the cache is not touched, whatever happens to the other files and to
the network; the disk is not changed. -/
theorem C63_cached (hpbe : cfg.url ≠ urlPbe) (hon : cfg.On site served inflate) (w : RadsWorld) (hw : RadsWorldOk served w) (fs fs' : FS)
    (hg : GoodRads cfg.base site served cfg.exe fs) (sv : SolVer) (hsv : sv.Plain) (v : Version) (h : cfg.patchVersion w fs sv = (fs', .ok (some v)))
    (later : FS) (hsame : later (storageFspath cfg.base (solutionFile sv.name sv.version.s "_patch_version".toList)) =
      fs' (storageFspath cfg.base (solutionFile sv.name sv.version.s "_patch_version".toList))) (w' : RadsWorld) :
    cfg.patchVersion w' later sv = (later, .ok (some v)) := by
  obtain ⟨⟨t, h1, h2⟩, h3⟩ := (version_spec hpbe hon hw hg hsv).2 (some v) (by rw [h])
  have h3 := h3 v rfl
  rw [h, cache_path] at h3
  replace hsame := hsame.trans h3
  cases t with
  | none => simp [PatchOf] at h2
  | some t =>
    obtain ⟨v', hv, a⟩ := h2
    cases hv
    unfold RadsCfg.patchVersion
    rw [if_neg hpbe, cache_path, hsame]
    simp only [cache_roundtrip (patch_chars hon h1) a]

/-- When there is no version, nothing is cached: the next call looks for it again. -/
theorem C63_none (hpbe : cfg.url ≠ urlPbe) (hon : cfg.On site served inflate) (w : RadsWorld) (hw : RadsWorldOk served w) (fs fs' : FS)
    (hg : GoodRads cfg.base site served cfg.exe fs) (sv : SolVer) (hsv : sv.Plain) (h : cfg.patchVersion w fs sv = (fs', .ok none)) :
    site.Patch cfg.exe sv.name sv.version.s none ∧ (∀ b, fs' (storageFspath cfg.base (solutionFile sv.name sv.version.s "_patch_version".toList)) ≠ some (.file b)) ∧
    ∀ w', cfg.patchVersion w' fs' sv = cfg.retrieveAndStore w' fs' sv := by
  obtain ⟨h0, h1⟩ := version_spec hpbe hon hw hg hsv
  obtain ⟨⟨t, h2, h3⟩, -⟩ := h1 none (by rw [h])
  rw [h] at h0
  have ht : t = none := by
    cases t with
    | none => rfl
    | some t => obtain ⟨v, hv, -⟩ := h3; simp at hv
  subst ht
  have hno : ∀ b, fs' (storageFspath cfg.base (solutionFile sv.name sv.version.s "_patch_version".toList)) ≠ some (.file b) := by
    intro b hb
    obtain ⟨t, ver, a, -⟩ := (adds_good hg h0).version _ _ _ hsv.1 hsv.2 hb
    exact absurd (C63_unique _ _ _ _ _ _ h2 a) (by simp)
  refine ⟨h2, hno, fun w' => ?_⟩
  unfold RadsCfg.patchVersion
  rw [if_neg hpbe, cache_path]
  cases hc : fs' (storageFspath cfg.base (solutionFile sv.name sv.version.s "_patch_version".toList)) with
  | none => rfl
  | some nd =>
    cases nd with
    | dir => rfl
    | file b => exact absurd hc (hno b)

/-- The PBE storage: always `main`, without reading anything -/
theorem C63_pbe (h : cfg.url = urlPbe) (w : RadsWorld) (fs : FS) (sv : SolVer) : cfg.patchVersion w fs sv = (fs, .ok (some ⟨"main".toList, .main⟩)) :=
  patchVersion_pbe h w fs sv

/-- Other solutions have no patch version. -/
theorem C63_unknown (hpbe : cfg.url ≠ urlPbe) (hon : cfg.On site served inflate) (w : RadsWorld) (hw : RadsWorldOk served w) (fs : FS)
    (hg : GoodRads cfg.base site served cfg.exe fs) (sv : SolVer) (hsv : sv.Plain) (h1 : sv.name ≠ "league_client_sln".toList)
    (h2 : sv.name ≠ "lol_game_client_sln".toList) : ∃ e, (cfg.patchVersion w fs sv).2 = .error e := by
  cases h : (cfg.patchVersion w fs sv).2 with
  | error e => exact ⟨e, rfl⟩
  | ok r =>
    obtain ⟨⟨t, h3, -⟩, -⟩ := (version_spec hpbe hon hw hg hsv).2 r h
    have key : ∀ {p f r}, PatchFile cfg.exe sv.name p f r → False := by
      intro p f r hp
      generalize hn : sv.name = n at hp h1 h2
      cases hp with
      | client => exact h1 rfl
      | game => exact h2 rfl
    cases h3 with
    | gone h => exact (key h).elim
    | old h => exact (key h).elim
    | found h => exact (key h).elim

/-- A download that succeeds: all the files of the projects of the languages are there, with their content. -/
theorem C63_download (hon : cfg.On site served inflate) (fs : FS) (hg : GoodRads cfg.base site served cfg.exe fs) (ops : List RadsOp)
    (hops : ∀ op ∈ ops, op.Legit served) (w : RadsWorld) (hw : RadsWorldOk served w) (sv : SolVer) (hsv : sv.Plain) (langs : RadsLangs) (fs' : FS)
    (h : cfg.downloadSolution w (ops.foldl (RadsOp.run cfg) fs) sv langs = (fs', .ok ())) :
    (∃ m, site.solution sv.name sv.version.s = some m ∧
      (∃ b, fs' (storageFspath cfg.base (solutionFile sv.name sv.version.s "solutionmanifest".toList)) = some (.file b)) ∧
      ∀ p, UsedBy m langs p → ∃ v es, m.versionOf p = some v ∧ site.entries p v = some es ∧ Extracted cfg.base site fs' es ∧
        (∃ b, fs' (storageFspath cfg.base (projectFile p v "releasemanifest".toList)) = some (.file b)) ∧
        ∃ b, fs' (storageFspath cfg.base (projectFile p v "packagemanifest".toList)) = some (.file b)) ∧
    ∀ p, site.Lists sv.name sv.version.s langs p → fs' (storageFspath cfg.base p) = some (.file (site.file p)) := by
  have h1 := (downloadSolution_spec hon hw (C63_history hon fs hg ops hops).2 hsv langs).2
  rw [h] at h1
  obtain ⟨m, hm, hb, h2⟩ := h1 rfl
  rw [manifest_path] at hb
  have key : ∀ p, UsedBy m langs p → ∃ v es, m.versionOf p = some v ∧ site.entries p v = some es ∧ Extracted cfg.base site fs' es ∧
        (∃ b, fs' (storageFspath cfg.base (projectFile p v "releasemanifest".toList)) = some (.file b)) ∧
        ∃ b, fs' (storageFspath cfg.base (projectFile p v "packagemanifest".toList)) = some (.file b) := by
    intro p hp
    obtain ⟨pv, rfl, a1, -, es, a2, a3, a4, a5⟩ := h2 p hp
    rw [rmanifest_path] at a4
    rw [pmanifest_path] at a5
    exact ⟨_, es, a1, a2, a3, a4, a5⟩
  refine ⟨⟨m, hm, hb, key⟩, ?_⟩
  rintro p ⟨m', n, v, es, a1, a2, a3, a4, e, he, rfl⟩
  rw [hm] at a1; cases a1
  obtain ⟨v', es', b1, b2, b3, -⟩ := key n a2
  rw [a3] at b1; cases b1
  rw [a4] at b2; cases b2
  exact b3 e he

/-- The list of files: only files of the solution version for the languages, all of them if there is no exception. -/
theorem C63_filepaths (hon : cfg.On site served inflate) (fs : FS) (hg : GoodRads cfg.base site served cfg.exe fs) (ops : List RadsOp)
    (hops : ∀ op ∈ ops, op.Legit served) (w : RadsWorld) (hw : RadsWorldOk served w) (sv : SolVer) (hsv : sv.Plain) (langs : RadsLangs) (fs' : FS)
    (l : List Str) (r : Res Unit) (h : cfg.filepaths w (ops.foldl (RadsOp.run cfg) fs) sv langs = (fs', l, r)) :
    (∀ p ∈ l, site.Lists sv.name sv.version.s langs p) ∧ (r = .ok () → ∀ p, p ∈ l ↔ site.Lists sv.name sv.version.s langs p) := by
  obtain ⟨-, h1, h2⟩ := filepaths_spec hon hw (C63_history hon fs hg ops hops).2 hsv langs
  rw [h] at h1 h2
  exact ⟨h1, fun hr p => ⟨h1 p, h2 hr p⟩⟩

/-- Once a solution version has been downloaded, downloading it again and listing its files work without the server, and change nothing. -/
theorem C63_offline (hon : cfg.On site served inflate) (fs : FS) (hg : GoodRads cfg.base site served cfg.exe fs)
    (w : RadsWorld) (hw : RadsWorldOk served w) (sv : SolVer) (hsv : sv.Plain) (langs : RadsLangs) (fs' : FS)
    (h : cfg.downloadSolution w fs sv langs = (fs', .ok ())) (w' : RadsWorld) (ho : ∀ l x, x ∈ w'.order l ↔ x ∈ l) :
    cfg.downloadSolution w' fs' sv langs = (fs', .ok ()) ∧
    ∃ l, cfg.filepaths w' fs' sv langs = (fs', l, .ok ()) ∧ ∀ p, p ∈ l ↔ site.Lists sv.name sv.version.s langs p := by
  obtain ⟨ps, h1, h2, h3⟩ := downloaded hon hw hg hsv h
  have hmem := arrange_mem ho langs ps
  constructor
  · unfold RadsCfg.downloadSolution
    rw [h1 w']
    apply downloadProjects_offline
    intro pv hpv
    obtain ⟨es, a1, a2, a3, a4⟩ := h2 pv ((hmem pv).1 hpv)
    exact downloadProject_offline a2 (a3 w') (a4 w')
  · unfold RadsCfg.filepaths
    rw [h1 w']
    refine ⟨_, filepathsLoop_offline _ (fun pv => ((site.entries pv.name pv.version.s).getD []).map PkgEntry.parsed) fun pv hpv => ?_, fun p => ?_⟩
    · obtain ⟨es, a1, a2, a3, a4⟩ := h2 pv ((hmem pv).1 hpv)
      rw [a4 w', a1]
      rfl
    · rw [h3, List.mem_flatMap]
      have hk : ∀ (es : List PkgEntry) p, p ∈ (packageFiles (es.map PkgEntry.parsed)).keys ↔ ∃ e ∈ es, e.file = p := by
        intro es p
        unfold packageFiles
        rw [Dict.mem_keys_ofList]
        simp only [List.map_map, List.mem_map, Function.comp_def]
        exact Iff.rfl
      constructor
      · rintro ⟨pv, hpv, hp⟩
        obtain ⟨es, a1, -⟩ := h2 pv ((hmem pv).1 hpv)
        rw [a1] at hp
        exact ⟨pv, (hmem pv).1 hpv, es, a1, (hk es p).1 hp⟩
      · rintro ⟨pv, hpv, es, a1, he⟩
        refine ⟨pv, (hmem pv).2 hpv, ?_⟩
        rw [a1]
        exact (hk es p).2 he

theorem projects_only {w : RadsWorld} (hw : RadsWorldOk served w) (fs : FS) (sv : SolVer) (langs : RadsLangs) :
    Adds (fun q _ => q = storageFspath cfg.base sv.manifest) fs (cfg.projects w fs sv langs).1 := by
  have h := ((radsDownload_spec (cfg := cfg) hw fs sv.manifest sv.manifest).1).imp (Q := fun q _ => q = storageFspath cfg.base sv.manifest) fun q b h => h.1
  have e : (cfg.projects w fs sv langs).1 = (cfg.download w fs sv.manifest sv.manifest).1 := by
    unfold RadsCfg.projects RadsCfg.dependencies
    rcases cfg.download w fs sv.manifest sv.manifest with ⟨fs', _ | u⟩
    · rfl
    · simp only
      split
      · rename_i h'; simp only [Prod.mk.injEq] at h'; exact h'.1.symm
      · rename_i h'; simp only [Prod.mk.injEq] at h'; exact h'.1.symm
  rw [e]
  exact h

theorem entries_only {w : RadsWorld} (hw : RadsWorldOk served w) (fs : FS) (pv : ProjVer) :
    Adds (fun q _ => q = storageFspath cfg.base pv.manifest) fs (cfg.entries w fs pv).1 := by
  have h := ((radsDownload_spec (cfg := cfg) hw fs pv.manifestUrl pv.manifest).1).imp (Q := fun q _ => q = storageFspath cfg.base pv.manifest) fun q b h => h.1
  have e : (cfg.entries w fs pv).1 = (cfg.download w fs pv.manifestUrl pv.manifest).1 := by
    unfold RadsCfg.entries
    rcases cfg.download w fs pv.manifestUrl pv.manifest with ⟨fs', _ | u⟩ <;> rfl
  rw [e]
  exact h

/-- The test for a file already extracted is made in the current directory: if there is a file there at the same relative path, and not in
the storage, the file is not extracted and the version cannot be read. -/
theorem C63_cwd (hpbe : cfg.url ≠ urlPbe) (hon : cfg.On site served inflate) (w : RadsWorld) (hw : RadsWorldOk served w) (fs : FS)
    (hg : GoodRads cfg.base site served cfg.exe fs) (sv : SolVer) (hsv : sv.Plain)
    (hnc : ∀ b, fs (storageFspath cfg.base (solutionFile sv.name sv.version.s "_patch_version".toList)) ≠ some (.file b))
    (m : SolManifest) (project file pversion d : Str) (read : Bytes → Str → Prop) (before after : List PkgEntry) (e : PkgEntry)
    (h1 : PatchFile cfg.exe sv.name project file read) (h2 : site.solution sv.name sv.version.s = some m) (h3 : m.versionOf project = some pversion)
    (h4 : site.entries project pversion = some (before ++ e :: after)) (h5 : e.file = d ++ '/' :: file)
    (h6 : ∀ x ∈ before, ¬ ∃ d, x.file = d ++ '/' :: file)
    (hcwd : w.cwd e.file = true) (hno : ∀ b, fs (storageFspath cfg.base e.file) ≠ some (.file b)) :
    ∃ er, (cfg.patchVersion w fs sv).2 = .error er := by
  have hfp : FilePath e.file := (hon.ok.entry _ _ _ h4 e (by simp)).2
  have hret : ∃ er, (cfg.retrieveVersion w fs sv).2 = .error er := by
    obtain ⟨ext, hx, -⟩ := patchFile_retriever h1
    unfold RadsCfg.retrieveVersion
    rw [hx]
    simp only
    obtain ⟨a1, a2⟩ := projects_spec hon hw hg hsv .none_
    have a3 := projects_only (cfg := cfg) hw fs sv .none_
    rcases hp : cfg.projects w fs sv .none_ with ⟨fs1, er | pvs⟩
    · exact ⟨er, rfl⟩
    · rw [hp] at a1 a2 a3
      simp only at a1 a2 a3 ⊢
      obtain ⟨m', hm, hpvs, -⟩ := a2 pvs rfl
      rw [h2] at hm; cases hm
      unfold RadsCfg.versionFromProjects
      cases hfind : pvs.find? fun pv => pv.name = project with
      | none => exact ⟨_, rfl⟩
      | some pv =>
        have hname : pv.name = project := by simpa using List.find?_some hfind
        obtain ⟨hplain, hsel, hver, hvs⟩ := hpvs pv (List.mem_of_find?_eq_some hfind)
        rw [hname, h3] at hver
        simp only [Option.some.injEq] at hver
        simp only
        unfold RadsCfg.versionFromProject
        obtain ⟨b1, b2, b3⟩ := entries_spec hon hw (adds_good hg a1) hplain
        have b4 := entries_only (cfg := cfg) hw fs1 pv
        rw [hname, ← hver, h4] at b2 b3
        rcases he : cfg.entries w fs1 pv with ⟨fs2, er | pfs⟩
        · rw [he] at b2
          simp only at b2 ⊢
          by_cases h404 : er = .http 404
          · simp [h404] at b2
          · refine ⟨er, ?_⟩
            unfold notAvailable
            split
            · exact absurd rfl h404
            · rfl
        · rw [he] at b3 b4
          simp only at b3 b4 ⊢
          obtain ⟨es, hes, rfl⟩ := b3 pfs rfl
          cases hes
          unfold RadsCfg.versionFromEntries
          have hmap : ((before ++ e :: after).map PkgEntry.parsed).map (·.extractPath) = before.map (·.file) ++ e.file :: after.map (·.file) := by
            rw [List.map_map, List.map_append, List.map_cons]; rfl
          have hf : (packageFiles ((before ++ e :: after).map PkgEntry.parsed)).keys.find? (fun p => endsWith p ('/' :: file)) = some e.file := by
            rw [keys_find, hmap, List.find?_eq_some_iff_append]
            refine ⟨endsWith_iff.2 ⟨d, h5⟩, _, _, rfl, ?_⟩
            intro p hp
            obtain ⟨x, hx, rfl⟩ := List.mem_map.1 hp
            have := h6 x hx
            rw [← endsWith_iff] at this
            simpa using this
          rw [hf]
          simp only [RadsCfg.extractOne, hcwd, if_true]
          unfold RadsCfg.readVersion
          have habs : ∀ b, fs2 (storageFspath cfg.base e.file) ≠ some (.file b) := by
            intro b hb
            obtain ⟨n, v, r, hn, hv, hfe⟩ := filePath_eq.1 hfp
            rcases b4.2 _ _ hb with hb | hb
            · rcases a3.2 _ _ hb with hb | hb
              · exact hno b hb
              · rw [manifest_path, filePath_root hfp, rooted_solution, hfe] at hb
                exact absurd (root_inj hb).symm (solution_ne_project _ _ _ _ _ _)
            · rw [pmanifest_path, filePath_root hfp, rooted_project, hfe] at hb
              have := (projectFile_inj hn hv hplain.1 hplain.2 (root_inj hb)).2.2
              have := congrArg List.head? this
              revert this; simp
          unfold FS.readFile
          split
          · rename_i b hb; exact absurd hb (habs b)
          · exact ⟨_, rfl⟩
          · exact ⟨_, rfl⟩
  have hst : ∃ er, (cfg.retrieveAndStore w fs sv).2 = .error er := by
    obtain ⟨er, her⟩ := hret
    unfold RadsCfg.retrieveAndStore
    rcases hr : cfg.retrieveVersion w fs sv with ⟨fs1, r⟩
    rw [hr] at her
    simp only at her
    subst her
    exact ⟨er, rfl⟩
  unfold RadsCfg.patchVersion
  rw [if_neg hpbe, cache_path]
  cases hc : fs (storageFspath cfg.base (solutionFile sv.name sv.version.s "_patch_version".toList)) with
  | none => exact hst
  | some nd =>
    cases nd with
    | dir => exact hst
    | file b => exact absurd hc (hnc b)

/-- Boundary: the cache is written in place. If its writing is interrupted after `k` bytes, later calls give what these bytes say. -/
theorem C63_interrupted (hpbe : cfg.url ≠ urlPbe) (w : RadsWorld) (fs fs1 : FS) (sv : SolVer) (v : Version)
    (hn : fs (storageFspath cfg.base sv.cache) = none) (hr : cfg.retrieveVersion w fs sv = (fs1, .ok (some v)))
    (hdir : fs1 (dirname (storageFspath cfg.base sv.cache)) = some .dir) (hnd : fs1 (storageFspath cfg.base sv.cache) ≠ some .dir)
    (ho : (w.faults sv.cache).open_ = none) (hw0 : (w.faults sv.cache).write 0 = none) (k : Nat) (er : Err)
    (hc : (w.faults sv.cache).close = some (k, er)) (w' : RadsWorld) :
    (cfg.patchVersion w fs sv).2 = .error er ∧
    cfg.patchVersion w' (cfg.patchVersion w fs sv).1 sv = ((cfg.patchVersion w fs sv).1, readVersionCache ((utf8Bytes (v.s ++ ['\n'])).take k)) := by
  have hcl : closeFile (w.faults sv.cache) (writeBody (w.faults sv.cache) 0 [] [.write (utf8Bytes (v.s ++ ['\n']))]) = ((utf8Bytes (v.s ++ ['\n'])).take k, .error er) := by
    simp [closeFile, writeBody, hw0, hc]
  have hcall : cfg.patchVersion w fs sv = (fs1.set (storageFspath cfg.base sv.cache) (some (.file ((utf8Bytes (v.s ++ ['\n'])).take k))), .error er) := by
    unfold RadsCfg.patchVersion
    rw [if_neg hpbe, hn]
    simp only [RadsCfg.retrieveAndStore, hr, RadsCfg.storeVersion, openAndWrite, ho, hcl]
    rw [if_neg hnd]
    rw [if_neg (by simp [hdir])]
  rw [hcall]
  refine ⟨rfl, ?_⟩
  conv_lhs => unfold RadsCfg.patchVersion
  rw [if_neg hpbe]
  simp only [FS.set_self]

end

end Cdtb
