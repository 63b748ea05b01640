import Verif.Lemmas.RadsStorage
/-! Lemmas on RADS storages: what operations do to the files on disk -/
namespace Cdtb
set_option autoImplicit false
open Py Spec

theorem Spec.Adds.refl (P : Str → Bytes → Prop) (fs : FS) : Adds P fs fs := ⟨fun _ _ h => h, fun _ _ h => Or.inl h⟩

theorem Spec.Adds.trans {P : Str → Bytes → Prop} {a b c : FS} (h : Adds P a b) (h' : Adds P b c) : Adds P a c := by
  refine ⟨fun q x hq => h'.1 q x (h.1 q x hq), fun q x hq => ?_⟩
  rcases h'.2 q x hq with h1 | h1
  · exact h.2 q x h1
  · exact Or.inr h1

/-! ## Files of a storage are told apart by their path -/

theorem root_inj {base a b : Str} (h : rootPre base ++ a = rootPre base ++ b) : a = b := List.append_cancel_left h

theorem filePath_root {p base : Str} (h : FilePath p) : storageFspath base p = rootPre base ++ p := by
  obtain ⟨n, v, r, -, -, rfl⟩ := filePath_eq.1 h
  exact rooted_project _ _ _ _

theorem adds_good {base : Str} {site : RadsSite} {served : Str → Option Bytes} {exe : Bytes → Res (Option Str)} {fs fs' : FS}
    (hg : GoodRads base site served exe fs) (h : Adds (RadsFile base site served exe) fs fs') : GoodRads base site served exe fs' := by
  have l1 : "solutionmanifest".toList ≠ "_patch_version".toList := by decide +kernel
  have l2 : "packagemanifest".toList ≠ "releasemanifest".toList := by decide +kernel
  have l3 : ∀ r, "packagemanifest".toList ≠ "files/".toList ++ r := by
    intro r hr
    have := congrArg List.head? hr
    revert this; simp
  have l4 : ∀ r, "releasemanifest".toList ≠ "files/".toList ++ r := by
    intro r hr
    have := congrArg List.head? hr
    revert this; simp
  refine ⟨?_, ?_, ?_, ?_, ?_⟩
  · intro n v b hn hv hb
    rcases h.2 _ _ hb with hb | hb
    · exact hg.solution n v b hn hv hb
    · generalize hq : storageFspath base (solutionFile n v "solutionmanifest".toList) = q at hb
      rw [rooted_solution] at hq
      cases hb with
      | solution hn' hv' hs =>
        rw [rooted_solution] at hq
        obtain ⟨rfl, rfl, -⟩ := solutionFile_inj hn hv hn' hv' (root_inj hq)
        exact hs
      | packages _ _ _ => rw [rooted_project] at hq; exact absurd (root_inj hq) (solution_ne_project _ _ _ _ _ _)
      | release _ _ _ => rw [rooted_project] at hq; exact absurd (root_inj hq) (solution_ne_project _ _ _ _ _ _)
      | file hp =>
        rw [filePath_root hp] at hq
        obtain ⟨_, _, _, _, _, rfl⟩ := filePath_eq.1 hp
        exact absurd (root_inj hq) (solution_ne_project _ _ _ _ _ _)
      | version hn' hv' _ _ =>
        rw [rooted_solution] at hq
        exact absurd (solutionFile_inj hn hv hn' hv' (root_inj hq)).2.2 l1
  · intro n v b hn hv hb
    rcases h.2 _ _ hb with hb | hb
    · exact hg.packages n v b hn hv hb
    · generalize hq : storageFspath base (projectFile n v "packagemanifest".toList) = q at hb
      rw [rooted_project] at hq
      cases hb with
      | solution _ _ _ => rw [rooted_solution] at hq; exact absurd (root_inj hq).symm (solution_ne_project _ _ _ _ _ _)
      | packages hn' hv' hs =>
        rw [rooted_project] at hq
        obtain ⟨rfl, rfl, -⟩ := projectFile_inj hn hv hn' hv' (root_inj hq)
        exact hs
      | release hn' hv' _ =>
        rw [rooted_project] at hq
        exact absurd (projectFile_inj hn hv hn' hv' (root_inj hq)).2.2 l2
      | file hp =>
        rw [filePath_root hp] at hq
        obtain ⟨n', v', r, hn', hv', rfl⟩ := filePath_eq.1 hp
        exact absurd (projectFile_inj hn hv hn' hv' (root_inj hq)).2.2 (l3 r)
      | version _ _ _ _ => rw [rooted_solution] at hq; exact absurd (root_inj hq).symm (solution_ne_project _ _ _ _ _ _)
  · intro n v b hn hv hb
    rcases h.2 _ _ hb with hb | hb
    · exact hg.release n v b hn hv hb
    · generalize hq : storageFspath base (projectFile n v "releasemanifest".toList) = q at hb
      rw [rooted_project] at hq
      cases hb with
      | solution _ _ _ => rw [rooted_solution] at hq; exact absurd (root_inj hq).symm (solution_ne_project _ _ _ _ _ _)
      | packages hn' hv' _ =>
        rw [rooted_project] at hq
        exact absurd (projectFile_inj hn hv hn' hv' (root_inj hq)).2.2.symm l2
      | release hn' hv' hs =>
        rw [rooted_project] at hq
        obtain ⟨rfl, rfl, -⟩ := projectFile_inj hn hv hn' hv' (root_inj hq)
        exact hs
      | file hp =>
        rw [filePath_root hp] at hq
        obtain ⟨n', v', r, hn', hv', rfl⟩ := filePath_eq.1 hp
        exact absurd (projectFile_inj hn hv hn' hv' (root_inj hq)).2.2 (l4 r)
      | version _ _ _ _ => rw [rooted_solution] at hq; exact absurd (root_inj hq).symm (solution_ne_project _ _ _ _ _ _)
  · intro p b hp hb
    rcases h.2 _ _ hb with hb | hb'
    · exact hg.file p b hp hb
    · clear hb
      rename' hb' => hb
      generalize hq : storageFspath base p = q at hb
      rw [filePath_root hp] at hq
      obtain ⟨n, v, r, hn, hv, rfl⟩ := filePath_eq.1 hp
      cases hb with
      | solution _ _ _ => rw [rooted_solution] at hq; exact absurd (root_inj hq).symm (solution_ne_project _ _ _ _ _ _)
      | packages hn' hv' _ =>
        rw [rooted_project] at hq
        exact absurd (projectFile_inj hn hv hn' hv' (root_inj hq)).2.2.symm (l3 r)
      | release hn' hv' _ =>
        rw [rooted_project] at hq
        exact absurd (projectFile_inj hn hv hn' hv' (root_inj hq)).2.2.symm (l4 r)
      | file hp' => rw [filePath_root hp'] at hq; rw [root_inj hq]
      | version _ _ _ _ => rw [rooted_solution] at hq; exact absurd (root_inj hq).symm (solution_ne_project _ _ _ _ _ _)
  · intro n v b hn hv hb
    rcases h.2 _ _ hb with hb | hb
    · exact hg.version n v b hn hv hb
    · generalize hq : storageFspath base (solutionFile n v "_patch_version".toList) = q at hb
      rw [rooted_solution] at hq
      cases hb with
      | solution hn' hv' _ =>
        rw [rooted_solution] at hq
        exact absurd (solutionFile_inj hn hv hn' hv' (root_inj hq)).2.2.symm l1
      | packages _ _ _ => rw [rooted_project] at hq; exact absurd (root_inj hq) (solution_ne_project _ _ _ _ _ _)
      | release _ _ _ => rw [rooted_project] at hq; exact absurd (root_inj hq) (solution_ne_project _ _ _ _ _ _)
      | file hp =>
        rw [filePath_root hp] at hq
        obtain ⟨_, _, _, _, _, rfl⟩ := filePath_eq.1 hp
        exact absurd (root_inj hq) (solution_ne_project _ _ _ _ _ _)
      | version hn' hv' hs hver =>
        rw [rooted_solution] at hq
        obtain ⟨rfl, rfl, -⟩ := solutionFile_inj hn hv hn' hv' (root_inj hq)
        exact ⟨_, _, hs, hver, rfl⟩

/-! ## Downloads -/

theorem makedirsGo_err {fs : FS} {f : Option (Nat × Err)} {ds : List Str} {e : Err} (h : (makedirsGo fs f ds).2 = .error e) :
    e = .os 20 ∨ ∃ k, f = some (k, e) := by
  induction ds generalizing fs f with
  | nil => rcases f with _ | ⟨_ | k, e'⟩ <;> simp_all [makedirsGo]
  | cons d ds ih =>
    have main : ∀ f', (match fs d with
        | none => makedirsGo (fs.set d (some .dir)) f' ds
        | some .dir => makedirsGo fs f' ds
        | some (.file _) => (fs, .error (.os 20))).2 = .error e → e = .os 20 ∨ ∃ k, f' = some (k, e) := by
      intro f' h'
      cases hd : fs d with
      | none => rw [hd] at h'; exact ih h'
      | some n =>
        cases n with
        | file b => rw [hd] at h'; simp only [Except.error.injEq] at h'; exact Or.inl h'.symm
        | dir => rw [hd] at h'; exact ih h'
    rcases f with _ | ⟨_ | k, e'⟩
    · simp only [makedirsGo, Option.map_none] at h
      rcases main none h with h | ⟨k, h⟩
      · exact Or.inl h
      · simp at h
    · simp only [makedirsGo, Except.error.injEq] at h; subst h; exact Or.inr ⟨0, rfl⟩
    · simp only [makedirsGo, Option.map_some, Nat.add_sub_cancel] at h
      rcases main _ h with h | ⟨k', h⟩
      · exact Or.inl h
      · simp only [Option.some.injEq, Prod.mk.injEq] at h; rw [h.2]; exact Or.inr ⟨_, rfl⟩

theorem write_not404 {fs : FS} {path : Str} {b : Bytes} {f : WriteFaults} (hf : DiskErrors f) :
    (writeFileOrRemove fs path [.write b] f).2 ≠ .error (.http 404) := by
  rw [writeFileOrRemove_result]
  intro h
  unfold writeTry at h
  rcases hm : fs.makedirs (dirname path) f.makedirs with ⟨fs1, _ | u⟩
  · rename_i e
    rw [hm] at h
    simp only [Except.error.injEq] at h
    subst h
    have hm' : (fs.makedirs (dirname path) f.makedirs).2 = .error (.http 404) := by rw [hm]
    unfold FS.makedirs at hm'
    split at hm'
    · simp at hm'
    · rcases makedirsGo_err hm' with h | ⟨k, h⟩
      · simp at h
      · exact hf _ (Or.inl ⟨k, h⟩) rfl
  · rw [hm] at h
    simp only at h
    cases ho : f.open_ with
    | some e =>
      rw [ho] at h
      simp only [Except.error.injEq] at h
      exact hf e (Or.inr (Or.inl ho)) h
    | none =>
      rw [ho] at h
      simp only at h
      split at h
      · simp at h
      · simp only [writeBody, closeFile] at h
        cases hc : f.close with
        | some ke =>
          obtain ⟨k, e⟩ := ke
          rw [hc] at h
          simp only [Except.error.injEq] at h
          exact hf e (Or.inr (Or.inr (Or.inr ⟨k, hc⟩))) h
        | none =>
          rw [hc] at h
          cases hw : f.write 0 with
          | none => rw [hw] at h; simp at h
          | some ke =>
            obtain ⟨k, e⟩ := ke
            rw [hw] at h
            simp only [Except.error.injEq] at h
            exact hf e (Or.inr (Or.inr (Or.inl ⟨0, k, hw⟩))) h

/-- A download: the file is that of the server or was there; when it succeeds the file is there; a 404 means that the server does not have it. -/
theorem radsDownload_spec {cfg : RadsCfg} {served : Str → Option Bytes} {w : RadsWorld} (hw : RadsWorldOk served w) (fs : FS) (url path : Str) :
    Adds (fun q b => q = storageFspath cfg.base path ∧ served url = some b) fs (cfg.download w fs url path).1 ∧
    ((cfg.download w fs url path).2 = .ok () → ∃ b, (cfg.download w fs url path).1 (storageFspath cfg.base path) = some (.file b)) ∧
    ((cfg.download w fs url path).2 = .error (.http 404) → served url = none) := by
  have e : cfg.download w fs url path = ((Cdtb.download cfg.base fs ⟨url, some path, false, w.get url, w.faults path⟩).1,
    (Cdtb.download cfg.base fs ⟨url, some path, false, w.get url, w.faults path⟩).2.1) := rfl
  rw [e]
  generalize hc : (⟨url, some path, false, w.get url, w.faults path⟩ : DownloadCall) = c
  have hd : c.dest cfg.base = storageFspath cfg.base path := by rw [← hc]; rfl
  have hforce : c.force = false := by rw [← hc]
  rw [← hd]
  by_cases hfile : ∃ b, fs (c.dest cfg.base) = some (.file b)
  · obtain ⟨b, hb⟩ := hfile
    rw [C05_present _ _ _ hforce b hb]
    exact ⟨.refl _ _, fun _ => ⟨b, hb⟩, by simp⟩
  · have hno : ∀ b, fs (c.dest cfg.base) ≠ some (.file b) := fun b hb => hfile ⟨b, hb⟩
    have hresp : c.response = w.get url := by rw [← hc]
    have hfl : c.faults = w.faults path := by rw [← hc]
    rcases hdl : Cdtb.download cfg.base fs c with ⟨fs', r, q⟩
    have hframe := C05_frame cfg.base fs c
    rw [hdl] at hframe
    simp only at hframe ⊢
    have hreq : q = true := by
      unfold Cdtb.download at hdl
      split at hdl
      · rename_i hf
        simp only [hforce, Bool.not_false, Bool.true_and, FS.isFile] at hf
        simp at hf
      · cases hr : c.response with
        | error e => rw [hr] at hdl; simp only [Prod.mk.injEq] at hdl; exact hdl.2.2.symm
        | ok x => rw [hr] at hdl; simp only [Prod.mk.injEq] at hdl; exact hdl.2.2.symm
    subst hreq
    have hkeep : ∀ q b, fs q = some (.file b) → fs' q = some (.file b) := by
      intro q b hq
      by_cases hqd : q = c.dest cfg.base
      · rw [hqd] at hq; exact absurd hq (hno b)
      · exact (hframe q hqd b).2 hq
    cases r with
    | ok u =>
      obtain ⟨b, h1, h2⟩ := C05_success _ _ _ _ hdl
      rw [hresp] at h1
      refine ⟨⟨hkeep, fun q x hq => ?_⟩, fun _ => ⟨b, h2⟩, by simp⟩
      by_cases hqd : q = c.dest cfg.base
      · rw [hqd, h2] at hq
        simp only [Option.some.injEq, Node.file.injEq] at hq
        rw [← hq]
        exact Or.inr ⟨hqd, hw.get _ _ h1⟩
      · exact Or.inl ((hframe q hqd x).1 hq)
    | error e =>
      have hfail := C05_failure _ _ _ _ _ _ hdl (by rw [hfl]; exact hw.remove _)
      refine ⟨⟨hkeep, fun q x hq => ?_⟩, by simp, fun h => ?_⟩
      · by_cases hqd : q = c.dest cfg.base
        · rcases hfail with h | ⟨h, _⟩
          · rw [hqd] at hq; exact absurd hq (h x)
          · rw [hforce] at h; simp at h
        · exact Or.inl ((hframe q hqd x).1 hq)
      · simp only [Except.error.injEq] at h
        subst h
        apply hw.missing
        rw [← hresp]
        unfold Cdtb.download at hdl
        split at hdl
        · simp at hdl
        · cases hr : c.response with
          | error e => rw [hr] at hdl; simp only [Prod.mk.injEq, Except.error.injEq] at hdl; rw [hdl.2.1]
          | ok x =>
            rw [hr] at hdl
            simp only [Prod.mk.injEq] at hdl
            rw [hfl] at hdl
            exact absurd hdl.2.1 (write_not404 (hw.disk path))

/-! ## Manifests -/

theorem Spec.Adds.imp {P Q : Str → Bytes → Prop} {fs fs' : FS} (h : Adds P fs fs') (hpq : ∀ q b, P q b → Q q b) : Adds Q fs fs' :=
  ⟨h.1, fun q b hq => (h.2 q b hq).imp id (hpq q b)⟩

/-- A solution version with a regular path -/
def SolVer.Plain (sv : SolVer) : Prop := '/' ∉ sv.name ∧ '/' ∉ sv.version.s

/-- A project version with a regular path -/
def ProjVer.Plain (pv : ProjVer) : Prop := '/' ∉ pv.name ∧ '/' ∉ pv.version.s

section
variable {cfg : RadsCfg} {site : RadsSite} {served : Str → Option Bytes} {inflate : Bytes → Res Bytes}

/-- What is assumed of the server and of `zlib` -/
structure RadsCfg.On (cfg : RadsCfg) (site : RadsSite) (served : Str → Option Bytes) (inflate : Bytes → Res Bytes) : Prop where
  ok : site.Ok inflate
  serves : site.Serves served
  inflate : cfg.z.Decodes inflate
  exe : ∀ b t, cfg.exe b = .ok (some t) → ∀ c ∈ t, c ∈ "0123456789.".toList

theorem readText_file {fs : FS} {path : Str} {b : Bytes} (h : fs (storageFspath cfg.base path) = some (.file b)) :
    cfg.readText fs path = utf8 b := by
  simp [RadsCfg.readText, FS.readFile, h, bind, Except.bind]

theorem dependencies_spec (hon : cfg.On site served inflate) {w : RadsWorld} (hw : RadsWorldOk served w) {fs : FS}
    (hg : GoodRads cfg.base site served cfg.exe fs) {sv : SolVer} (hsv : sv.Plain) :
    Adds (RadsFile cfg.base site served cfg.exe) fs (cfg.dependencies w fs sv).1 ∧
    ((cfg.dependencies w fs sv).2 ≠ .error (.http 404) ∨ site.solution sv.name sv.version.s = none) ∧
    ∀ d, (cfg.dependencies w fs sv).2 = .ok d → ∃ m, site.solution sv.name sv.version.s = some m ∧ DepsOf m d := by
  obtain ⟨h1, h2, h3⟩ := radsDownload_spec (cfg := cfg) hw fs sv.manifest sv.manifest
  have ha : Adds (RadsFile cfg.base site served cfg.exe) fs (cfg.download w fs sv.manifest sv.manifest).1 := by
    refine h1.imp ?_
    rintro q b ⟨rfl, hb⟩
    rw [manifest_path] at hb ⊢
    exact .solution hsv.1 hsv.2 hb
  have hg' := adds_good hg ha
  unfold RadsCfg.dependencies
  rcases hd : cfg.download w fs sv.manifest sv.manifest with ⟨fs', r⟩
  rw [hd] at h2 h3 ha hg'
  simp only at h2 h3 ha hg'
  cases r with
  | error e =>
    refine ⟨ha, ?_, by simp⟩
    by_cases he : e = .http 404
    · right
      have h3 := h3 (by rw [he])
      by_contra hne
      obtain ⟨m, hm⟩ := Option.ne_none_iff_exists'.1 hne
      obtain ⟨b, hb, -⟩ := hon.serves.solution _ _ _ hm
      rw [manifest_path, hb] at h3
      simp at h3
    · left; simpa using he
  | ok u =>
    obtain ⟨b, hb⟩ := h2 rfl
    have hb' := hb
    rw [manifest_path] at hb'
    have hs := hg'.solution _ _ _ hsv.1 hsv.2 hb'
    cases hm : site.solution sv.name sv.version.s with
    | none => rw [hon.serves.noSolution _ _ hsv.1 hsv.2 hm] at hs; simp at hs
    | some m =>
      obtain ⟨b', h4, h5⟩ := hon.serves.solution _ _ _ hm
      rw [h4] at hs
      cases hs
      obtain ⟨d, h6, h7⟩ := parse_solution hon.ok hm h5
      have : (do let text ← cfg.readText fs' sv.manifest; dependenciesOfText sv.name sv.version text) = .ok d := by
        rw [readText_file hb]; exact h6
      simp only [this]
      exact ⟨ha, Or.inl (by simp), fun d' hd' => by simp only [Except.ok.injEq] at hd'; rw [← hd']; exact ⟨m, rfl, h7⟩⟩

theorem projects_spec (hon : cfg.On site served inflate) {w : RadsWorld} (hw : RadsWorldOk served w) {fs : FS}
    (hg : GoodRads cfg.base site served cfg.exe fs) {sv : SolVer} (hsv : sv.Plain) (langs : RadsLangs) :
    Adds (RadsFile cfg.base site served cfg.exe) fs (cfg.projects w fs sv langs).1 ∧
    ∀ pvs, (cfg.projects w fs sv langs).2 = .ok pvs → ∃ m, site.solution sv.name sv.version.s = some m ∧
      (∀ pv ∈ pvs, pv.Plain ∧ UsedBy m langs pv.name ∧ m.versionOf pv.name = some pv.version.s ∧ radsVersion (.str pv.version.s) = .ok pv.version) ∧
      ∀ p, UsedBy m langs p → ∃ pv ∈ pvs, pv.name = p := by
  obtain ⟨h1, -, h3⟩ := dependencies_spec hon hw hg hsv
  unfold RadsCfg.projects
  rcases hd : cfg.dependencies w fs sv with ⟨fs', _ | d⟩
  · rw [hd] at h1; exact ⟨h1, by simp⟩
  · rw [hd] at h1 h3
    refine ⟨h1, ?_⟩
    simp only
    intro pvs hp
    obtain ⟨m, hm, hdep⟩ := h3 d rfl
    cases hs : solutionProjects d langs with
    | error e => rw [hs] at hp; simp [Except.map] at hp
    | ok ps =>
      rw [hs] at hp
      simp only [Except.map, Except.ok.injEq] at hp
      obtain ⟨a, b⟩ := select_projects hdep hs
      have hmem : ∀ x, x ∈ pvs ↔ x ∈ ps := by
        intro x
        rw [← hp]
        unfold RadsWorld.arrange
        cases langs <;> simp only [hw.order]
      refine ⟨m, hm, fun pv hpv => ?_, fun p hp => ?_⟩
      · obtain ⟨a1, a2, a3⟩ := a pv ((hmem pv).1 hpv)
        obtain ⟨x, hx, hx1, hx2⟩ := versionOf_mem a2
        obtain ⟨s1, s2⟩ := hon.ok.projects _ _ _ hm x hx
        rw [hx1] at s1
        rw [hx2] at s2
        exact ⟨⟨s1, s2⟩, a1, a2, a3⟩
      · obtain ⟨pv, hpv, he⟩ := b p hp
        exact ⟨pv, (hmem pv).2 hpv, he⟩

theorem entries_spec (hon : cfg.On site served inflate) {w : RadsWorld} (hw : RadsWorldOk served w) {fs : FS}
    (hg : GoodRads cfg.base site served cfg.exe fs) {pv : ProjVer} (hpv : pv.Plain) :
    Adds (RadsFile cfg.base site served cfg.exe) fs (cfg.entries w fs pv).1 ∧
    ((cfg.entries w fs pv).2 = .error (.http 404) → site.entries pv.name pv.version.s = none) ∧
    ∀ pfs, (cfg.entries w fs pv).2 = .ok pfs → ∃ es, site.entries pv.name pv.version.s = some es ∧ pfs = es.map PkgEntry.parsed := by
  obtain ⟨h1, h2, h3⟩ := radsDownload_spec (cfg := cfg) hw fs pv.manifestUrl pv.manifest
  have ha : Adds (RadsFile cfg.base site served cfg.exe) fs (cfg.download w fs pv.manifestUrl pv.manifest).1 := by
    refine h1.imp ?_
    rintro q b ⟨rfl, hb⟩
    rw [pmanifest_url] at hb
    rw [pmanifest_path]
    exact .packages hpv.1 hpv.2 hb
  have hg' := adds_good hg ha
  unfold RadsCfg.entries
  rcases hd : cfg.download w fs pv.manifestUrl pv.manifest with ⟨fs', r⟩
  rw [hd] at h2 h3 ha hg'
  simp only at h2 h3 ha hg'
  cases r with
  | error e =>
    refine ⟨ha, ?_, by simp⟩
    intro he
    simp only [Except.error.injEq] at he
    have h3 := h3 (by rw [he])
    by_contra hne
    obtain ⟨es, hes⟩ := Option.ne_none_iff_exists'.1 hne
    obtain ⟨b, _, hb, -⟩ := hon.serves.entries _ _ _ hes
    rw [pmanifest_url, hb] at h3
    simp at h3
  | ok u =>
    obtain ⟨b, hb⟩ := h2 rfl
    have hb' := hb
    rw [pmanifest_path] at hb'
    have hs := hg'.packages _ _ _ hpv.1 hpv.2 hb'
    cases hes : site.entries pv.name pv.version.s with
    | none => rw [hon.serves.noEntries _ _ hpv.1 hpv.2 hes] at hs; simp at hs
    | some es =>
      obtain ⟨b', magic, h4, h5, h6⟩ := hon.serves.entries _ _ _ hes
      rw [h4] at hs
      cases hs
      have h7 := parse_manifest h5 (fun e he => (hon.ok.entry _ _ _ hes e he).1) h6
      have : (do let text ← cfg.readText fs' pv.manifest; parsePkgManifest text) = .ok (es.map PkgEntry.parsed) := by
        rw [readText_file hb]; exact h7
      simp only [this]
      exact ⟨ha, by simp, fun pfs h => by simp only [Except.ok.injEq] at h; exact ⟨es, rfl, h.symm⟩⟩

theorem entries_present {w : RadsWorld} (hw : RadsWorldOk served w) {fs : FS} {pv : ProjVer} {pfs : List PkgFile}
    (h : (cfg.entries w fs pv).2 = .ok pfs) : ∃ b, (cfg.entries w fs pv).1 (storageFspath cfg.base pv.manifest) = some (.file b) := by
  obtain ⟨-, h2, -⟩ := radsDownload_spec (cfg := cfg) hw fs pv.manifestUrl pv.manifest
  unfold RadsCfg.entries at h ⊢
  rcases hd : cfg.download w fs pv.manifestUrl pv.manifest with ⟨fs', _ | u⟩
  · rw [hd] at h; simp at h
  · rw [hd] at h2; exact h2 rfl

/-! ## Extraction -/

theorem filePath_rel {p : Str} (h : FilePath p) : ¬ ∃ r, p = '/' :: r := by
  obtain ⟨n, v, r, -, -, rfl⟩ := filePath_eq.1 h
  rintro ⟨x, hx⟩
  rw [projectFile_eq] at hx
  exact absurd (List.cons.inj hx).1 (by decide)

theorem lastEntry_of {es : List PkgEntry} {pf : PkgFile} (hf : (es.map PkgEntry.parsed).reverse.find? (fun x => x.extractPath = pf.extractPath) = some pf) :
    ∃ e, LastEntry es e ∧ e.parsed = pf := by
  induction es using List.reverseRecOn with
  | nil => simp at hf
  | append_singleton es e ih =>
    rw [List.map_append, List.reverse_append] at hf
    simp only [List.map_cons, List.map_nil, List.reverse_cons, List.reverse_nil, List.nil_append, List.cons_append, List.find?_cons] at hf
    split at hf
    · simp only [Option.some.injEq] at hf
      exact ⟨e, ⟨es, [], rfl, by simp⟩, hf⟩
    · rename_i hne
      obtain ⟨e', ⟨a, b, rfl, hl⟩, he⟩ := ih hf
      refine ⟨e', ⟨a, b ++ [e], by simp, ?_⟩, he⟩
      intro x hx
      rcases List.mem_append.1 hx with hx | hx
      · exact hl x hx
      · simp only [List.mem_singleton] at hx
        subst hx
        simp only [decide_eq_false_iff_not] at hne
        rw [← he] at hne
        exact hne

theorem site_content (hon : cfg.On site served inflate) {n v : Str} {es : List PkgEntry} (hes : site.entries n v = some es) {pf : PkgFile}
    (h : (packageFiles (es.map PkgEntry.parsed)).get? pf.extractPath = some pf) :
    FilePath pf.extractPath ∧ Spec.pkgContent (site.package n v) inflate pf = .ok (site.file pf.extractPath) := by
  rw [C43_files] at h
  obtain ⟨e, hl, rfl⟩ := lastEntry_of h
  have hm : e ∈ es := by obtain ⟨a, b, rfl, -⟩ := hl; simp
  refine ⟨(hon.ok.entry _ _ _ hes e hm).2, ?_⟩
  exact hon.ok.content _ _ _ hes e hl

theorem env_serves (hon : cfg.On site served inflate) {w : RadsWorld} (hw : RadsWorldOk served w) (pv : ProjVer) :
    (cfg.env w pv).Serves (site.package pv.name pv.version.s) := by
  intro p chunks h
  obtain ⟨b, h1, h2⟩ := hw.stream _ _ h
  change served (pv.path ++ "/packages/files/".toList ++ p) = some b at h1
  rw [package_url] at h1
  rw [← hon.serves.package _ _ _ _ h1]
  exact h2

theorem extract_adds (hon : cfg.On site served inflate) {w : RadsWorld} (hw : RadsWorldOk served w) (fs : FS) {pv : ProjVer} {es : List PkgEntry}
    (hes : site.entries pv.name pv.version.s = some es) (paths : Option (List Str)) :
    Adds (RadsFile cfg.base site served cfg.exe) fs ((cfg.env w pv).extract fs (es.map PkgEntry.parsed) paths).1 := by
  have hrel : RelativePaths (es.map PkgEntry.parsed) := by
    intro pf hpf
    obtain ⟨e, he, rfl⟩ := List.mem_map.1 hpf
    exact filePath_rel (hon.ok.entry _ _ _ hes e he).2
  have key := fun q b => C41_failure (env := cfg.env w pv) hon.inflate (env_serves hon hw pv) (fun p => hw.remove p) fs (es.map PkgEntry.parsed) hrel paths q b
  refine ⟨fun q b => (key q b).1, fun q b hq => ((key q b).2 hq).imp id ?_⟩
  rintro ⟨pf, -, h1, rfl, h2⟩
  obtain ⟨h3, h4⟩ := site_content hon hes h1
  rw [h4] at h2
  cases h2
  exact .file h3

/-! ## Patch versions -/

theorem keys_find {pfs : List PkgFile} {f : Str → Bool} :
    (packageFiles pfs).keys.find? f = (pfs.map (·.extractPath)).find? f := by
  have key : ∀ (l : List (Str × PkgFile)) (d : Dict Str PkgFile),
      (l.foldl (fun d kv => d.set kv.1 kv.2) d).keys.find? f = (d.keys ++ l.map (·.1)).find? f := by
    intro l
    induction l with
    | nil => simp
    | cons x l ih =>
      intro d
      rw [List.foldl_cons, ih, Dict.keys_set, List.map_cons]
      split
      · rename_i hm
        simp only [List.find?_append, List.find?_cons]
        by_cases hx : f x.1 = true
        · cases hf : List.find? f d.keys with
          | some y => rfl
          | none =>
            rw [List.find?_eq_none] at hf
            exact absurd hx (hf _ hm)
        · simp [hx]
      · simp
  unfold packageFiles Dict.ofList
  rw [key]
  simp [Dict.keys, Function.comp_def]

theorem retriever_file {sol project file : Str} {ext : Bytes → Res (Option Str)} (h : cfg.retriever sol = .ok (project, file, ext)) :
    ∃ read, PatchFile cfg.exe sol project file read ∧ (∀ b t, ext b = .ok (some t) ↔ read b t) ∧
      (project = "league_client".toList ∨ project = "lol_game_client".toList) := by
  unfold RadsCfg.retriever at h
  split at h
  · rename_i hs
    simp only [Except.ok.injEq, Prod.mk.injEq] at h
    obtain ⟨rfl, rfl, rfl⟩ := h
    rw [hs]
    refine ⟨_, .client, fun b t => ?_, Or.inl rfl⟩
    constructor
    · intro hb
      cases hu : utf8 b with
      | error e => simp [systemYamlVersion, hu, bind, Except.bind] at hb
      | ok text =>
        obtain ⟨ls, hl⟩ := (C60_yaml_total text).1
        exact ⟨text, ls, rfl, hl, ((C60_yaml b text hu ls hl).1 t).1 hb⟩
    · rintro ⟨text, ls, hu, hl, hf⟩
      exact ((C60_yaml b text hu ls hl).1 t).2 hf
  · split at h
    · rename_i hs
      simp only [Except.ok.injEq, Prod.mk.injEq] at h
      obtain ⟨rfl, rfl, rfl⟩ := h
      rw [hs]
      exact ⟨_, .game, fun b t => Iff.rfl, Or.inr rfl⟩
    · simp at h

theorem noVersion_spec {pv : ProjVer} (hv : radsVersion (.str pv.version.s) = .ok pv.version) (r : Option Version) (h : noVersionFile pv = .ok r) :
    r = none ∧ OldClient pv.name pv.version.s := by
  unfold noVersionFile at h
  split at h
  · rename_i hn
    have ht : ∃ t, pv.version.t = .nums t := by
      unfold radsVersion at hv
      cases hb : baseVersion (.str pv.version.s) with
      | error e => rw [hb] at hv; simp [bind, Except.bind] at hv
      | ok b =>
        rw [hb] at hv
        simp only [bind, Except.bind] at hv
        split at hv
        · rename_i t ht
          split at hv
          · simp only [pure, Except.pure, Except.ok.injEq] at hv
            rw [← hv]; exact ⟨t, ht⟩
          · simp [throw, throwThe, MonadExceptOf.throw] at hv
        · simp [throw, throwThe, MonadExceptOf.throw] at hv
    obtain ⟨t, ht⟩ := ht
    simp only [Version.cmp, ht, bind, Except.bind, tupleCmp_le, tupleCmp_lt] at h
    split at h
    · simp only [pure, Except.pure, Except.ok.injEq] at h
      rename_i hle
      refine ⟨h.symm, hn, pv.version, t, hv, ht, ?_⟩
      simpa using hle
    · simp [throw, throwThe, MonadExceptOf.throw] at h
  · simp [throw, throwThe, MonadExceptOf.throw] at h

theorem readVersion_spec {fs : FS} (hg : GoodRads cfg.base site served cfg.exe fs) {path : Str} (hp : FilePath path) {ext : Bytes → Res (Option Str)}
    {r : Option Version} (h : cfg.readVersion fs path ext = .ok r) :
    ∃ t v, ext (site.file path) = .ok (some t) ∧ Cdtb.patchVersion (.str t) = .ok v ∧ r = some v := by
  unfold RadsCfg.readVersion at h
  cases hr : fs.readFile (storageFspath cfg.base path) with
  | error e => rw [hr] at h; simp [bind, Except.bind] at h
  | ok b =>
    rw [hr] at h
    simp only [bind, Except.bind] at h
    have hb : fs (storageFspath cfg.base path) = some (.file b) := by
      unfold FS.readFile at hr
      split at hr
      · rename_i b' hb'; simp only [Except.ok.injEq] at hr; rw [← hr]; exact hb'
      · simp at hr
      · simp at hr
    rw [hg.file path b hp hb] at h
    cases he : ext (site.file path) with
    | error e => rw [he] at h; simp at h
    | ok o =>
      rw [he] at h
      cases o with
      | none => simp [throw, throwThe, MonadExceptOf.throw] at h
      | some t =>
        simp only at h
        cases hv : Cdtb.patchVersion (.str t) with
        | error e => rw [hv] at h; simp at h
        | ok v =>
          rw [hv] at h
          simp only [pure, Except.pure, Except.ok.injEq] at h
          exact ⟨t, v, rfl, hv, h.symm⟩

theorem versionFromEntries_spec (hon : cfg.On site served inflate) {w : RadsWorld} (hw : RadsWorldOk served w) {fs : FS}
    (hg : GoodRads cfg.base site served cfg.exe fs) {pv : ProjVer} (hv : radsVersion (.str pv.version.s) = .ok pv.version) {es : List PkgEntry}
    (hes : site.entries pv.name pv.version.s = some es) (file : Str) (ext : Bytes → Res (Option Str)) :
    Adds (RadsFile cfg.base site served cfg.exe) fs (cfg.versionFromEntries w fs pv (es.map PkgEntry.parsed) file ext).1 ∧
    ∀ r, (cfg.versionFromEntries w fs pv (es.map PkgEntry.parsed) file ext).2 = .ok r →
      (r = none ∧ (∀ e ∈ es, ¬ ∃ d, e.file = d ++ '/' :: file) ∧ OldClient pv.name pv.version.s) ∨
      ∃ before e after d t v, es = before ++ e :: after ∧ e.file = d ++ '/' :: file ∧ (∀ x ∈ before, ¬ ∃ d, x.file = d ++ '/' :: file) ∧
        ext (site.file e.file) = .ok (some t) ∧ Cdtb.patchVersion (.str t) = .ok v ∧ r = some v := by
  have hends : ∀ p : Str, endsWith p ('/' :: file) = true ↔ ∃ d, p = d ++ '/' :: file := fun p => endsWith_iff
  have hmap : (es.map PkgEntry.parsed).map (·.extractPath) = es.map (·.file) := by
    rw [List.map_map]; rfl
  unfold RadsCfg.versionFromEntries
  rw [keys_find, hmap]
  cases hf : (es.map (·.file)).find? fun p => endsWith p ('/' :: file) with
  | none =>
    refine ⟨.refl _ _, fun r hr => Or.inl ?_⟩
    simp only at hr
    obtain ⟨h1, h2⟩ := noVersion_spec hv r hr
    rw [List.find?_eq_none] at hf
    refine ⟨h1, fun e he hd => ?_, h2⟩
    exact hf _ (List.mem_map_of_mem he) ((hends _).2 hd)
  | some path =>
    obtain ⟨hend, before, after, hsplit, hbefore⟩ := List.find?_eq_some_iff_append.1 hf
    obtain ⟨eb, ee, rfl, hb1, hb2⟩ := List.map_eq_append_iff.1 hsplit
    obtain ⟨e, after', rfl, rfl, -⟩ := List.map_eq_cons_iff.1 hb2
    have hfp : FilePath e.file := (hon.ok.entry _ _ _ hes e (by simp)).2
    obtain ⟨d, hd⟩ := (hends _).1 hend
    have hex : Adds (RadsFile cfg.base site served cfg.exe) fs (cfg.extractOne w fs pv ((eb ++ e :: after').map PkgEntry.parsed) e.file).1 := by
      unfold RadsCfg.extractOne
      split
      · exact .refl _ _
      · exact extract_adds hon hw fs hes _
    simp only
    rcases hx : cfg.extractOne w fs pv ((eb ++ e :: after').map PkgEntry.parsed) e.file with ⟨fs', _ | u⟩
    · rw [hx] at hex; exact ⟨hex, by simp⟩
    · rw [hx] at hex
      refine ⟨hex, fun r hr => Or.inr ?_⟩
      obtain ⟨t, v, h1, h2, h3⟩ := readVersion_spec (adds_good hg hex) hfp hr
      refine ⟨eb, e, after', d, t, v, rfl, hd, fun x hx hd => ?_, h1, h2, h3⟩
      have := hbefore x.file (by rw [← hb1]; exact List.mem_map_of_mem hx)
      rw [(hends _).2 hd] at this
      simp at this

theorem retrieve_spec (hon : cfg.On site served inflate) {w : RadsWorld} (hw : RadsWorldOk served w) {fs : FS}
    (hg : GoodRads cfg.base site served cfg.exe fs) {sv : SolVer} (hsv : sv.Plain) :
    Adds (RadsFile cfg.base site served cfg.exe) fs (cfg.retrieveVersion w fs sv).1 ∧
    ∀ r, (cfg.retrieveVersion w fs sv).2 = .ok r → ∃ t, site.Patch cfg.exe sv.name sv.version.s t ∧ PatchOf t r := by
  unfold RadsCfg.retrieveVersion
  cases hret : cfg.retriever sv.name with
  | error e => exact ⟨.refl _ _, by simp⟩
  | ok x =>
    obtain ⟨project, file, ext⟩ := x
    obtain ⟨read, hpf, hread, -⟩ := retriever_file hret
    obtain ⟨h1, h2⟩ := projects_spec hon hw hg hsv .none_
    simp only
    rcases hp : cfg.projects w fs sv .none_ with ⟨fs1, _ | pvs⟩
    · rw [hp] at h1; exact ⟨h1, by simp⟩
    · rw [hp] at h1 h2
      simp only at h1 h2 ⊢
      have hg1 := adds_good hg h1
      obtain ⟨m, hm, hpvs, -⟩ := h2 pvs rfl
      unfold RadsCfg.versionFromProjects
      cases hfind : pvs.find? fun pv => pv.name = project with
      | none => exact ⟨h1, by simp⟩
      | some pv =>
        have hname : pv.name = project := by simpa using List.find?_some hfind
        obtain ⟨hplain, hsel, hver, hvs⟩ := hpvs pv (List.mem_of_find?_eq_some hfind)
        have hreq : project ∈ m.required := by rw [← hname]; exact hsel
        simp only
        unfold RadsCfg.versionFromProject
        obtain ⟨h3, h4, h5⟩ := entries_spec hon hw hg1 hplain
        rcases he : cfg.entries w fs1 pv with ⟨fs2, e | pfs⟩
        · rw [he] at h3 h4
          refine ⟨h1.trans h3, fun r hr => ?_⟩
          simp only at hr
          have : e = .http 404 ∧ r = none := by
            unfold notAvailable at hr
            split at hr
            · simp only [Except.ok.injEq] at hr; exact ⟨rfl, hr.symm⟩
            · simp at hr
          obtain ⟨rfl, rfl⟩ := this
          have h4 := h4 rfl
          rw [hname] at h4 hver
          exact ⟨none, .gone hpf hm hreq hver h4, rfl⟩
        · rw [he] at h3 h5
          simp only at h3 h5 ⊢
          obtain ⟨es, hes, rfl⟩ := h5 pfs rfl
          obtain ⟨h6, h7⟩ := versionFromEntries_spec hon hw (adds_good hg1 h3) hvs hes file ext
          refine ⟨(h1.trans h3).trans h6, fun r hr => ?_⟩
          rcases h7 r hr with ⟨rfl, h8, h9⟩ | ⟨before, e, after, d, t, v, rfl, h8, h9, h10, h11, rfl⟩
          · rw [hname] at hver hes h9
            exact ⟨none, .old hpf hm hreq hver hes h8 h9, rfl⟩
          · rw [hname] at hver hes
            exact ⟨some t, .found hpf hm hreq hver hes h8 h9 ((hread _ _).1 h10), v, rfl, h11⟩

theorem patch_chars (hon : cfg.On site served inflate) {n v t : Str} (h : site.Patch cfg.exe n v (some t)) : ∀ c ∈ t, c ∈ "0123456789.".toList := by
  cases h with
  | found hpf _ _ _ _ _ _ hread =>
    cases hpf with
    | client =>
      obtain ⟨_, _, _, _, hf⟩ := hread
      obtain ⟨_, _, _, _, ⟨_, _, _, _, _, _, _, _, _, _, h⟩, _⟩ := hf
      exact h
    | game => exact hon.exe _ _ hread

theorem patchFile_retriever {sol project file : Str} {read : Bytes → Str → Prop} (h : PatchFile cfg.exe sol project file read) :
    ∃ ext, cfg.retriever sol = .ok (project, file, ext) ∧ ∀ b t, read b t → ext b = .ok (some t) := by
  cases h with
  | client =>
    refine ⟨systemYamlVersion, by unfold RadsCfg.retriever; rw [if_pos rfl], ?_⟩
    rintro b t ⟨text, ls, hu, hl, hf⟩
    exact ((C60_yaml b text hu ls hl).1 t).2 hf
  | game =>
    refine ⟨cfg.exe, ?_, fun b t h => h⟩
    unfold RadsCfg.retriever
    rw [if_neg (by decide +kernel), if_pos rfl]

theorem first_split {es a b a' b' : List PkgEntry} {e e' : PkgEntry} {P : PkgEntry → Prop} (h : es = a ++ e :: b) (h' : es = a' ++ e' :: b')
    (he : P e) (he' : P e') (ha : ∀ x ∈ a, ¬ P x) (ha' : ∀ x ∈ a', ¬ P x) : e = e' := by
  subst h
  induction a generalizing a' with
  | nil =>
    cases a' with
    | nil => exact (List.cons.inj h').1
    | cons x a' => exact absurd ((List.cons.inj h').1 ▸ he) (ha' x (by simp))
  | cons x a ih =>
    cases a' with
    | nil => exact absurd ((List.cons.inj h').1 ▸ he') (ha x (by simp))
    | cons y a' => exact ih (fun z hz => ha z (by simp [hz])) (fun z hz => ha' z (by simp [hz])) (List.cons.inj h').2

theorem patch_unique {n v : Str} {t t' : Option Str} (h : site.Patch cfg.exe n v t) (h' : site.Patch cfg.exe n v t') : t = t' := by
  have key : ∀ {p f r p' f' r'}, PatchFile cfg.exe n p f r → PatchFile cfg.exe n p' f' r' →
      p = p' ∧ f = f' ∧ ∀ b t t', r b t → r' b t' → t = t' := by
    intro p f r p' f' r' h h'
    obtain ⟨ext, h1, h2⟩ := patchFile_retriever h
    obtain ⟨ext', h1', h2'⟩ := patchFile_retriever h'
    rw [h1] at h1'
    simp only [Except.ok.injEq, Prod.mk.injEq] at h1'
    obtain ⟨rfl, rfl, rfl⟩ := h1'
    refine ⟨rfl, rfl, fun b t t' ht ht' => ?_⟩
    have := (h2 b t ht).symm.trans (h2' b t' ht')
    simpa using this
  cases h with
  | gone a1 a2 a3 a4 a5 =>
    cases h' with
    | gone => rfl
    | old => rfl
    | found b1 b2 b3 b4 b5 =>
      obtain ⟨rfl, rfl, -⟩ := key a1 b1
      rw [a2] at b2; cases b2
      rw [a4] at b4; cases b4
      rw [a5] at b5; cases b5
  | old a1 a2 a3 a4 a5 a6 =>
    cases h' with
    | gone => rfl
    | old => rfl
    | found b1 b2 b3 b4 b5 b6 =>
      obtain ⟨rfl, rfl, -⟩ := key a1 b1
      rw [a2] at b2; cases b2
      rw [a4] at b4; cases b4
      rw [a5] at b5; cases b5
      exact absurd ⟨_, b6⟩ (a6 _ (by simp))
  | found a1 a2 a3 a4 a5 a6 a7 a8 =>
    cases h' with
    | gone b1 b2 b3 b4 b5 =>
      obtain ⟨rfl, rfl, -⟩ := key a1 b1
      rw [a2] at b2; cases b2
      rw [a4] at b4; cases b4
      rw [a5] at b5; cases b5
    | old b1 b2 b3 b4 b5 b6 =>
      obtain ⟨rfl, rfl, -⟩ := key a1 b1
      rw [a2] at b2; cases b2
      rw [a4] at b4; cases b4
      rw [a5] at b5; cases b5
      exact absurd ⟨_, a6⟩ (b6 _ (by simp))
    | found b1 b2 b3 b4 b5 b6 b7 b8 =>
      obtain ⟨rfl, rfl, hk⟩ := key a1 b1
      rw [a2] at b2; cases b2
      rw [a4] at b4; cases b4
      rw [a5] at b5
      simp only [Option.some.injEq] at b5
      have he := first_split rfl b5 (P := fun e => ∃ d, e.file = d ++ '/' :: _) ⟨_, a6⟩ ⟨_, b6⟩ a7 b7
      subst he
      rw [hk _ _ _ a8 b8]

theorem store_adds {w : RadsWorld} (hw : RadsWorldOk served w) {fs : FS} {sv : SolVer} (hsv : sv.Plain)
    {r : Option Version} (hn : ∀ b v, fs (storageFspath cfg.base sv.cache) = some (.file b) → r = some v → b = utf8Bytes (v.s ++ ['\n']))
    (hr : ∀ v, r = some v → ∃ t, site.Patch cfg.exe sv.name sv.version.s (some t) ∧ Cdtb.patchVersion (.str t) = .ok v) :
    Adds (RadsFile cfg.base site served cfg.exe) fs (cfg.storeVersion w fs sv r).1 ∧
    ∀ r', (cfg.storeVersion w fs sv r).2 = .ok r' → r' = r ∧ ∀ v, r = some v →
      (cfg.storeVersion w fs sv r).1 (storageFspath cfg.base sv.cache) = some (.file (utf8Bytes (v.s ++ ['\n']))) := by
  cases r with
  | none => exact ⟨.refl _ _, by intro r' h; simp only [RadsCfg.storeVersion, Except.ok.injEq] at h; exact ⟨h.symm, by simp⟩⟩
  | some v =>
    obtain ⟨t, ht, hv⟩ := hr v rfl
    obtain ⟨hw0, hw1⟩ := hw.cache sv.name sv.version.s
    rw [← cache_path] at hw0 hw1
    have hc : closeFile (w.faults sv.cache) (writeBody (w.faults sv.cache) 0 [] [.write (utf8Bytes (v.s ++ ['\n']))]) =
        (utf8Bytes (v.s ++ ['\n']), .ok ()) := by simp [closeFile, writeBody, hw0, hw1]
    have key : Adds (RadsFile cfg.base site served cfg.exe) fs
        (openAndWrite fs (storageFspath cfg.base sv.cache) [.write (utf8Bytes (v.s ++ ['\n']))] (w.faults sv.cache)).1 ∧
        ((openAndWrite fs (storageFspath cfg.base sv.cache) [.write (utf8Bytes (v.s ++ ['\n']))] (w.faults sv.cache)).2 = .ok () →
          (openAndWrite fs (storageFspath cfg.base sv.cache) [.write (utf8Bytes (v.s ++ ['\n']))] (w.faults sv.cache)).1
            (storageFspath cfg.base sv.cache) = some (.file (utf8Bytes (v.s ++ ['\n'])))) := by
      unfold openAndWrite
      cases (w.faults sv.cache).open_ with
      | some e => exact ⟨.refl _ _, by simp⟩
      | none =>
        simp only
        split
        · exact ⟨.refl _ _, by simp⟩
        · split
          · exact ⟨.refl _ _, by simp⟩
          · rw [hc]
            refine ⟨⟨fun q b hq => ?_, fun q b hq => ?_⟩, fun _ => by simp⟩
            · by_cases hqc : q = storageFspath cfg.base sv.cache
              · subst hqc
                simp only [FS.set_self, hn b v hq rfl]
              · simp only; rw [FS.set_other _ hqc]; exact hq
            · by_cases hqc : q = storageFspath cfg.base sv.cache
              · right
                subst hqc
                simp only [FS.set_self, Option.some.injEq, Node.file.injEq] at hq
                rw [← hq, cache_path]
                exact .version hsv.1 hsv.2 ht hv
              · left; simp only at hq; rwa [FS.set_other _ hqc] at hq
    simp only [RadsCfg.storeVersion]
    rcases ho : openAndWrite fs (storageFspath cfg.base sv.cache) [.write (utf8Bytes (v.s ++ ['\n']))] (w.faults sv.cache) with ⟨fs', _ | u⟩
    · rw [ho] at key; exact ⟨key.1, by simp⟩
    · rw [ho] at key
      refine ⟨key.1, fun r' h => ?_⟩
      simp only [Except.ok.injEq] at h
      refine ⟨h.symm, fun v' hv' => ?_⟩
      cases hv'
      exact key.2 rfl

theorem store_spec (hon : cfg.On site served inflate) {w : RadsWorld} (hw : RadsWorldOk served w) {fs : FS}
    (hg : GoodRads cfg.base site served cfg.exe fs) {sv : SolVer} (hsv : sv.Plain) :
    Adds (RadsFile cfg.base site served cfg.exe) fs (cfg.retrieveAndStore w fs sv).1 ∧
    ∀ r, (cfg.retrieveAndStore w fs sv).2 = .ok r → (∃ t, site.Patch cfg.exe sv.name sv.version.s t ∧ PatchOf t r) ∧ ∀ v, r = some v →
      (cfg.retrieveAndStore w fs sv).1 (storageFspath cfg.base sv.cache) = some (.file (utf8Bytes (v.s ++ ['\n']))) := by
  obtain ⟨h1, h2⟩ := retrieve_spec hon hw hg hsv
  unfold RadsCfg.retrieveAndStore
  rcases hr : cfg.retrieveVersion w fs sv with ⟨fs1, e | v⟩
  · rw [hr] at h1; exact ⟨h1, by simp⟩
  · rw [hr] at h1 h2
    simp only at h1 h2 ⊢
    obtain ⟨t, ht, hp⟩ := h2 v rfl
    have hr : ∀ v', v = some v' → ∃ t, site.Patch cfg.exe sv.name sv.version.s (some t) ∧ Cdtb.patchVersion (.str t) = .ok v' := by
      intro v' hv'
      subst hv'
      cases t with
      | none => simp [PatchOf] at hp
      | some t =>
        obtain ⟨x, hx, hx'⟩ := hp
        cases hx
        exact ⟨t, ht, hx'⟩
    obtain ⟨h3, h4⟩ := store_adds (cfg := cfg) (site := site) hw hsv (fs := fs1) (r := v) (by
      intro b v' hb hv'
      rw [cache_path] at hb
      obtain ⟨t1, ver, a1, a2, rfl⟩ := (adds_good hg h1).version _ _ _ hsv.1 hsv.2 hb
      obtain ⟨t2, b1, b2⟩ := hr v' hv'
      have := patch_unique a1 b1
      simp only [Option.some.injEq] at this
      rw [this, b2] at a2
      cases a2
      rfl) hr
    refine ⟨h1.trans h3, fun r hr => ?_⟩
    obtain ⟨rfl, h5⟩ := h4 r hr
    exact ⟨⟨t, ht, hp⟩, h5⟩

theorem version_spec (hpbe : cfg.url ≠ urlPbe) (hon : cfg.On site served inflate) {w : RadsWorld} (hw : RadsWorldOk served w) {fs : FS}
    (hg : GoodRads cfg.base site served cfg.exe fs) {sv : SolVer} (hsv : sv.Plain) :
    Adds (RadsFile cfg.base site served cfg.exe) fs (cfg.patchVersion w fs sv).1 ∧
    ∀ r, (cfg.patchVersion w fs sv).2 = .ok r → (∃ t, site.Patch cfg.exe sv.name sv.version.s t ∧ PatchOf t r) ∧ ∀ v, r = some v →
      (cfg.patchVersion w fs sv).1 (storageFspath cfg.base sv.cache) = some (.file (utf8Bytes (v.s ++ ['\n']))) := by
  unfold RadsCfg.patchVersion
  rw [if_neg hpbe]
  cases hc : fs (storageFspath cfg.base sv.cache) with
  | none => exact store_spec hon hw hg hsv
  | some nd =>
    cases nd with
    | dir => exact store_spec hon hw hg hsv
    | file b =>
      refine ⟨.refl _ _, fun r hr => ?_⟩
      have hc' := hc
      rw [cache_path] at hc'
      obtain ⟨t, ver, h1, h2, rfl⟩ := hg.version _ _ _ hsv.1 hsv.2 hc'
      simp only [cache_roundtrip (patch_chars hon h1) h2, Except.ok.injEq] at hr
      refine ⟨⟨some t, h1, ver, hr.symm, h2⟩, fun v hv => ?_⟩
      rw [← hr] at hv
      cases hv
      exact hc

/-! ## Downloads of projects and solutions -/

theorem values_entry {es : List PkgEntry} {e : PkgEntry} (he : e ∈ es) :
    ∃ pf ∈ (packageFiles (es.map PkgEntry.parsed)).values, pf.extractPath = e.file ∧ (packageFiles (es.map PkgEntry.parsed)).get? pf.extractPath = some pf := by
  have hne : (packageFiles (es.map PkgEntry.parsed)).get? e.file ≠ none := by
    rw [C43_files, Ne, List.find?_eq_none]
    push_neg
    exact ⟨e.parsed, by simp only [List.mem_reverse]; exact List.mem_map_of_mem he, decide_eq_true (rfl : e.parsed.extractPath = e.file)⟩
  obtain ⟨pf, hpf⟩ := Option.ne_none_iff_exists'.1 hne
  have hx : pf.extractPath = e.file := by
    have := hpf
    rw [C43_files] at this
    simpa using List.find?_some this
  exact ⟨pf, List.mem_map.2 ⟨_, Dict.mem_of_get? hpf, rfl⟩, hx, by rw [hx]; exact hpf⟩

theorem downloadProject_spec (hon : cfg.On site served inflate) {w : RadsWorld} (hw : RadsWorldOk served w) {fs : FS}
    (hg : GoodRads cfg.base site served cfg.exe fs) {pv : ProjVer} (hpv : pv.Plain) :
    Adds (RadsFile cfg.base site served cfg.exe) fs (cfg.downloadProject w fs pv).1 ∧
    ((cfg.downloadProject w fs pv).2 = .ok () → ∃ es, site.entries pv.name pv.version.s = some es ∧
      Extracted cfg.base site (cfg.downloadProject w fs pv).1 es ∧
      (∃ b, (cfg.downloadProject w fs pv).1 (storageFspath cfg.base pv.releaseManifest) = some (.file b)) ∧
      ∃ b, (cfg.downloadProject w fs pv).1 (storageFspath cfg.base pv.manifest) = some (.file b)) := by
  obtain ⟨h1, h2, -⟩ := radsDownload_spec (cfg := cfg) hw fs pv.releaseManifest pv.releaseManifest
  have ha : Adds (RadsFile cfg.base site served cfg.exe) fs (cfg.download w fs pv.releaseManifest pv.releaseManifest).1 := by
    refine h1.imp ?_
    rintro q b ⟨rfl, hb⟩
    rw [rmanifest_path] at hb ⊢
    exact .release hpv.1 hpv.2 hb
  unfold RadsCfg.downloadProject
  rcases hd : cfg.download w fs pv.releaseManifest pv.releaseManifest with ⟨fs1, _ | u⟩
  · rw [hd] at ha; exact ⟨ha, by simp⟩
  · rw [hd] at ha h2
    obtain ⟨rb, hrb⟩ := h2 rfl
    simp only at ha hrb ⊢
    have hg1 := adds_good hg ha
    obtain ⟨h3, -, h5⟩ := entries_spec hon hw hg1 hpv
    have h5' := fun pfs h => entries_present (cfg := cfg) hw (fs := fs1) (pv := pv) (pfs := pfs) h
    unfold RadsCfg.extractAll
    rcases he : cfg.entries w fs1 pv with ⟨fs2, _ | pfs⟩
    · rw [he] at h3; exact ⟨ha.trans h3, by simp⟩
    · rw [he] at h3 h5 h5'
      simp only at h3 h5 h5' ⊢
      obtain ⟨es, hes, rfl⟩ := h5 pfs rfl
      obtain ⟨pb, hpb⟩ := h5' _ rfl
      have hg2 := adds_good hg1 h3
      have h6 := extract_adds hon hw fs2 hes none
      refine ⟨(ha.trans h3).trans h6, fun hok => ⟨es, hes, ?_, ⟨rb, h6.1 _ _ (h3.1 _ _ hrb)⟩, pb, h6.1 _ _ hpb⟩⟩
      intro e hem
      obtain ⟨pf, hpf, hx, hget⟩ := values_entry hem
      have hrel : RelativePaths (es.map PkgEntry.parsed) := by
        intro pf hpf
        obtain ⟨e, he, rfl⟩ := List.mem_map.1 hpf
        exact filePath_rel (hon.ok.entry _ _ _ hes e he).2
      obtain ⟨s1, s2, -⟩ := C41_success (env := cfg.env w pv) hon.inflate (env_serves hon hw pv) fs2 _ (es.map PkgEntry.parsed) hrel none
        _ rfl (Prod.ext rfl hok)
      have hc := site_content hon hes hget
      have hdest : (cfg.env w pv).dest pf = storageFspath cfg.base e.file := by rw [← hx]; rfl
      rw [← hdest]
      cases hf : fs2.isFile ((cfg.env w pv).dest pf) with
      | false =>
        obtain ⟨b, hb1, hb2⟩ := s1 pf hpf hf
        rw [hc.2] at hb1
        cases hb1
        rw [hx] at hb2
        exact hb2
      | true =>
        refine (s2 pf hpf hf).trans ?_
        unfold FS.isFile at hf
        split at hf
        · rename_i b hb
          rw [hb]
          have hb' := hb
          rw [hdest] at hb'
          rw [hg2.file _ _ (hx ▸ hc.1) hb']
        · simp at hf

theorem downloadProjects_spec (hon : cfg.On site served inflate) {w : RadsWorld} (hw : RadsWorldOk served w) (pvs : List ProjVer)
    (hpvs : ∀ pv ∈ pvs, pv.Plain) {fs : FS} (hg : GoodRads cfg.base site served cfg.exe fs) :
    Adds (RadsFile cfg.base site served cfg.exe) fs (cfg.downloadProjects w fs pvs).1 ∧
    ((cfg.downloadProjects w fs pvs).2 = .ok () → ∀ pv ∈ pvs, ∃ es, site.entries pv.name pv.version.s = some es ∧
      Extracted cfg.base site (cfg.downloadProjects w fs pvs).1 es ∧
      (∃ b, (cfg.downloadProjects w fs pvs).1 (storageFspath cfg.base pv.releaseManifest) = some (.file b)) ∧
      ∃ b, (cfg.downloadProjects w fs pvs).1 (storageFspath cfg.base pv.manifest) = some (.file b)) := by
  induction pvs generalizing fs with
  | nil => exact ⟨.refl _ _, by simp⟩
  | cons pv pvs ih =>
    obtain ⟨h1, h2⟩ := downloadProject_spec hon hw hg (hpvs pv (by simp))
    unfold RadsCfg.downloadProjects
    rcases hd : cfg.downloadProject w fs pv with ⟨fs1, _ | u⟩
    · rw [hd] at h1; exact ⟨h1, by simp⟩
    · rw [hd] at h1 h2
      have h2 := h2 rfl
      simp only at h1 h2 ⊢
      obtain ⟨h3, h4⟩ := ih (fun p hp => hpvs p (by simp [hp])) (adds_good hg h1)
      refine ⟨h1.trans h3, fun hok p hp => ?_⟩
      rcases List.mem_cons.1 hp with rfl | hp
      · obtain ⟨es, a1, a2, ⟨b, a3⟩, b', a4⟩ := h2
        exact ⟨es, a1, fun e he => h3.1 _ _ (a2 e he), ⟨b, h3.1 _ _ a3⟩, b', h3.1 _ _ a4⟩
      · exact h4 hok p hp

theorem projects_present {w : RadsWorld} (hw : RadsWorldOk served w) {fs : FS} {sv : SolVer} {langs : RadsLangs} {pvs : List ProjVer}
    (h : (cfg.projects w fs sv langs).2 = .ok pvs) : ∃ b, (cfg.projects w fs sv langs).1 (storageFspath cfg.base sv.manifest) = some (.file b) := by
  obtain ⟨-, h2, -⟩ := radsDownload_spec (cfg := cfg) hw fs sv.manifest sv.manifest
  unfold RadsCfg.projects RadsCfg.dependencies at h ⊢
  rcases hd : cfg.download w fs sv.manifest sv.manifest with ⟨fs', _ | u⟩
  · rw [hd] at h; simp at h
  · rw [hd] at h2 h
    simp only at h ⊢
    obtain ⟨b, hb⟩ := h2 rfl
    refine ⟨b, ?_⟩
    split
    · rename_i h'; simp only [Prod.mk.injEq] at h'; rw [← h'.1]; exact hb
    · rename_i h'; simp only [Prod.mk.injEq] at h'; rw [← h'.1]; exact hb

theorem downloadSolution_spec (hon : cfg.On site served inflate) {w : RadsWorld} (hw : RadsWorldOk served w) {fs : FS}
    (hg : GoodRads cfg.base site served cfg.exe fs) {sv : SolVer} (hsv : sv.Plain) (langs : RadsLangs) :
    Adds (RadsFile cfg.base site served cfg.exe) fs (cfg.downloadSolution w fs sv langs).1 ∧
    ((cfg.downloadSolution w fs sv langs).2 = .ok () → ∃ m, site.solution sv.name sv.version.s = some m ∧
      (∃ b, (cfg.downloadSolution w fs sv langs).1 (storageFspath cfg.base sv.manifest) = some (.file b)) ∧
      ∀ p, UsedBy m langs p → ∃ pv : ProjVer, pv.name = p ∧ m.versionOf p = some pv.version.s ∧ pv.Plain ∧ ∃ es, site.entries p pv.version.s = some es ∧
        Extracted cfg.base site (cfg.downloadSolution w fs sv langs).1 es ∧
        (∃ b, (cfg.downloadSolution w fs sv langs).1 (storageFspath cfg.base pv.releaseManifest) = some (.file b)) ∧
        ∃ b, (cfg.downloadSolution w fs sv langs).1 (storageFspath cfg.base pv.manifest) = some (.file b)) := by
  obtain ⟨h1, h2⟩ := projects_spec hon hw hg hsv langs
  have h0 := fun pvs h => projects_present (cfg := cfg) hw (fs := fs) (sv := sv) (langs := langs) (pvs := pvs) h
  unfold RadsCfg.downloadSolution
  rcases hp : cfg.projects w fs sv langs with ⟨fs1, _ | pvs⟩
  · rw [hp] at h1; exact ⟨h1, by simp⟩
  · rw [hp] at h1 h2 h0
    simp only at h1 h2 h0 ⊢
    obtain ⟨m, hm, h3, h4⟩ := h2 pvs rfl
    obtain ⟨mb, hmb⟩ := h0 pvs rfl
    obtain ⟨h5, h6⟩ := downloadProjects_spec hon hw pvs (fun pv hpv => (h3 pv hpv).1) (adds_good hg h1)
    refine ⟨h1.trans h5, fun hok => ⟨m, hm, ⟨mb, h5.1 _ _ hmb⟩, fun p hp => ?_⟩⟩
    obtain ⟨pv, hpv, rfl⟩ := h4 p hp
    exact ⟨pv, rfl, (h3 pv hpv).2.2.1, (h3 pv hpv).1, h6 hok pv hpv⟩

theorem filepathsLoop_spec (hon : cfg.On site served inflate) {w : RadsWorld} (hw : RadsWorldOk served w) (pvs : List ProjVer)
    (hpvs : ∀ pv ∈ pvs, pv.Plain) {fs : FS} (hg : GoodRads cfg.base site served cfg.exe fs) :
    Adds (RadsFile cfg.base site served cfg.exe) fs (cfg.filepathsLoop w fs pvs).1 ∧
    (∀ p ∈ (cfg.filepathsLoop w fs pvs).2.1, ∃ pv ∈ pvs, ∃ es, site.entries pv.name pv.version.s = some es ∧ ∃ e ∈ es, e.file = p) ∧
    ((cfg.filepathsLoop w fs pvs).2.2 = .ok () → ∀ pv ∈ pvs, ∃ es, site.entries pv.name pv.version.s = some es ∧
      ∀ e ∈ es, e.file ∈ (cfg.filepathsLoop w fs pvs).2.1) := by
  induction pvs generalizing fs with
  | nil => exact ⟨.refl _ _, by simp [RadsCfg.filepathsLoop], by simp⟩
  | cons pv pvs ih =>
    obtain ⟨h1, -, h2⟩ := entries_spec hon hw hg (hpvs pv (by simp))
    unfold RadsCfg.filepathsLoop
    rcases hd : cfg.entries w fs pv with ⟨fs1, _ | pfs⟩
    · rw [hd] at h1; exact ⟨h1, by simp, by simp⟩
    · rw [hd] at h1 h2
      simp only at h1 h2 ⊢
      obtain ⟨es, hes, rfl⟩ := h2 pfs rfl
      obtain ⟨h3, h4, h5⟩ := ih (fun p hp => hpvs p (by simp [hp])) (adds_good hg h1)
      have hk : ∀ p, p ∈ (packageFiles (es.map PkgEntry.parsed)).keys ↔ ∃ e ∈ es, e.file = p := by
        intro p
        unfold packageFiles
        rw [Dict.mem_keys_ofList]
        simp only [List.map_map, List.mem_map, Function.comp_def]
        exact Iff.rfl
      rcases hl : cfg.filepathsLoop w fs1 pvs with ⟨fs2, l, r⟩
      rw [hl] at h3 h4 h5
      simp only at h3 h4 h5 ⊢
      refine ⟨h1.trans h3, fun p hp => ?_, fun hok p hp => ?_⟩
      · rcases List.mem_append.1 hp with hp | hp
        · exact ⟨pv, by simp, es, hes, (hk p).1 hp⟩
        · obtain ⟨pv', a, b⟩ := h4 p hp
          exact ⟨pv', by simp [a], b⟩
      · rcases List.mem_cons.1 hp with rfl | hp
        · exact ⟨es, hes, fun e he => List.mem_append_left _ ((hk _).2 ⟨e, he, rfl⟩)⟩
        · obtain ⟨es', a, b⟩ := h5 hok p hp
          exact ⟨es', a, fun e he => List.mem_append_right _ (b e he)⟩

theorem filepaths_spec (hon : cfg.On site served inflate) {w : RadsWorld} (hw : RadsWorldOk served w) {fs : FS}
    (hg : GoodRads cfg.base site served cfg.exe fs) {sv : SolVer} (hsv : sv.Plain) (langs : RadsLangs) :
    Adds (RadsFile cfg.base site served cfg.exe) fs (cfg.filepaths w fs sv langs).1 ∧
    (∀ p ∈ (cfg.filepaths w fs sv langs).2.1, site.Lists sv.name sv.version.s langs p) ∧
    ((cfg.filepaths w fs sv langs).2.2 = .ok () → ∀ p, site.Lists sv.name sv.version.s langs p → p ∈ (cfg.filepaths w fs sv langs).2.1) := by
  obtain ⟨h1, h2⟩ := projects_spec hon hw hg hsv langs
  unfold RadsCfg.filepaths
  rcases hp : cfg.projects w fs sv langs with ⟨fs1, _ | pvs⟩
  · rw [hp] at h1; exact ⟨h1, by simp, by simp⟩
  · rw [hp] at h1 h2
    simp only at h1 h2 ⊢
    obtain ⟨m, hm, h3, h4⟩ := h2 pvs rfl
    obtain ⟨h5, h6, h7⟩ := filepathsLoop_spec hon hw pvs (fun pv hpv => (h3 pv hpv).1) (adds_good hg h1)
    refine ⟨h1.trans h5, fun p hp => ?_, fun hok p hp => ?_⟩
    · obtain ⟨pv, hpv, es, a, b⟩ := h6 p hp
      exact ⟨m, pv.name, pv.version.s, es, hm, (h3 pv hpv).2.1, (h3 pv hpv).2.2.1, a, b⟩
    · obtain ⟨m', n, v, es, a1, a2, a3, a4, e, he, rfl⟩ := hp
      rw [hm] at a1; cases a1
      obtain ⟨pv, hpv, rfl⟩ := h4 n a2
      rw [(h3 pv hpv).2.2.1] at a3; cases a3
      obtain ⟨es', b1, b2⟩ := h7 hok pv hpv
      rw [a4] at b1; cases b1
      exact b2 e he

/-! ## Manifests on the disk -/

theorem download_present {w : RadsWorld} {fs : FS} {url path : Str} {b : Bytes} (h : fs (storageFspath cfg.base path) = some (.file b)) :
    cfg.download w fs url path = (fs, .ok ()) := by
  unfold RadsCfg.download
  rw [C05_present cfg.base fs ⟨url, some path, false, w.get url, w.faults path⟩ rfl b h]

theorem dependencies_present {w : RadsWorld} {fs : FS} {sv : SolVer} {b : Bytes} (h : fs (storageFspath cfg.base sv.manifest) = some (.file b)) :
    cfg.dependencies w fs sv = (fs, do let text ← utf8 b; dependenciesOfText sv.name sv.version text) := by
  unfold RadsCfg.dependencies
  rw [download_present h]
  simp only [readText_file h]

theorem entries_offline {w : RadsWorld} {fs : FS} {pv : ProjVer} {b : Bytes} (h : fs (storageFspath cfg.base pv.manifest) = some (.file b)) :
    cfg.entries w fs pv = (fs, do let text ← utf8 b; parsePkgManifest text) := by
  unfold RadsCfg.entries
  rw [download_present h]
  simp only [readText_file h]

theorem projects_parse {w : RadsWorld} (hw : RadsWorldOk served w) {fs : FS} {sv : SolVer} {langs : RadsLangs} {pvs : List ProjVer}
    (h : (cfg.projects w fs sv langs).2 = .ok pvs) : ∃ b d ps, (cfg.projects w fs sv langs).1 (storageFspath cfg.base sv.manifest) = some (.file b) ∧
      (do let text ← utf8 b; dependenciesOfText sv.name sv.version text) = .ok d ∧ solutionProjects d langs = .ok ps ∧ pvs = w.arrange langs ps := by
  obtain ⟨-, h2, -⟩ := radsDownload_spec (cfg := cfg) hw fs sv.manifest sv.manifest
  unfold RadsCfg.projects RadsCfg.dependencies at h ⊢
  rcases hd : cfg.download w fs sv.manifest sv.manifest with ⟨fs', _ | u⟩
  · rw [hd] at h; simp at h
  · rw [hd] at h2 h
    obtain ⟨b, hb⟩ := h2 rfl
    simp only [readText_file hb] at h ⊢
    rcases hp : (do let text ← utf8 b; dependenciesOfText sv.name sv.version text) with _ | d
    · rw [hp] at h; simp at h
    · rw [hp] at h
      simp only at h
      cases hs : solutionProjects d langs with
      | error e => rw [hs] at h; simp [Except.map] at h
      | ok ps =>
        rw [hs] at h
        simp only [Except.map, Except.ok.injEq] at h
        refine ⟨b, d, ps, ?_, hp, hs, h.symm⟩
        rw [hp]
        exact hb

theorem arrange_mem {w : RadsWorld} (ho : ∀ l x, x ∈ w.order l ↔ x ∈ l) (langs : RadsLangs) (ps : List ProjVer) (x : ProjVer) :
    x ∈ w.arrange langs ps ↔ x ∈ ps := by
  unfold RadsWorld.arrange
  cases langs <;> simp only [ho]

/-- What there is on the disk once a solution version has been downloaded -/
theorem downloaded (hon : cfg.On site served inflate) {w : RadsWorld} (hw : RadsWorldOk served w) {fs fs' : FS}
    (hg : GoodRads cfg.base site served cfg.exe fs) {sv : SolVer} (hsv : sv.Plain) {langs : RadsLangs}
    (h : cfg.downloadSolution w fs sv langs = (fs', .ok ())) : ∃ ps, (∀ w' : RadsWorld, cfg.projects w' fs' sv langs = (fs', .ok (w'.arrange langs ps))) ∧
      (∀ pv ∈ ps, ∃ es, site.entries pv.name pv.version.s = some es ∧ Extracted cfg.base site fs' es ∧
        (∀ w' : RadsWorld, cfg.download w' fs' pv.releaseManifest pv.releaseManifest = (fs', .ok ())) ∧
        ∀ w' : RadsWorld, cfg.entries w' fs' pv = (fs', .ok (es.map PkgEntry.parsed))) ∧
      ∀ p, site.Lists sv.name sv.version.s langs p ↔ ∃ pv ∈ ps, ∃ es, site.entries pv.name pv.version.s = some es ∧ ∃ e ∈ es, e.file = p := by
  obtain ⟨h1, h2⟩ := projects_spec hon hw hg hsv langs
  have h0 := fun pvs h => projects_parse (cfg := cfg) hw (fs := fs) (sv := sv) (langs := langs) (pvs := pvs) h
  unfold RadsCfg.downloadSolution at h
  rcases hp : cfg.projects w fs sv langs with ⟨fs1, _ | pvs⟩
  · rw [hp] at h; simp at h
  · rw [hp] at h1 h2 h0 h
    simp only at h1 h2 h0 h
    obtain ⟨m, hm, h3, h4⟩ := h2 pvs rfl
    obtain ⟨b, d, ps, hb, hdep, hps, rfl⟩ := h0 pvs rfl
    have hg1 := adds_good hg h1
    obtain ⟨h5, h6⟩ := downloadProjects_spec hon hw _ (fun pv hpv => (h3 pv hpv).1) hg1
    rw [h] at h5 h6
    have h6 := h6 rfl
    simp only at h5 h6
    have hmem := arrange_mem hw.order langs ps
    refine ⟨ps, fun w' => ?_, fun pv hpv => ?_, fun p => ⟨?_, ?_⟩⟩
    · unfold RadsCfg.projects
      rw [dependencies_present (h5.1 _ _ hb), hdep]
      simp only [hps, Except.map]
    · obtain ⟨es, a1, a2, ⟨rb, a3⟩, b', a4⟩ := h6 pv ((hmem pv).2 hpv)
      refine ⟨es, a1, a2, fun w' => download_present a3, fun w' => ?_⟩
      obtain ⟨_, _, he⟩ := entries_spec hon (w := { get := fun _ => .error .value, stream := fun _ => .error .value })
        ⟨by simp, by simp, by simp, by simp, by simp, fun _ => by intro e; simp, by simp⟩ (adds_good hg1 h5) ((h3 pv ((hmem pv).2 hpv)).1)
      rw [entries_offline a4] at he
      rw [entries_offline a4]
      have hx : ∃ pfs, (do let text ← utf8 b'; parsePkgManifest text) = .ok pfs := by
        have hq := (adds_good hg1 h5).packages pv.name pv.version.s b' (h3 pv ((hmem pv).2 hpv)).1.1 (h3 pv ((hmem pv).2 hpv)).1.2 (by rw [← pmanifest_path]; exact a4)
        obtain ⟨b2, magic, g1, g2, g3⟩ := hon.serves.entries _ _ _ a1
        rw [hq] at g1
        cases g1
        exact ⟨_, parse_manifest g2 (fun e he => (hon.ok.entry _ _ _ a1 e he).1) g3⟩
      obtain ⟨pfs, hx⟩ := hx
      obtain ⟨es', c1, c2⟩ := he pfs hx
      rw [a1] at c1
      cases c1
      rw [hx, c2]
    · rintro ⟨m', n, v, es, a1, a2, a3, a4, a5⟩
      rw [hm] at a1; cases a1
      obtain ⟨pv, hpv, rfl⟩ := h4 n a2
      rw [(h3 pv hpv).2.2.1] at a3; cases a3
      exact ⟨pv, (hmem pv).1 hpv, es, a4, a5⟩
    · rintro ⟨pv, hpv, es, a, b⟩
      have := h3 pv ((hmem pv).2 hpv)
      exact ⟨m, pv.name, pv.version.s, es, hm, this.2.1, this.2.2.1, a, b⟩

theorem filepathsLoop_offline {w : RadsWorld} {fs : FS} (pvs : List ProjVer) (pfs : ProjVer → List PkgFile)
    (h : ∀ pv ∈ pvs, cfg.entries w fs pv = (fs, .ok (pfs pv))) :
    cfg.filepathsLoop w fs pvs = (fs, pvs.flatMap fun pv => (packageFiles (pfs pv)).keys, .ok ()) := by
  induction pvs with
  | nil => rfl
  | cons pv pvs ih =>
    unfold RadsCfg.filepathsLoop
    rw [h pv (by simp)]
    simp only
    rw [ih (fun x hx => h x (by simp [hx]))]
    rfl

theorem downloadProjects_offline {w : RadsWorld} {fs : FS} (pvs : List ProjVer) (h : ∀ pv ∈ pvs, cfg.downloadProject w fs pv = (fs, .ok ())) :
    cfg.downloadProjects w fs pvs = (fs, .ok ()) := by
  induction pvs with
  | nil => rfl
  | cons pv pvs ih =>
    unfold RadsCfg.downloadProjects
    rw [h pv (by simp)]
    exact ih (fun x hx => h x (by simp [hx]))

theorem downloadProject_offline {w : RadsWorld} {fs : FS} {pv : ProjVer} {es : List PkgEntry} (h1 : Extracted cfg.base site fs es)
    (h2 : cfg.download w fs pv.releaseManifest pv.releaseManifest = (fs, .ok ())) (h3 : cfg.entries w fs pv = (fs, .ok (es.map PkgEntry.parsed))) :
    cfg.downloadProject w fs pv = (fs, .ok ()) := by
  unfold RadsCfg.downloadProject
  rw [h2]
  simp only
  unfold RadsCfg.extractAll
  rw [h3]
  simp only [RadsEnv.extract, selectFiles, pure, Except.pure]
  have : (packageFiles (es.map PkgEntry.parsed)).values.filter (fun pf => !fs.isFile ((cfg.env w pv).dest pf)) = [] := by
    rw [List.filter_eq_nil_iff]
    intro pf hpf
    obtain ⟨⟨p, pf'⟩, hx, rfl⟩ := List.mem_map.1 hpf
    have hget := Dict.get?_of_mem (Dict.WF.ofList _) hx
    have hget' : (packageFiles (es.map PkgEntry.parsed)).get? p = some pf' := hget
    rw [C43_files] at hget'
    have hm := List.mem_of_find?_eq_some hget'
    rw [List.mem_reverse] at hm
    obtain ⟨e, he, rfl⟩ := List.mem_map.1 hm
    have hb := h1 e he
    have : fs.isFile ((cfg.env w pv).dest e.parsed) = true := by
      unfold FS.isFile
      have : (cfg.env w pv).dest e.parsed = storageFspath cfg.base e.file := rfl
      rw [this, hb]
    simp [this]
  rw [this]
  rfl

end

end Cdtb
