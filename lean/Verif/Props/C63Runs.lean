import Verif.Spec.RadsRuns
import Verif.Props.C63ex
import Verif.Props.C35
import Verif.Lemmas.ExportFiles
import Verif.Lemmas.Patcher
/-!
# C63, continued: when nothing fails downloads and patch versions succeed, whatever happened before
-/
namespace Cdtb
set_option autoImplicit false
open Py Spec

/-! ## What operations create -/

/-- Files at paths of `O`, in directories, are added, and directories above these paths. -/
structure GrowsIn (O : Str → Prop) (fs fs' : FS) : Prop where
  file : ∀ q b, fs' q = some (.file b) → (∃ b', fs q = some (.file b')) ∨ (O q ∧ (dirname q ≠ [] → fs' (dirname q) = some .dir))
  dir : ∀ q, fs' q = some .dir → fs q = some .dir ∨ ∃ o, O o ∧ q ∈ dirPrefixes (dirname o)
  keep : ∀ q, fs q = some .dir → fs' q = some .dir

theorem GrowsIn.refl (O : Str → Prop) (fs : FS) : GrowsIn O fs fs := ⟨fun _ b h => Or.inl ⟨b, h⟩, fun _ h => Or.inl h, fun _ h => h⟩

theorem GrowsIn.trans {O : Str → Prop} {a b c : FS} (h : GrowsIn O a b) (h' : GrowsIn O b c) : GrowsIn O a c where
  file q x hq := by
    rcases h'.file q x hq with ⟨y, hy⟩ | h1
    · rcases h.file q y hy with h2 | ⟨h2, h3⟩
      · exact Or.inl h2
      · exact Or.inr ⟨h2, fun hd => h'.keep _ (h3 hd)⟩
    · exact Or.inr h1
  dir q hq := by
    rcases h'.dir q hq with h1 | h1
    · exact h.dir q h1
    · exact Or.inr h1
  keep q hq := h'.keep q (h.keep q hq)

theorem GrowsIn.imp {O O' : Str → Prop} {a b : FS} (h : GrowsIn O a b) (ho : ∀ q, O q → O' q) : GrowsIn O' a b where
  file q x hq := (h.file q x hq).imp id fun h => ⟨ho q h.1, h.2⟩
  dir q hq := (h.dir q hq).imp id fun ⟨o, h1, h2⟩ => ⟨o, ho o h1, h2⟩
  keep := h.keep

theorem self_mem_prefixes {p : Str} (h : p ≠ []) : p ∈ dirPrefixes p := by
  simp only [dirPrefixes, List.mem_filter, List.mem_map, List.mem_range]
  have hl : 0 < (splitChar '/' p).length := by
    rcases hs : splitChar '/' p with _ | ⟨a, l⟩
    · have := join_splitChar '/' p
      rw [hs] at this
      exact absurd this.symm h
    · simp
  refine ⟨⟨(splitChar '/' p).length - 1, by omega, ?_⟩, by simpa using h⟩
  rw [show (splitChar '/' p).length - 1 + 1 = (splitChar '/' p).length by omega, List.take_length, join_splitChar]

theorem makedirs_keep {fs : FS} {p q : Str} {f : Option (Nat × Err)} (h : fs q = some .dir) : (fs.makedirs p f).1 q = some .dir := by
  rcases makedirs_dirsAdded fs p f q with h' | ⟨-, h', -⟩
  · rw [h']; exact h
  · rw [h] at h'; simp at h'

theorem writeTry_file {fs : FS} {path : Str} {body : List BodyStep} {f : WriteFaults} {b : Bytes} (h : (writeTry fs path body f).1 path = some (.file b)) :
    (∃ b', fs path = some (.file b')) ∨ (writeTry fs path body f).1 (dirname path) = some .dir := by
  unfold writeTry at h ⊢
  have h0 := makedirs_dirsAdded fs (dirname path) f.makedirs path
  have h1 : (fs.makedirs (dirname path) f.makedirs).2 = .ok () → (fs.makedirs (dirname path) f.makedirs).1 (dirname path) = some .dir := by
    intro hok
    unfold FS.makedirs at hok ⊢
    split at hok
    · simp at hok
    · rename_i hne
      rw [if_neg hne]
      exact (makedirsGo_ok _ _ _ hok).1 _ (self_mem_prefixes (by simpa using hne))
  have back : (fs.makedirs (dirname path) f.makedirs).1 path = some (.file b) → ∃ b', fs path = some (.file b') := by
    intro hb
    rcases h0 with h' | ⟨-, -, h'⟩
    · exact ⟨b, h' ▸ hb⟩
    · rw [h'] at hb; simp at hb
  rcases hm : fs.makedirs (dirname path) f.makedirs with ⟨fs1, _ | u⟩
  · rw [hm] at h back; exact Or.inl (back h)
  · rw [hm] at h back h1
    simp only at h back h1 ⊢
    cases ho : f.open_ with
    | some e => rw [ho] at h; exact Or.inl (back h)
    | none =>
      rw [ho] at h
      simp only at h ⊢
      split
      · rename_i hd; rw [if_pos hd] at h; exact Or.inl (back h)
      · rename_i hd
        right
        have hne : dirname path ≠ path := fun he => hd (by rw [he] at h1; exact h1 trivial)
        simp only
        rw [FS.set_other _ hne]
        exact h1 trivial

theorem writeTry_keep {fs : FS} {path : Str} {body : List BodyStep} {f : WriteFaults} {q : Str} (h : fs q = some .dir) :
    (writeTry fs path body f).1 q = some .dir := by
  unfold writeTry
  have h1 := makedirs_keep (p := dirname path) (f := f.makedirs) h
  rcases hm : fs.makedirs (dirname path) f.makedirs with ⟨fs1, _ | u⟩
  · rw [hm] at h1; exact h1
  · rw [hm] at h1
    simp only at h1 ⊢
    cases ho : f.open_ with
    | some e => exact h1
    | none =>
      simp only
      split
      · exact h1
      · rename_i hd
        simp only
        rw [FS.set_other _ (by rintro rfl; exact hd h1)]
        exact h1

theorem remove_keep {fs : FS} {p q : Str} {b : Bool} (h : fs q = some .dir) : fs.remove p b q = some .dir := by
  unfold FS.remove
  split
  · exact h
  · cases hp : fs p with
    | none => exact h
    | some n =>
      cases n with
      | dir => exact h
      | file x =>
        simp only
        rw [FS.set_other _ (by rintro rfl; rw [h] at hp; simp at hp)]
        exact h

theorem grows_write (fs : FS) (path : Str) (body : List BodyStep) (f : WriteFaults) : GrowsIn (· = path) fs (writeFileOrRemove fs path body f).1 where
  file q b hq := by
    by_cases hp : q = path
    · subst hp
      unfold writeFileOrRemove at hq ⊢
      rcases hw : writeTry fs q body f with ⟨fs1, r⟩
      have h1 := fun b => writeTry_file (fs := fs) (path := q) (body := body) (f := f) (b := b)
      rw [hw] at hq h1
      cases r with
      | ok u => exact (h1 b hq).imp id fun h => ⟨rfl, fun _ => h⟩
      | error e =>
        simp only at hq ⊢
        have : ∃ x, fs1 q = some (.file x) := by
          unfold FS.remove at hq
          split at hq
          · exact ⟨b, hq⟩
          · cases hx : fs1 q with
            | none => rw [hx] at hq; simp [hx] at hq
            | some n =>
              cases n with
              | dir => rw [hx] at hq; simp [hx] at hq
              | file x => exact ⟨x, rfl⟩
        obtain ⟨x, hx⟩ := this
        exact (h1 x hx).imp id fun h => ⟨trivial, fun _ => remove_keep h⟩
    · exact Or.inl ⟨b, ((C04_frame fs path body f q hp).1 b).1 hq⟩
  dir q hq := (writeFileOrRemove_dir hq).imp id fun h => ⟨path, rfl, h⟩
  keep q hq := by
    unfold writeFileOrRemove
    have h1 := writeTry_keep (path := path) (body := body) (f := f) hq
    rcases hw : writeTry fs path body f with ⟨fs1, _ | u⟩
    · rw [hw] at h1; exact remove_keep h1
    · rw [hw] at h1; exact h1

theorem grows_open (fs : FS) (path : Str) (body : List BodyStep) (f : WriteFaults) : GrowsIn (· = path) fs (openAndWrite fs path body f).1 := by
  unfold openAndWrite
  cases f.open_ with
  | some e => exact .refl _ _
  | none =>
    simp only
    split
    · exact .refl _ _
    · rename_i hd
      simp only [ne_eq, not_not] at hd
      split
      · exact .refl _ _
      · rename_i hn
        have keep : ∀ q, fs q = some .dir → (fs.set path (some (.file (closeFile f (writeBody f 0 [] body)).1))) q = some .dir := by
          intro q hq
          rw [FS.set_other _ (by rintro rfl; exact hn hq)]
          exact hq
        refine ⟨fun q b hq => ?_, fun q hq => ?_, keep⟩
        · by_cases hp : q = path
          · subst hp; exact Or.inr ⟨rfl, fun _ => keep _ hd⟩
          · simp only at hq; rw [FS.set_other _ hp] at hq; exact Or.inl ⟨b, hq⟩
        · by_cases hp : q = path
          · subst hp; simp at hq
          · simp only at hq; rw [FS.set_other _ hp] at hq; exact Or.inl hq

section
variable {cfg : RadsCfg} {site : RadsSite} {served : Str → Option Bytes} {inflate : Bytes → Res Bytes}

theorem grows_download (w : RadsWorld) (fs : FS) (url path : Str) :
    GrowsIn (fun q => q = storageFspath cfg.base path ∧ ∃ b, w.get url = .ok b) fs (cfg.download w fs url path).1 := by
  unfold RadsCfg.download Cdtb.download
  simp only
  split
  · exact .refl _ _
  · cases hg : w.get url with
    | error e => exact .refl _ _
    | ok b => exact (grows_write _ _ _ _).imp fun q hq => ⟨hq, b, rfl⟩

theorem grows_extractFiles (env : RadsEnv) (r : StreamReader) (fs : FS) (pfs : List PkgFile) :
    GrowsIn (fun q => ∃ pf ∈ pfs, q = env.dest pf) fs (env.extractFiles r fs pfs).1 := by
  induction pfs generalizing r fs with
  | nil => exact .refl _ _
  | cons pf pfs ih =>
    rw [RadsEnv.extractFiles]
    rcases r.skipTo pf.offset.toNat with ⟨_ | u, r'⟩
    · exact .refl _ _
    · simp only
      have h1 := (grows_write fs (env.dest pf) (pkgBody env.z pf.compressed (r'.copy pf.size.toNat).1 (r'.copy pf.size.toNat).2.1.err?)
        (env.faults pf.extractPath)).imp (O' := fun q => ∃ x ∈ pf :: pfs, q = env.dest x) fun q hq => ⟨pf, by simp, hq⟩
      split
      · rename_i fs' e hw; rw [hw] at h1; exact h1
      · rename_i fs' hw
        rw [hw] at h1
        exact h1.trans ((ih _ fs').imp fun q ⟨x, hx, hq⟩ => ⟨x, by simp [hx], hq⟩)

theorem grows_extractPackages (env : RadsEnv) (fs : FS) (groups : List (Str × List PkgFile)) :
    GrowsIn (fun q => ∃ g ∈ groups, ∃ pf ∈ g.2, q = env.dest pf) fs (env.extractPackages fs groups).1 := by
  induction groups generalizing fs with
  | nil => exact .refl _ _
  | cons g groups ih =>
    obtain ⟨p, pfs⟩ := g
    rw [RadsEnv.extractPackages]
    cases env.stream (env.projectPath ++ "/packages/files/".toList ++ p) with
    | error e => exact .refl _ _
    | ok chunks =>
      simp only
      have h1 := (grows_extractFiles env (.init chunks) fs (sortByOffset pfs)).imp (O' := fun q => ∃ g ∈ (p, pfs) :: groups, ∃ pf ∈ g.2, q = env.dest pf)
        fun q ⟨x, hx, hq⟩ => ⟨(p, pfs), by simp, x, (List.perm_insertionSort _ pfs).mem_iff.1 hx, hq⟩
      split
      · rename_i fs' e hw; rw [hw] at h1; exact h1
      · rename_i fs' hw
        rw [hw] at h1
        exact h1.trans ((ih fs').imp fun q ⟨g, hg, h⟩ => ⟨g, by simp [hg], h⟩)

theorem grows_extract (env : RadsEnv) (fs : FS) (pfs : List PkgFile) (paths : Option (List Str)) :
    GrowsIn (fun q => ∃ pf ∈ pfs, q = env.dest pf) fs (env.extract fs pfs paths).1 := by
  unfold RadsEnv.extract
  cases hs : selectFiles (packageFiles pfs) paths with
  | error e => exact .refl _ _
  | ok files =>
    refine (grows_extractPackages env fs _).imp ?_
    rintro q ⟨⟨p, l⟩, hg, pf, hpf, rfl⟩
    obtain ⟨rfl, -⟩ := (groupPackages_mem _ p l).1 hg
    exact ⟨pf, (selectFiles_mem hs pf (List.mem_filter.1 (List.mem_filter.1 hpf).1).1).1, rfl⟩

/-- Paths on disk which a client may write -/
def Spec.RadsSite.Outputs (site : RadsSite) (served : Str → Option Bytes) (base q : Str) : Prop := ∃ p, site.Writes served p ∧ q = storageFspath base p

theorem grows_dependencies (hon : cfg.On site served inflate) {w : RadsWorld} (hw : RadsWorldOk served w) (fs : FS) {sv : SolVer} (hsv : sv.Plain) :
    GrowsIn (site.Outputs served cfg.base) fs (cfg.dependencies w fs sv).1 := by
  have h1 := (grows_download (cfg := cfg) w fs sv.manifest sv.manifest).imp (O' := site.Outputs served cfg.base) (by
    rintro q ⟨rfl, b, hb⟩
    have hs := hw.get _ _ hb
    rw [manifest_path] at hs ⊢
    cases hm : site.solution sv.name sv.version.s with
    | none => rw [hon.serves.noSolution _ _ hsv.1 hsv.2 hm] at hs; simp at hs
    | some m => exact ⟨_, .solution hsv.1 hsv.2 hm, rfl⟩)
  unfold RadsCfg.dependencies
  rcases hd : cfg.download w fs sv.manifest sv.manifest with ⟨fs', _ | u⟩ <;> (rw [hd] at h1; exact h1)

theorem grows_projects (hon : cfg.On site served inflate) {w : RadsWorld} (hw : RadsWorldOk served w) (fs : FS) {sv : SolVer} (hsv : sv.Plain) (langs : RadsLangs) :
    GrowsIn (site.Outputs served cfg.base) fs (cfg.projects w fs sv langs).1 := by
  have h1 := grows_dependencies hon hw fs hsv
  unfold RadsCfg.projects
  rcases hd : cfg.dependencies w fs sv with ⟨fs', _ | u⟩ <;> (rw [hd] at h1; exact h1)

theorem grows_entries (hon : cfg.On site served inflate) {w : RadsWorld} (hw : RadsWorldOk served w) (fs : FS) {pv : ProjVer} (hpv : pv.Plain) :
    GrowsIn (site.Outputs served cfg.base) fs (cfg.entries w fs pv).1 := by
  have h1 := (grows_download (cfg := cfg) w fs pv.manifestUrl pv.manifest).imp (O' := site.Outputs served cfg.base) (by
    rintro q ⟨rfl, b, hb⟩
    have hs := hw.get _ _ hb
    rw [pmanifest_url] at hs
    rw [pmanifest_path]
    cases hm : site.entries pv.name pv.version.s with
    | none => rw [hon.serves.noEntries _ _ hpv.1 hpv.2 hm] at hs; simp at hs
    | some m => exact ⟨_, .packages hpv.1 hpv.2 hm, rfl⟩)
  unfold RadsCfg.entries
  rcases hd : cfg.download w fs pv.manifestUrl pv.manifest with ⟨fs', _ | u⟩ <;> (rw [hd] at h1; exact h1)

theorem grows_extracted (w : RadsWorld) (fs : FS) {pv : ProjVer} {es : List PkgEntry}
    (hes : site.entries pv.name pv.version.s = some es) (paths : Option (List Str)) :
    GrowsIn (site.Outputs served cfg.base) fs ((cfg.env w pv).extract fs (es.map PkgEntry.parsed) paths).1 := by
  refine (grows_extract _ _ _ _).imp ?_
  rintro q ⟨pf, hpf, rfl⟩
  obtain ⟨e, he, rfl⟩ := List.mem_map.1 hpf
  exact ⟨e.file, .file ⟨_, _, es, hes, e, he, rfl⟩, rfl⟩

theorem grows_downloadProject (hon : cfg.On site served inflate) {w : RadsWorld} (hw : RadsWorldOk served w) {fs : FS}
    (hg : GoodRads cfg.base site served cfg.exe fs) {pv : ProjVer} (hpv : pv.Plain) :
    GrowsIn (site.Outputs served cfg.base) fs (cfg.downloadProject w fs pv).1 := by
  obtain ⟨a1, -, -⟩ := radsDownload_spec (cfg := cfg) hw fs pv.releaseManifest pv.releaseManifest
  have ha : Adds (RadsFile cfg.base site served cfg.exe) fs (cfg.download w fs pv.releaseManifest pv.releaseManifest).1 := by
    refine a1.imp ?_
    rintro q b ⟨rfl, hb⟩
    rw [rmanifest_path] at hb ⊢
    exact .release hpv.1 hpv.2 hb
  have h1 := (grows_download (cfg := cfg) w fs pv.releaseManifest pv.releaseManifest).imp (O' := site.Outputs served cfg.base) (by
    rintro q ⟨rfl, b, hb⟩
    have hs := hw.get _ _ hb
    rw [rmanifest_path] at hs ⊢
    exact ⟨_, .release hpv.1 hpv.2 hs, rfl⟩)
  unfold RadsCfg.downloadProject
  rcases hd : cfg.download w fs pv.releaseManifest pv.releaseManifest with ⟨fs1, _ | u⟩
  · rw [hd] at h1; exact h1
  · rw [hd] at h1 ha
    simp only at h1 ha ⊢
    have h2 := grows_entries hon hw fs1 hpv
    obtain ⟨-, -, h5⟩ := entries_spec hon hw (adds_good hg ha) hpv
    unfold RadsCfg.extractAll
    rcases he : cfg.entries w fs1 pv with ⟨fs2, _ | pfs⟩
    · rw [he] at h2; exact h1.trans h2
    · rw [he] at h2 h5
      obtain ⟨es, hes, rfl⟩ := h5 pfs rfl
      exact (h1.trans h2).trans (grows_extracted w fs2 hes none)

theorem grows_downloadProjects (hon : cfg.On site served inflate) {w : RadsWorld} (hw : RadsWorldOk served w) (pvs : List ProjVer)
    (hpvs : ∀ pv ∈ pvs, pv.Plain) {fs : FS} (hg : GoodRads cfg.base site served cfg.exe fs) :
    GrowsIn (site.Outputs served cfg.base) fs (cfg.downloadProjects w fs pvs).1 := by
  induction pvs generalizing fs with
  | nil => exact .refl _ _
  | cons pv pvs ih =>
    have h1 := grows_downloadProject hon hw hg (hpvs pv (by simp))
    have h2 := (downloadProject_spec hon hw hg (hpvs pv (by simp))).1
    unfold RadsCfg.downloadProjects
    rcases hd : cfg.downloadProject w fs pv with ⟨fs1, _ | u⟩
    · rw [hd] at h1; exact h1
    · rw [hd] at h1 h2
      exact h1.trans (ih (fun p hp => hpvs p (by simp [hp])) (adds_good hg h2))

theorem grows_downloadSolution (hon : cfg.On site served inflate) {w : RadsWorld} (hw : RadsWorldOk served w) {fs : FS}
    (hg : GoodRads cfg.base site served cfg.exe fs) {sv : SolVer} (hsv : sv.Plain) (langs : RadsLangs) :
    GrowsIn (site.Outputs served cfg.base) fs (cfg.downloadSolution w fs sv langs).1 := by
  have h0 := grows_projects hon hw fs hsv langs
  obtain ⟨h1, h2⟩ := projects_spec hon hw hg hsv langs
  unfold RadsCfg.downloadSolution
  rcases hp : cfg.projects w fs sv langs with ⟨fs1, _ | pvs⟩
  · rw [hp] at h0; exact h0
  · rw [hp] at h0 h1 h2
    obtain ⟨m, -, h3, -⟩ := h2 pvs rfl
    exact h0.trans (grows_downloadProjects hon hw pvs (fun pv hpv => (h3 pv hpv).1) (adds_good hg h1))

theorem grows_filepathsLoop (hon : cfg.On site served inflate) {w : RadsWorld} (hw : RadsWorldOk served w) (pvs : List ProjVer)
    (hpvs : ∀ pv ∈ pvs, pv.Plain) (fs : FS) : GrowsIn (site.Outputs served cfg.base) fs (cfg.filepathsLoop w fs pvs).1 := by
  induction pvs generalizing fs with
  | nil => exact .refl _ _
  | cons pv pvs ih =>
    have h1 := grows_entries hon hw fs (hpvs pv (by simp))
    unfold RadsCfg.filepathsLoop
    rcases hd : cfg.entries w fs pv with ⟨fs1, _ | u⟩
    · rw [hd] at h1; exact h1
    · rw [hd] at h1
      exact h1.trans (ih (fun p hp => hpvs p (by simp [hp])) fs1)

theorem grows_filepaths (hon : cfg.On site served inflate) {w : RadsWorld} (hw : RadsWorldOk served w) {fs : FS}
    (hg : GoodRads cfg.base site served cfg.exe fs) {sv : SolVer} (hsv : sv.Plain) (langs : RadsLangs) :
    GrowsIn (site.Outputs served cfg.base) fs (cfg.filepaths w fs sv langs).1 := by
  have h0 := grows_projects hon hw fs hsv langs
  obtain ⟨-, h2⟩ := projects_spec hon hw hg hsv langs
  unfold RadsCfg.filepaths
  rcases hp : cfg.projects w fs sv langs with ⟨fs1, _ | pvs⟩
  · rw [hp] at h0; exact h0
  · rw [hp] at h0 h2
    obtain ⟨m, -, h3, -⟩ := h2 pvs rfl
    exact h0.trans (grows_filepathsLoop hon hw pvs (fun pv hpv => (h3 pv hpv).1) fs1)

theorem grows_retrieve (hon : cfg.On site served inflate) {w : RadsWorld} (hw : RadsWorldOk served w) {fs : FS}
    (hg : GoodRads cfg.base site served cfg.exe fs) {sv : SolVer} (hsv : sv.Plain) :
    GrowsIn (site.Outputs served cfg.base) fs (cfg.retrieveVersion w fs sv).1 := by
  unfold RadsCfg.retrieveVersion
  cases hret : cfg.retriever sv.name with
  | error e => exact .refl _ _
  | ok x =>
    obtain ⟨project, file, ext⟩ := x
    have h0 := grows_projects hon hw fs hsv .none_
    obtain ⟨h1, h2⟩ := projects_spec hon hw hg hsv .none_
    simp only
    rcases hp : cfg.projects w fs sv .none_ with ⟨fs1, _ | pvs⟩
    · rw [hp] at h0; exact h0
    · rw [hp] at h0 h1 h2
      simp only at h0 h1 h2 ⊢
      have hg1 := adds_good hg h1
      obtain ⟨m, hm, hpvs, -⟩ := h2 pvs rfl
      unfold RadsCfg.versionFromProjects
      cases hfind : pvs.find? fun pv => pv.name = project with
      | none => exact h0
      | some pv =>
        obtain ⟨hplain, -, -, -⟩ := hpvs pv (List.mem_of_find?_eq_some hfind)
        simp only
        unfold RadsCfg.versionFromProject
        have h3 := grows_entries hon hw fs1 hplain
        obtain ⟨-, -, h5⟩ := entries_spec hon hw hg1 hplain
        rcases he : cfg.entries w fs1 pv with ⟨fs2, e | pfs⟩
        · rw [he] at h3; exact h0.trans h3
        · rw [he] at h3 h5
          obtain ⟨es, hes, rfl⟩ := h5 pfs rfl
          refine (h0.trans h3).trans ?_
          simp only
          unfold RadsCfg.versionFromEntries
          split
          · exact .refl _ _
          · rename_i path _
            have h4 : GrowsIn (site.Outputs served cfg.base) fs2 (cfg.extractOne w fs2 pv (es.map PkgEntry.parsed) path).1 := by
              unfold RadsCfg.extractOne
              split
              · exact .refl _ _
              · exact grows_extracted w fs2 hes _
            rcases hx : cfg.extractOne w fs2 pv (es.map PkgEntry.parsed) path with ⟨fs3, _ | u⟩ <;> (rw [hx] at h4; exact h4)

theorem patch_solution {n v : Str} {exe : Bytes → Res (Option Str)} {t : Option Str} (h : site.Patch exe n v t) : ∃ m, site.solution n v = some m := by
  cases h with
  | gone _ h => exact ⟨_, h⟩
  | old _ h => exact ⟨_, h⟩
  | found _ h => exact ⟨_, h⟩

theorem grows_version (hon : cfg.On site served inflate) {w : RadsWorld} (hw : RadsWorldOk served w) {fs : FS}
    (hg : GoodRads cfg.base site served cfg.exe fs) {sv : SolVer} (hsv : sv.Plain) :
    GrowsIn (site.Outputs served cfg.base) fs (cfg.patchVersion w fs sv).1 := by
  have hst : GrowsIn (site.Outputs served cfg.base) fs (cfg.retrieveAndStore w fs sv).1 := by
    have h1 := grows_retrieve hon hw hg hsv
    have h2 := (retrieve_spec hon hw hg hsv).2
    unfold RadsCfg.retrieveAndStore
    rcases hr : cfg.retrieveVersion w fs sv with ⟨fs1, _ | r⟩
    · rw [hr] at h1; exact h1
    · rw [hr] at h1 h2
      refine h1.trans ?_
      cases r with
      | none => exact .refl _ _
      | some v =>
        obtain ⟨t, ht, -⟩ := h2 _ rfl
        obtain ⟨m, hm⟩ := patch_solution ht
        simp only [RadsCfg.storeVersion]
        have h3 := (grows_open fs1 (storageFspath cfg.base sv.cache) [.write (utf8Bytes (v.s ++ ['\n']))] (w.faults sv.cache)).imp
          (O' := site.Outputs served cfg.base) (by
            rintro q rfl
            rw [cache_path]
            exact ⟨_, .version hsv.1 hsv.2 hm, rfl⟩)
        rcases ho : openAndWrite fs1 (storageFspath cfg.base sv.cache) [.write (utf8Bytes (v.s ++ ['\n']))] (w.faults sv.cache) with ⟨fs', _ | u⟩ <;>
          (rw [ho] at h3; exact h3)
  unfold RadsCfg.patchVersion
  split
  · exact .refl _ _
  · split
    · exact .refl _ _
    · exact hst

theorem grows_op (hon : cfg.On site served inflate) {fs : FS} (hg : GoodRads cfg.base site served cfg.exe fs) {op : RadsOp} (hop : op.Legit served) :
    GrowsIn (site.Outputs served cfg.base) fs (op.run cfg fs) := by
  cases op with
  | download w sv langs => exact grows_downloadSolution hon hop.1 hg hop.2 langs
  | paths w sv langs => exact grows_filepaths hon hop.1 hg hop.2 langs
  | version w sv => exact grows_version hon hop.1 hg hop.2

theorem grows_ops (hon : cfg.On site served inflate) (ops : List RadsOp) (hops : ∀ op ∈ ops, op.Legit served) {fs : FS}
    (hg : GoodRads cfg.base site served cfg.exe fs) : GrowsIn (site.Outputs served cfg.base) fs (ops.foldl (RadsOp.run cfg) fs) := by
  induction ops generalizing fs with
  | nil => exact .refl _ _
  | cons op ops ih =>
    exact (grows_op hon hg (hops op (by simp))).trans (ih (fun o ho => hops o (by simp [ho])) (adds_good hg (op_adds hon hg (hops op (by simp)))))

/-! ## Nothing is in the way -/

theorem writes_shape (hok : site.Ok inflate) {p : Str} (h : site.Writes served p) :
    (∃ n v f, '/' ∉ n ∧ '/' ∉ v ∧ '/' ∉ f ∧ Named f ∧ p = solutionFile n v f) ∨
    (∃ n v f, '/' ∉ n ∧ '/' ∉ v ∧ '/' ∉ f ∧ Named f ∧ (∀ r, f ≠ "files".toList ++ r) ∧ p = projectFile n v f) ∨
    (site.Listed p ∧ ∃ n v r, '/' ∉ n ∧ '/' ∉ v ∧ p = projectFile n v ("files/".toList ++ r)) := by
  have l3 : ∀ r, "packagemanifest".toList ≠ "files".toList ++ r := by
    intro r hr
    have := congrArg List.head? hr
    revert this; simp
  have l4 : ∀ r, "releasemanifest".toList ≠ "files".toList ++ r := by
    intro r hr
    have := congrArg List.head? hr
    revert this; simp
  cases h with
  | solution hn hv _ => exact Or.inl ⟨_, _, _, hn, hv, by decide +kernel, ⟨"solutionmanifes".toList, 't', by decide +kernel, by decide⟩, rfl⟩
  | version hn hv _ => exact Or.inl ⟨_, _, _, hn, hv, by decide +kernel, ⟨"_patch_versio".toList, 'n', by decide +kernel, by decide⟩, rfl⟩
  | packages hn hv _ => exact Or.inr (Or.inl ⟨_, _, _, hn, hv, by decide +kernel, ⟨"packagemanifes".toList, 't', by decide +kernel, by decide⟩, l3, rfl⟩)
  | release hn hv _ => exact Or.inr (Or.inl ⟨_, _, _, hn, hv, by decide +kernel, ⟨"releasemanifes".toList, 't', by decide +kernel, by decide⟩, l4, rfl⟩)
  | file hl =>
    refine Or.inr (Or.inr ⟨hl, ?_⟩)
    obtain ⟨n, v, es, hes, e, he, rfl⟩ := hl
    exact filePath_eq.1 (hok.entry _ _ _ hes e he).2

theorem writes_root (hok : site.Ok inflate) (base : Str) {p : Str} (h : site.Writes served p) : storageFspath base p = rootPre base ++ p := by
  rcases writes_shape hok h with ⟨n, v, f, -, -, -, -, rfl⟩ | ⟨n, v, f, -, -, -, -, -, rfl⟩ | ⟨-, n, v, r, -, -, rfl⟩
  · exact rooted_solution _ _ _ _
  · exact rooted_project _ _ _ _
  · exact rooted_project _ _ _ _

theorem writes_dirname (hok : site.Ok inflate) (base : Str) {p : Str} (h : site.Writes served p) : dirname (storageFspath base p) ≠ [] := by
  rw [writes_root hok base h]
  have key : ∀ (c : Char) (n v f : Str) (x : Str), c ≠ '/' →
      dirname (rootPre base ++ c :: (x ++ (n ++ '/' :: ("releases".toList ++ '/' :: (v ++ '/' :: f))))) ≠ [] := by
    intro c n v f x hc
    have : rootPre base ++ c :: (x ++ (n ++ '/' :: ("releases".toList ++ '/' :: (v ++ '/' :: f)))) =
        (rootPre base ++ c :: (x ++ n)) ++ '/' :: ("releases".toList ++ '/' :: (v ++ '/' :: f)) := by simp
    rw [this]
    exact dirname_ne_nil ⟨c, by simp, hc⟩
  rcases writes_shape hok h with ⟨n, v, f, -, -, -, -, rfl⟩ | ⟨n, v, f, -, -, -, -, -, rfl⟩ | ⟨-, n, v, r, -, -, rfl⟩
  · rw [solutionFile_eq]; exact key _ _ _ _ _ (by decide)
  · rw [projectFile_eq]; exact key _ _ _ _ _ (by decide)
  · rw [projectFile_eq]; exact key _ _ _ _ _ (by decide)

theorem solutionFile_append (n v f r : Str) : solutionFile n v (f ++ r) = solutionFile n v f ++ r := by
  unfold solutionFile
  generalize "solutions/".toList = a
  generalize "/releases/".toList = b
  simp

theorem projectFile_append (n v f r : Str) : projectFile n v (f ++ r) = projectFile n v f ++ r := by
  unfold projectFile
  generalize "projects/".toList = a
  generalize "/releases/".toList = b
  simp

theorem writes_basename (hok : site.Ok inflate) (hap : site.Apart) (base : Str) {p : Str} (h : site.Writes served p) : basename (storageFspath base p) ≠ [] := by
  rw [writes_root hok base h]
  apply Spec.Named.basename
  rcases writes_shape hok h with ⟨n, v, f, -, -, -, ⟨q, c, rfl, hc⟩, rfl⟩ | ⟨n, v, f, -, -, -, ⟨q, c, rfl, hc⟩, -, rfl⟩ | ⟨hl, n, v, r, -, -, hp⟩
  · exact ⟨rootPre base ++ solutionFile n v q, c, by rw [solutionFile_append, List.append_assoc], hc⟩
  · exact ⟨rootPre base ++ projectFile n v q, c, by rw [projectFile_append, List.append_assoc], hc⟩
  · rcases List.eq_nil_or_concat p with rfl | ⟨q, c, rfl⟩
    · rw [projectFile_eq] at hp; simp at hp
    · refine ⟨rootPre base ++ q, c, by simp, ?_⟩
      rintro rfl
      exact hap.named _ hl ⟨q, by simp⟩

theorem writes_apart (hok : site.Ok inflate) (hap : site.Apart) (base : Str) {p q : Str} (h : site.Writes served p) (h' : site.Writes served q) :
    storageFspath base p ∉ dirPrefixes (dirname (storageFspath base q)) := by
  intro hm
  have hd := dirPrefixes_dirOf hm
  rw [writes_root hok base h, writes_root hok base h'] at hd
  have hs : ∀ n v f r, solutionFile n v f ++ '/' :: r = solutionFile n v (f ++ '/' :: r) := fun n v f r => (solutionFile_append n v f _).symm
  have hp : ∀ n v f r, projectFile n v f ++ '/' :: r = projectFile n v (f ++ '/' :: r) := fun n v f r => (projectFile_append n v f _).symm
  rcases hd with hd | ⟨r, hr⟩
  · have : ∃ c ∈ p, c ≠ '/' := by
      rcases writes_shape hok h with ⟨n, v, f, -, -, -, -, rfl⟩ | ⟨n, v, f, -, -, -, -, -, rfl⟩ | ⟨-, n, v, r, -, -, rfl⟩
      · exact ⟨'s', by rw [solutionFile_eq]; simp, by decide⟩
      · exact ⟨'p', by rw [projectFile_eq]; simp, by decide⟩
      · exact ⟨'p', by rw [projectFile_eq]; simp, by decide⟩
    obtain ⟨c, hc, hne⟩ := this
    exact hne (hd c (by simp [hc]))
  · rw [List.append_assoc] at hr
    have hr := root_inj hr
    rcases writes_shape hok h with ⟨n, v, f, hn, hv, hf, -, rfl⟩ | ⟨n, v, f, hn, hv, hf, -, hff, rfl⟩ | ⟨hl, n, v, x, hn, hv, hpx⟩
    · rw [hs] at hr
      rcases writes_shape hok h' with ⟨n', v', f', hn', hv', hf', -, rfl⟩ | ⟨n', v', f', hn', hv', hf', -, -, rfl⟩ | ⟨-, n', v', x', hn', hv', rfl⟩
      · have := (solutionFile_inj hn' hv' hn hv hr).2.2
        rw [this] at hf'; simp at hf'
      · exact solution_ne_project _ _ _ _ _ _ hr.symm
      · exact solution_ne_project _ _ _ _ _ _ hr.symm
    · rw [hp] at hr
      rcases writes_shape hok h' with ⟨n', v', f', hn', hv', hf', -, rfl⟩ | ⟨n', v', f', hn', hv', hf', -, -, rfl⟩ | ⟨-, n', v', x', hn', hv', rfl⟩
      · exact solution_ne_project _ _ _ _ _ _ hr
      · have := (projectFile_inj hn' hv' hn hv hr).2.2
        rw [this] at hf'; simp at hf'
      · have h1 := (projectFile_inj hn' hv' hn hv hr).2.2
        have h2 : "files/".toList = "files".toList ++ ['/'] := by decide +kernel
        rw [h2, List.append_assoc] at h1
        have h3 := noslash_split (by decide +kernel) hf h1
        exact hff [] (by simpa using h3.1.symm)
    · have hq : site.Listed q ∨ ∃ f, (∀ r, f ≠ "files".toList ++ r) ∧ ∃ n' v', '/' ∉ n' ∧ '/' ∉ v' ∧ q = projectFile n' v' f := by
        rcases writes_shape hok h' with ⟨n', v', f', hn', hv', hf', -, rfl⟩ | ⟨n', v', f', hn', hv', hf', -, hff', rfl⟩ | ⟨hl', -⟩
        · rw [hpx, hp] at hr; exact absurd hr (solution_ne_project _ _ _ _ _ _)
        · exact Or.inr ⟨f', hff', n', v', hn', hv', rfl⟩
        · exact Or.inl hl'
      rcases hq with hq | ⟨f', hff', n', v', hn', hv', rfl⟩
      · exact hap.apart p q hl hq ⟨r, hr⟩
      · rw [hpx, hp] at hr
        have h1 := (projectFile_inj hn' hv' hn hv hr).2.2
        have h2 : "files/".toList = "files".toList ++ ['/'] := by decide +kernel
        rw [h2] at h1
        exact hff' (['/'] ++ (x ++ '/' :: r)) (by rw [h1, List.append_assoc, List.append_assoc])

theorem clear_grows (hok : site.Ok inflate) (hap : site.Apart) {base : Str} {fs fs' : FS} (hc : ClearRads base site served fs)
    (h : GrowsIn (site.Outputs served base) fs fs') : ClearRads base site served fs' where
  dirs p hp d hd b hb := by
    rcases h.file d b hb with ⟨b', hb'⟩ | ⟨⟨q, hq, rfl⟩, -⟩
    · exact hc.dirs p hp d hd b' hb'
    · exact writes_apart hok hap base hq hp hd
  files p hp hd := by
    rcases h.dir _ hd with h1 | ⟨o, ⟨q, hq, rfl⟩, ho⟩
    · exact hc.files p hp h1
    · exact writes_apart hok hap base hp hq ho
  tree p hp b hb := by
    rcases h.file _ b hb with ⟨b', hb'⟩ | ⟨-, h1⟩
    · exact h.keep _ (hc.tree p hp b' hb')
    · exact h1 (writes_dirname hok base hp)

/-! ## When nothing fails -/

theorem Spec.PerfectRads.ok {w : RadsWorld} (h : PerfectRads served w) : RadsWorldOk served w where
  get p b hb := by
    rw [h.get] at hb
    split at hb
    · rename_i x hx; simp only [Except.ok.injEq] at hb; rw [← hb]; exact hx
    · simp at hb
  missing p hb := by
    rw [h.get] at hb
    split at hb
    · simp at hb
    · assumption
  stream p chunks hc := by
    cases hs : served p with
    | none => rw [h.missing p hs] at hc; simp at hc
    | some b =>
      obtain ⟨c, h1, h2⟩ := h.stream p b hs
      rw [h1] at hc
      cases hc
      exact ⟨b, rfl, by rw [h2]; exact List.prefix_refl b⟩
  order := h.order
  remove p := by rw [h.faults]
  disk p := by rw [h.faults]; intro e; simp
  cache n v := by rw [h.faults]; exact ⟨rfl, rfl⟩

theorem download_succeeds (hok : site.Ok inflate) (hap : site.Apart) {w : RadsWorld} (hp : PerfectRads served w) {fs : FS}
    (hc : ClearRads cfg.base site served fs) {url path : Str} (hw : site.Writes served path) {b : Bytes} (hs : served url = some b) :
    (cfg.download w fs url path).2 = .ok () := by
  unfold RadsCfg.download Cdtb.download
  simp only
  split
  · rfl
  · have hg : w.get url = .ok b := by rw [hp.get, hs]
    rw [hg]
    simp only [hp.faults]
    exact C04_no_fault fs (storageFspath cfg.base path) [b] (writes_dirname hok cfg.base hw) (hc.dirs path hw) (hc.files path hw)
      (writes_basename hok hap cfg.base hw)

theorem dependencies_succeeds (hon : cfg.On site served inflate) (hap : site.Apart) {w : RadsWorld} (hp : PerfectRads served w) {fs : FS}
    (hg : GoodRads cfg.base site served cfg.exe fs) (hc : ClearRads cfg.base site served fs) {sv : SolVer} (hsv : sv.Plain) {m : SolManifest}
    (hm : site.solution sv.name sv.version.s = some m) : ∃ d, (cfg.dependencies w fs sv).2 = .ok d ∧ DepsOf m d := by
  obtain ⟨b, h4, h5⟩ := hon.serves.solution _ _ _ hm
  have hd := download_succeeds (cfg := cfg) hon.ok hap hp hc (url := sv.manifest) (path := sv.manifest)
    (by rw [manifest_path]; exact .solution hsv.1 hsv.2 hm) (b := b) (by rw [manifest_path]; exact h4)
  obtain ⟨h1, h2, -⟩ := radsDownload_spec (cfg := cfg) hp.ok fs sv.manifest sv.manifest
  have ha : Adds (RadsFile cfg.base site served cfg.exe) fs (cfg.download w fs sv.manifest sv.manifest).1 := by
    refine h1.imp ?_
    rintro q b ⟨rfl, hb⟩
    rw [manifest_path] at hb ⊢
    exact .solution hsv.1 hsv.2 hb
  have hg' := adds_good hg ha
  obtain ⟨b', hb⟩ := h2 hd
  unfold RadsCfg.dependencies
  rcases hx : cfg.download w fs sv.manifest sv.manifest with ⟨fs', r⟩
  rw [hx] at hd hg' hb
  simp only at hd hg' hb
  subst hd
  have hb' := hb
  rw [manifest_path] at hb'
  have hs := hg'.solution _ _ _ hsv.1 hsv.2 hb'
  rw [h4] at hs
  cases hs
  obtain ⟨d, h6, h7⟩ := parse_solution hon.ok hm h5
  refine ⟨d, ?_, h7⟩
  simp only
  rw [readText_file hb]
  exact h6

theorem projects_succeeds (hon : cfg.On site served inflate) (hap : site.Apart) {w : RadsWorld} (hp : PerfectRads served w) {fs : FS}
    (hg : GoodRads cfg.base site served cfg.exe fs) (hc : ClearRads cfg.base site served fs) {sv : SolVer} (hsv : sv.Plain) {m : SolManifest}
    (hm : site.solution sv.name sv.version.s = some m) {langs : RadsLangs} (hl : KnownLangs m langs) :
    ∃ pvs, (cfg.projects w fs sv langs).2 = .ok pvs := by
  obtain ⟨d, h1, h2⟩ := dependencies_succeeds hon hap hp hg hc hsv hm
  have hlang : ∀ l, m.depsOf l ≠ none → ∃ ps, d.get? (some l) = some ps := by
    intro l hl
    obtain ⟨deps, hd⟩ := Option.ne_none_iff_exists'.1 hl
    have h3 := h2.langs l
    rw [hd] at h3
    obtain ⟨ps, h4, -⟩ := Option.map_eq_some_iff.1 h3
    exact ⟨ps, h4⟩
  have hget : ∀ {k : Option Str} {ps : List ProjVer}, d.get? k = some ps → d.get k = .ok ps := by
    intro k ps hk
    simp only [Dict.get, hk]
  obtain ⟨c1, c2, ⟨ps, c3, -⟩, c4, -, -⟩ := C42_projects d
  have : ∃ ps, solutionProjects d langs = .ok ps := by
    cases langs with
    | none_ =>
      obtain ⟨ps, h3, -⟩ := Option.map_eq_some_iff.1 h2.required
      exact ⟨ps, by rw [c1]; exact hget h3⟩
    | all => exact ⟨ps, c3⟩
    | one l =>
      obtain ⟨ps, h3⟩ := hlang l hl
      exact ⟨ps, by rw [c2]; exact hget h3⟩
    | some_ ls =>
      obtain ⟨ps, h3, -⟩ := c4 ls fun l hls => by
        obtain ⟨ps, h⟩ := hlang l (hl l hls)
        rw [h]; simp
      exact ⟨ps, h3⟩
  obtain ⟨ps, h3⟩ := this
  unfold RadsCfg.projects
  rcases hd : cfg.dependencies w fs sv with ⟨fs', r⟩
  rw [hd] at h1
  simp only at h1
  subst h1
  exact ⟨w.arrange langs ps, by simp only [h3, Except.map]⟩

theorem entries_succeeds (hon : cfg.On site served inflate) (hap : site.Apart) {w : RadsWorld} (hp : PerfectRads served w) {fs : FS}
    (hg : GoodRads cfg.base site served cfg.exe fs) (hc : ClearRads cfg.base site served fs) {pv : ProjVer} (hpv : pv.Plain) {es : List PkgEntry}
    (hes : site.entries pv.name pv.version.s = some es) : (cfg.entries w fs pv).2 = .ok (es.map PkgEntry.parsed) := by
  obtain ⟨b, magic, h4, h5, h6⟩ := hon.serves.entries _ _ _ hes
  have hd := download_succeeds (cfg := cfg) hon.ok hap hp hc (url := pv.manifestUrl) (path := pv.manifest)
    (by rw [pmanifest_path]; exact .packages hpv.1 hpv.2 hes) (b := b) (by rw [pmanifest_url]; exact h4)
  obtain ⟨h1, h2, -⟩ := radsDownload_spec (cfg := cfg) hp.ok fs pv.manifestUrl pv.manifest
  have ha : Adds (RadsFile cfg.base site served cfg.exe) fs (cfg.download w fs pv.manifestUrl pv.manifest).1 := by
    refine h1.imp ?_
    rintro q b ⟨rfl, hb⟩
    rw [pmanifest_url] at hb
    rw [pmanifest_path]
    exact .packages hpv.1 hpv.2 hb
  have hg' := adds_good hg ha
  obtain ⟨b', hb⟩ := h2 hd
  unfold RadsCfg.entries
  rcases hx : cfg.download w fs pv.manifestUrl pv.manifest with ⟨fs', r⟩
  rw [hx] at hd hg' hb
  simp only at hd hg' hb
  subst hd
  have hb' := hb
  rw [pmanifest_path] at hb'
  have hs := hg'.packages _ _ _ hpv.1 hpv.2 hb'
  rw [h4] at hs
  cases hs
  simp only
  rw [readText_file hb]
  exact parse_manifest h5 (fun e he => (hon.ok.entry _ _ _ hes e he).1) h6

theorem extract_succeeds (hon : cfg.On site served inflate) (hap : site.Apart) {w : RadsWorld} (hp : PerfectRads served w) {fs : FS}
    (hc : ClearRads cfg.base site served fs) {pv : ProjVer} {es : List PkgEntry}
    (hes : site.entries pv.name pv.version.s = some es) {paths : Option (List Str)} {files : List PkgFile}
    (hsel : selectFiles (packageFiles (es.map PkgEntry.parsed)) paths = .ok files)
    (hav : ∀ e, LastEntry es e → e.parsed ∈ files → site.Available served pv.name pv.version.s e)
    (hov : Spec.NoOverlap files) :
    ((cfg.env w pv).extract fs (es.map PkgEntry.parsed) paths).2 = .ok () := by
  have hlast : ∀ pf ∈ files, ∃ e, LastEntry es e ∧ e.parsed = pf ∧ site.Available served pv.name pv.version.s e ∧ e ∈ es := by
    intro pf hpf
    have h := (selectFiles_mem hsel pf hpf).2
    rw [C43_files] at h
    obtain ⟨e, hl, rfl⟩ := lastEntry_of h
    exact ⟨e, hl, rfl, hav e hl hpf, by obtain ⟨a, b, rfl, -⟩ := hl; simp⟩
  have hwr : ∀ pf ∈ files, site.Writes served pf.extractPath := by
    intro pf hpf
    obtain ⟨e, -, rfl, -, he⟩ := hlast pf hpf
    exact .file ⟨_, _, es, hes, e, he, rfl⟩
  rw [RadsEnv.extract, hsel]
  simp only
  apply extractPackages_complete (pkg := site.package pv.name pv.version.s) hon.inflate (fun p => hp.faults p) files
  · rintro ⟨p, l⟩ hgm pf hpf
    obtain ⟨rfl, _⟩ := (groupPackages_mem _ p l).1 hgm
    obtain ⟨m1, m2⟩ := List.mem_filter.1 hpf
    exact ⟨by simpa using m2, (List.mem_filter.1 m1).1⟩
  · rintro ⟨p, l⟩ hgm
    obtain ⟨rfl, hne⟩ := (groupPackages_mem _ p l).1 hgm
    obtain ⟨pf, hpf⟩ := List.exists_mem_of_ne_nil _ hne
    obtain ⟨m1, m2⟩ := List.mem_filter.1 hpf
    obtain ⟨e, -, rfl, ⟨⟨b, hb⟩, -⟩, -⟩ := hlast pf (List.mem_filter.1 m1).1
    have hpk : e.package = p := by
      have : e.parsed.package = p := by simpa using m2
      exact this
    rw [hpk] at hb
    rw [← hon.serves.package _ _ _ _ hb]
    rw [← package_url] at hb
    exact hp.stream _ b hb
  · intro pf hpf
    obtain ⟨e, -, rfl, ⟨-, h⟩, -⟩ := hlast pf hpf
    exact h
  · rintro ⟨p, l⟩ hgm
    obtain ⟨rfl, _⟩ := (groupPackages_mem _ p l).1 hgm
    rw [sortByOffset_pairwise_iff]
    · exact (pairwise_filter_package _ _).2 (List.Pairwise.filter _ hov) p
    · intro pf hpf
      obtain ⟨e, -, rfl, -⟩ := hlast pf (List.mem_filter.1 (List.mem_filter.1 hpf).1).1
      exact Int.natCast_nonneg _
  · intro pf hpf
    exact ⟨_, (site_content hon hes (selectFiles_mem hsel pf hpf).2).2⟩
  · exact ⟨fun pf hpf => hc.files _ (hwr pf hpf), fun pf hpf => hc.dirs _ (hwr pf hpf),
      fun a ha b hb => writes_apart hon.ok hap cfg.base (hwr a ha) (hwr b hb),
      fun pf hpf => ⟨writes_dirname hon.ok cfg.base (hwr pf hpf), writes_basename hon.ok hap cfg.base (hwr pf hpf)⟩⟩

theorem packageFiles_values {pfs : List PkgFile} : ((packageFiles pfs).values.map (·.extractPath)).Nodup := by
  have h : (packageFiles pfs).values.map (·.extractPath) = (packageFiles pfs).keys := by
    simp only [Dict.values, Dict.keys, List.map_map]
    refine List.map_congr_left ?_
    rintro ⟨p, pf⟩ hm
    have hg : (packageFiles pfs).get? p = some pf := Dict.get?_of_mem (Dict.WF.ofList _) hm
    rw [C43_files] at hg
    have := List.find?_some hg
    simpa using this
  rw [h]
  exact Dict.WF.ofList _

theorem complete_noOverlap {n v : Str} (h : site.Complete served n v) {es : List PkgEntry} (hes : site.entries n v = some es) :
    Spec.NoOverlap (packageFiles (es.map PkgEntry.parsed)).values := by
  have hnd := packageFiles_values (pfs := es.map PkgEntry.parsed)
  rw [List.Nodup, List.pairwise_map] at hnd
  refine hnd.imp_of_mem ?_
  intro a b ha hb hne hpk
  have hl : ∀ pf ∈ (packageFiles (es.map PkgEntry.parsed)).values, ∃ e, LastEntry es e ∧ e.parsed = pf := by
    intro pf hpf
    have h := (selectFiles_mem (paths := none) rfl pf hpf).2
    rw [C43_files] at h
    exact lastEntry_of h
  obtain ⟨e, h1, rfl⟩ := hl a ha
  obtain ⟨e', h1', rfl⟩ := hl b hb
  rcases h.parts es hes e e' h1 h1' hne hpk with h2 | h2
  · exact Or.inl h2.2
  · exact Or.inr ⟨h2.2, h2.1⟩

theorem downloadProject_succeeds (hon : cfg.On site served inflate) (hap : site.Apart) {w : RadsWorld} (hp : PerfectRads served w) {fs : FS}
    (hg : GoodRads cfg.base site served cfg.exe fs) (hc : ClearRads cfg.base site served fs) {pv : ProjVer} (hpv : pv.Plain)
    (h : site.Complete served pv.name pv.version.s) : (cfg.downloadProject w fs pv).2 = .ok () := by
  obtain ⟨es, hes⟩ := h.entries
  obtain ⟨b, hb⟩ := h.release
  have hd := download_succeeds (cfg := cfg) hon.ok hap hp hc (url := pv.releaseManifest) (path := pv.releaseManifest)
    (by rw [rmanifest_path]; exact .release hpv.1 hpv.2 hb) (b := b) (by rw [rmanifest_path]; exact hb)
  obtain ⟨a1, -, -⟩ := radsDownload_spec (cfg := cfg) hp.ok fs pv.releaseManifest pv.releaseManifest
  have ha : Adds (RadsFile cfg.base site served cfg.exe) fs (cfg.download w fs pv.releaseManifest pv.releaseManifest).1 := by
    refine a1.imp ?_
    rintro q b ⟨rfl, hb⟩
    rw [rmanifest_path] at hb ⊢
    exact .release hpv.1 hpv.2 hb
  have h1 := (grows_download (cfg := cfg) w fs pv.releaseManifest pv.releaseManifest).imp (O' := site.Outputs served cfg.base) (by
    rintro q ⟨rfl, x, hx⟩
    have hs := hp.ok.get _ _ hx
    rw [rmanifest_path] at hs ⊢
    exact ⟨_, .release hpv.1 hpv.2 hs, rfl⟩)
  unfold RadsCfg.downloadProject
  rcases hx : cfg.download w fs pv.releaseManifest pv.releaseManifest with ⟨fs1, r⟩
  rw [hx] at hd ha h1
  simp only at hd ha h1
  subst hd
  have hg1 := adds_good hg ha
  have hc1 := clear_grows hon.ok hap hc h1
  have h2 := entries_succeeds hon hap hp hg1 hc1 hpv hes
  have hc2 := clear_grows hon.ok hap hc1 (grows_entries hon hp.ok fs1 hpv)
  simp only
  unfold RadsCfg.extractAll
  rcases he : cfg.entries w fs1 pv with ⟨fs2, r⟩
  rw [he] at h2 hc2
  simp only at h2 hc2
  subst h2
  exact extract_succeeds hon hap hp hc2 hes rfl (fun e he _ => h.files es hes e he) (complete_noOverlap h hes)

theorem downloadProjects_succeeds (hon : cfg.On site served inflate) (hap : site.Apart) {w : RadsWorld} (hp : PerfectRads served w) (pvs : List ProjVer)
    (hpvs : ∀ pv ∈ pvs, pv.Plain ∧ site.Complete served pv.name pv.version.s) {fs : FS}
    (hg : GoodRads cfg.base site served cfg.exe fs) (hc : ClearRads cfg.base site served fs) : (cfg.downloadProjects w fs pvs).2 = .ok () := by
  induction pvs generalizing fs with
  | nil => rfl
  | cons pv pvs ih =>
    obtain ⟨hpl, hco⟩ := hpvs pv (by simp)
    have h1 := downloadProject_succeeds hon hap hp hg hc hpl hco
    have h2 := (downloadProject_spec hon hp.ok hg hpl).1
    have h3 := grows_downloadProject hon hp.ok hg hpl
    unfold RadsCfg.downloadProjects
    rcases hd : cfg.downloadProject w fs pv with ⟨fs1, r⟩
    rw [hd] at h1 h2 h3
    simp only at h1 h2 h3
    subst h1
    exact ih (fun p hp => hpvs p (by simp [hp])) (adds_good hg h2) (clear_grows hon.ok hap hc h3)

/-- After any operations, whether they failed or not, the download of a solution version succeeds when nothing fails, and its files are on the disk. -/
theorem C63_succeeds (hon : cfg.On site served inflate) (hap : site.Apart) (fs : FS) (hg : GoodRads cfg.base site served cfg.exe fs)
    (hc : ClearRads cfg.base site served fs) (ops : List RadsOp) (hops : ∀ op ∈ ops, op.Legit served)
    (w : RadsWorld) (hp : PerfectRads served w) (sv : SolVer) (hsv : sv.Plain) (langs : RadsLangs) (m : SolManifest)
    (hm : site.solution sv.name sv.version.s = some m) (hl : KnownLangs m langs)
    (hav : ∀ p v, UsedBy m langs p → m.versionOf p = some v → site.Complete served p v) :
    ∃ fs', cfg.downloadSolution w (ops.foldl (RadsOp.run cfg) fs) sv langs = (fs', .ok ()) ∧
      ∀ p, site.Lists sv.name sv.version.s langs p → fs' (storageFspath cfg.base p) = some (.file (site.file p)) := by
  have hg1 := (C63_history hon fs hg ops hops).2
  have hc1 := clear_grows hon.ok hap hc (grows_ops hon ops hops hg)
  have key : (cfg.downloadSolution w (ops.foldl (RadsOp.run cfg) fs) sv langs).2 = .ok () := by
    obtain ⟨pvs, h1⟩ := projects_succeeds hon hap hp hg1 hc1 hsv hm hl
    obtain ⟨h2, h3⟩ := projects_spec hon hp.ok hg1 hsv langs
    have h4 := grows_projects hon hp.ok (ops.foldl (RadsOp.run cfg) fs) hsv langs
    unfold RadsCfg.downloadSolution
    rcases hd : cfg.projects w (ops.foldl (RadsOp.run cfg) fs) sv langs with ⟨fs1, r⟩
    rw [hd] at h1 h2 h3 h4
    simp only at h1 h2 h3 h4
    subst h1
    obtain ⟨m', hm', h5, -⟩ := h3 pvs rfl
    rw [hm] at hm'
    cases hm'
    exact downloadProjects_succeeds hon hap hp pvs (fun pv hpv => ⟨(h5 pv hpv).1, hav _ _ (h5 pv hpv).2.1 (h5 pv hpv).2.2.1⟩)
      (adds_good hg1 h2) (clear_grows hon.ok hap hc1 h4)
  rcases hd : cfg.downloadSolution w (ops.foldl (RadsOp.run cfg) fs) sv langs with ⟨fs', r⟩
  rw [hd] at key
  simp only at key
  subst key
  exact ⟨fs', rfl, (C63_download hon fs hg ops hops w hp.ok sv hsv langs fs' hd).2⟩

/-! ## Patch versions -/

theorem project_found (hon : cfg.On site served inflate) (hap : site.Apart) {w : RadsWorld} (hp : PerfectRads served w) {fs : FS}
    (hg : GoodRads cfg.base site served cfg.exe fs) (hc : ClearRads cfg.base site served fs) {sv : SolVer} (hsv : sv.Plain) {m : SolManifest}
    (hm : site.solution sv.name sv.version.s = some m) {project pversion : Str} (hreq : project ∈ m.required) (hver : m.versionOf project = some pversion) :
    ∃ fs1 pvs pv, cfg.projects w fs sv .none_ = (fs1, .ok pvs) ∧ pvs.find? (fun pv => pv.name = project) = some pv ∧ pv.name = project ∧
      pv.version.s = pversion ∧ pv.Plain ∧ radsVersion (.str pv.version.s) = .ok pv.version ∧ GoodRads cfg.base site served cfg.exe fs1 ∧
      ClearRads cfg.base site served fs1 ∧ ∃ b, fs1 (storageFspath cfg.base sv.manifest) = some (.file b) := by
  obtain ⟨pvs, h1⟩ := projects_succeeds hon hap hp hg hc hsv hm (langs := .none_) trivial
  obtain ⟨h2, h3⟩ := projects_spec hon hp.ok hg hsv .none_
  have h4 := grows_projects hon hp.ok fs hsv .none_
  have h5 := projects_present (cfg := cfg) hp.ok h1
  rcases hd : cfg.projects w fs sv .none_ with ⟨fs1, r⟩
  rw [hd] at h1 h2 h3 h4 h5
  simp only at h1 h2 h3 h4 h5
  subst h1
  obtain ⟨m', hm', h6, h7⟩ := h3 pvs rfl
  rw [hm] at hm'
  cases hm'
  obtain ⟨pv, hpv, hn⟩ := h7 project hreq
  cases hf : pvs.find? fun pv => pv.name = project with
  | none =>
    rw [List.find?_eq_none] at hf
    exact absurd (hf pv hpv) (by simp [hn])
  | some pv' =>
    have hn' : pv'.name = project := by simpa using List.find?_some hf
    obtain ⟨g1, -, g3, g4⟩ := h6 pv' (List.mem_of_find?_eq_some hf)
    rw [hn', hver] at g3
    exact ⟨fs1, pvs, pv', rfl, hf, hn', (Option.some.inj g3).symm, g1, g4, adds_good hg h2, clear_grows hon.ok hap hc h4, h5⟩

theorem entries_missing (hon : cfg.On site served inflate) {w : RadsWorld} (hp : PerfectRads served w) {fs : FS}
    (hg : GoodRads cfg.base site served cfg.exe fs) {pv : ProjVer} (hpv : pv.Plain) (hes : site.entries pv.name pv.version.s = none) :
    cfg.entries w fs pv = (fs, .error (.http 404)) := by
  have hs := hon.serves.noEntries _ _ hpv.1 hpv.2 hes
  have hd : cfg.download w fs pv.manifestUrl pv.manifest = (fs, .error (.http 404)) := by
    unfold RadsCfg.download Cdtb.download
    have hn : fs.isFile (storageFspath cfg.base pv.manifest) = false := by
      unfold FS.isFile
      split
      · rename_i b hb
        rw [pmanifest_path] at hb
        have := hg.packages _ _ _ hpv.1 hpv.2 hb
        rw [hs] at this
        cases this
      · rfl
    have hr : w.get pv.manifestUrl = .error (.http 404) := by rw [hp.get, pmanifest_url, hs]
    simp only [DownloadCall.dest, Option.getD_some, hn, Bool.and_false, Bool.false_eq_true, if_false, hr]
  unfold RadsCfg.entries
  rw [hd]

theorem noVersion_old {pv : ProjVer} (hv : radsVersion (.str pv.version.s) = .ok pv.version) (h : OldClient pv.name pv.version.s) :
    noVersionFile pv = .ok none := by
  obtain ⟨h1, v, t, h2, h3, h4⟩ := h
  rw [hv] at h2
  cases h2
  unfold noVersionFile
  rw [if_pos h1]
  simp only [Version.cmp, h3, bind, Except.bind, tupleCmp_le, tupleCmp_lt]
  rw [if_pos (by simpa using h4)]
  rfl

theorem versionFromEntries_succeeds (hon : cfg.On site served inflate) (hap : site.Apart) {w : RadsWorld} (hp : PerfectRads served w) {fs : FS}
    (hg : GoodRads cfg.base site served cfg.exe fs) (hc : ClearRads cfg.base site served fs) {pv : ProjVer} {before after : List PkgEntry} {e : PkgEntry}
    (hes : site.entries pv.name pv.version.s = some (before ++ e :: after)) (hcwd : w.cwd e.file = false)
    (hav : ∀ e', LastEntry (before ++ e :: after) e' → e'.file = e.file → site.Available served pv.name pv.version.s e')
    {file d : Str} (hd : e.file = d ++ '/' :: file) (hb : ∀ x ∈ before, ¬ ∃ d, x.file = d ++ '/' :: file)
    {ext : Bytes → Res (Option Str)} {t : Str} (hext : ext (site.file e.file) = .ok (some t)) {v : Version} (hv : Cdtb.patchVersion (.str t) = .ok v) :
    (cfg.versionFromEntries w fs pv ((before ++ e :: after).map PkgEntry.parsed) file ext).2 = .ok (some v) := by
  have hends : ∀ p : Str, endsWith p ('/' :: file) = true ↔ ∃ d, p = d ++ '/' :: file := fun p => endsWith_iff
  have hmap : ((before ++ e :: after).map PkgEntry.parsed).map (·.extractPath) = (before ++ e :: after).map (·.file) := by
    rw [List.map_map]; rfl
  have hfind : ((before ++ e :: after).map (·.file)).find? (fun p => endsWith p ('/' :: file)) = some e.file := by
    rw [List.find?_eq_some_iff_append]
    refine ⟨(hends _).2 ⟨d, hd⟩, before.map (·.file), after.map (·.file), by simp, ?_⟩
    intro p hpm
    obtain ⟨x, hx, rfl⟩ := List.mem_map.1 hpm
    cases hh : endsWith x.file ('/' :: file) with
    | false => rfl
    | true => exact absurd ((hends _).1 hh) (hb x hx)
  obtain ⟨pf, -, hx, hget⟩ := values_entry (es := before ++ e :: after) (e := e) (by simp)
  generalize hE : before ++ e :: after = es at *
  have hsel : selectFiles (packageFiles (es.map PkgEntry.parsed)) (some [e.file]) = .ok [pf] := by
    rw [hx] at hget
    simp only [selectFiles, List.mapM_cons, List.mapM_nil, Dict.get, hget, bind, Except.bind, pure, Except.pure]
  have hext1 := extract_succeeds (cfg := cfg) hon hap hp hc hes hsel (by
    intro e' he' hm
    rw [List.mem_singleton] at hm
    refine hav e' he' ?_
    rw [← hx, ← hm]; rfl) (List.pairwise_singleton _ _)
  have hrel : RelativePaths (es.map PkgEntry.parsed) := by
    intro pf hpf
    obtain ⟨e, he, rfl⟩ := List.mem_map.1 hpf
    exact filePath_rel (hon.ok.entry _ _ _ hes e he).2
  obtain ⟨s1, s2, -⟩ := C41_success (env := cfg.env w pv) hon.inflate (env_serves hon hp.ok pv) fs _ (es.map PkgEntry.parsed) hrel (some [e.file])
    _ hsel (Prod.ext rfl hext1)
  have hcon := site_content hon hes hget
  have hdest : (cfg.env w pv).dest pf = storageFspath cfg.base e.file := by rw [← hx]; rfl
  have hfile : ((cfg.env w pv).extract fs (es.map PkgEntry.parsed) (some [e.file])).1 (storageFspath cfg.base e.file) = some (.file (site.file e.file)) := by
    rw [← hdest]
    cases hf : fs.isFile ((cfg.env w pv).dest pf) with
    | false =>
      obtain ⟨b, hb1, hb2⟩ := s1 pf (by simp) hf
      rw [hcon.2] at hb1
      cases hb1
      rw [hx] at hb2
      exact hb2
    | true =>
      refine (s2 pf (by simp) hf).trans ?_
      unfold FS.isFile at hf
      split at hf
      · rename_i b hb
        rw [hb]
        have hb' := hb
        rw [hdest] at hb'
        rw [hg.file _ _ (hx ▸ hcon.1) hb']
      · simp at hf
  unfold RadsCfg.versionFromEntries
  rw [keys_find, hmap, hfind]
  simp only [RadsCfg.extractOne, hcwd, Bool.false_eq_true, if_false]
  rcases hr : (cfg.env w pv).extract fs (es.map PkgEntry.parsed) (some [e.file]) with ⟨fs', r⟩
  rw [hr] at hext1 hfile
  simp only at hext1 hfile
  subst hext1
  simp only [RadsCfg.readVersion, FS.readFile, hfile, bind, Except.bind, hext, hv, pure, Except.pure]

theorem retrieve_succeeds (hon : cfg.On site served inflate) (hap : site.Apart) {w : RadsWorld} (hp : PerfectRads served w) (hcwd : ∀ p, w.cwd p = false) {fs : FS}
    (hg : GoodRads cfg.base site served cfg.exe fs) (hc : ClearRads cfg.base site served fs) {sv : SolVer} (hsv : sv.Plain)
    {t : Option Str} {r : Option Version} (hpt : site.Patch cfg.exe sv.name sv.version.s t) (hr : PatchOf t r)
    (hav : ∀ m p v es e, site.solution sv.name sv.version.s = some m → p ∈ m.required → m.versionOf p = some v → site.entries p v = some es →
      LastEntry es e → site.Available served p v e) :
    (cfg.retrieveVersion w fs sv).2 = .ok r ∧ ∃ b, (cfg.retrieveVersion w fs sv).1 (storageFspath cfg.base sv.manifest) = some (.file b) := by
  have hkeep : ∀ fs1 pv file ext, pv.Plain → GoodRads cfg.base site served cfg.exe fs1 → radsVersion (.str pv.version.s) = .ok pv.version →
      Adds (RadsFile cfg.base site served cfg.exe) fs1 (cfg.versionFromProject w fs1 pv file ext).1 := by
    intro fs1 pv file ext hpl hg1 hvs
    obtain ⟨h3, h4, h5⟩ := entries_spec hon hp.ok hg1 hpl
    unfold RadsCfg.versionFromProject
    rcases he : cfg.entries w fs1 pv with ⟨fs2, e | pfs⟩
    · rw [he] at h3; exact h3
    · rw [he] at h3 h5
      obtain ⟨es, hes, rfl⟩ := h5 pfs rfl
      exact h3.trans (versionFromEntries_spec hon hp.ok (adds_good hg1 h3) hvs hes file ext).1
  have key : ∀ {m project file pversion read}, PatchFile cfg.exe sv.name project file read → site.solution sv.name sv.version.s = some m →
      project ∈ m.required → m.versionOf project = some pversion →
      ∃ fs1 pv ext, (∀ b t, read b t → ext b = .ok (some t)) ∧ cfg.retrieveVersion w fs sv = cfg.versionFromProject w fs1 pv file ext ∧ pv.name = project ∧
        pv.version.s = pversion ∧ pv.Plain ∧ radsVersion (.str pv.version.s) = .ok pv.version ∧ GoodRads cfg.base site served cfg.exe fs1 ∧
        ClearRads cfg.base site served fs1 ∧ ∃ b, (cfg.retrieveVersion w fs sv).1 (storageFspath cfg.base sv.manifest) = some (.file b) := by
    intro m project file pversion read hpf hm hreq hver
    obtain ⟨ext, h1, h2⟩ := patchFile_retriever hpf
    obtain ⟨fs1, pvs, pv, h3, h4, h5, h6, h7, h8, h9, h10, b, h11⟩ := project_found hon hap hp hg hc hsv hm hreq hver
    have he : cfg.retrieveVersion w fs sv = cfg.versionFromProject w fs1 pv file ext := by
      unfold RadsCfg.retrieveVersion
      rw [h1]
      simp only
      rw [h3]
      simp only [RadsCfg.versionFromProjects, h4]
    exact ⟨fs1, pv, ext, h2, he, h5, h6, h7, h8, h9, h10, b, by rw [he]; exact (hkeep fs1 pv file ext h7 h9 h8).1 _ _ h11⟩
  cases hpt with
  | gone a1 a2 a3 a4 a5 =>
    obtain ⟨fs1, pv, ext, -, he, rfl, rfl, h1, -, h3, -, h5⟩ := key a1 a2 a3 a4
    refine ⟨?_, h5⟩
    rw [he]
    unfold RadsCfg.versionFromProject
    rw [entries_missing hon hp h3 h1 a5]
    simp only [PatchOf] at hr
    rw [hr]
    rfl
  | old a1 a2 a3 a4 a5 a6 a7 =>
    obtain ⟨fs1, pv, ext, -, he, rfl, rfl, h1, h2, h3, h4, h5⟩ := key a1 a2 a3 a4
    refine ⟨?_, h5⟩
    rw [he]
    unfold RadsCfg.versionFromProject
    have h6 := entries_succeeds hon hap hp h3 h4 h1 a5
    rcases hx : cfg.entries w fs1 pv with ⟨fs2, x⟩
    rw [hx] at h6
    simp only at h6
    subst h6
    simp only [RadsCfg.versionFromEntries]
    rw [keys_find]
    cases hf : ((List.map PkgEntry.parsed _).map (·.extractPath)).find? _ with
    | none =>
      simp only [PatchOf] at hr
      rw [hr]
      exact noVersion_old h2 a7
    | some path =>
      have h7 := List.mem_of_find?_eq_some hf
      have h8 := List.find?_some hf
      rw [List.map_map] at h7
      obtain ⟨e, h9, rfl⟩ := List.mem_map.1 h7
      exact absurd (endsWith_iff.1 h8) (a6 e h9)
  | found a1 a2 a3 a4 a5 a6 a7 a8 =>
    obtain ⟨fs1, pv, ext, h0, he, rfl, rfl, h1, h2, h3, h4, h5⟩ := key a1 a2 a3 a4
    refine ⟨?_, h5⟩
    rw [he]
    unfold RadsCfg.versionFromProject
    have h6 := entries_succeeds hon hap hp h3 h4 h1 a5
    have h7 := (entries_spec hon hp.ok h3 h1).1
    have h8 := grows_entries hon hp.ok fs1 h1
    rcases hx : cfg.entries w fs1 pv with ⟨fs2, x⟩
    rw [hx] at h6 h7 h8
    simp only at h6 h7 h8
    subst h6
    obtain ⟨v, rfl, hv⟩ := hr
    exact versionFromEntries_succeeds hon hap hp (adds_good h3 h7) (clear_grows hon.ok hap h4 h8) a5 (hcwd _)
      (fun e' he' _ => hav _ _ _ _ e' a2 a3 a4 a5 he') a6 a7 (h0 _ _ a8) hv

theorem solution_dirname (base n v : Str) {f g : Str} (hf : '/' ∉ f) (hg : '/' ∉ g) :
    dirname (rootPre base ++ solutionFile n v f) = dirname (rootPre base ++ solutionFile n v g) := by
  have hd : DirPrefix (rootPre base ++ solutionFile n v []) := by
    refine Or.inr ⟨rootPre base ++ "solutions/".toList ++ n ++ "/releases/".toList ++ v, ?_⟩
    unfold solutionFile
    generalize "solutions/".toList = a
    generalize "/releases/".toList = b
    simp
  have h : ∀ f, '/' ∉ f → dirname (rootPre base ++ solutionFile n v f) = dirOf (rootPre base ++ solutionFile n v []) := by
    intro f hf
    have : solutionFile n v f = solutionFile n v [] ++ f := by rw [← solutionFile_append]; rfl
    rw [this, ← List.append_assoc]
    unfold dirname
    rw [psplit_dir hd hf]
  rw [h f hf, h g hg]

theorem open_succeeds {fs : FS} {p : Str} {b : Bytes} (h1 : fs (dirname p) = some .dir) (h2 : fs p ≠ some .dir) :
    openAndWrite fs p [.write b] {} = (fs.set p (some (.file b)), .ok ()) := by
  simp [openAndWrite, h1, h2, closeFile, writeBody]

/-- After any operations, whether they failed or not, the patch version is given when nothing fails. -/
theorem C63_version_succeeds (hpbe : cfg.url ≠ urlPbe) (hon : cfg.On site served inflate) (hap : site.Apart) (fs : FS)
    (hg : GoodRads cfg.base site served cfg.exe fs) (hc : ClearRads cfg.base site served fs) (ops : List RadsOp) (hops : ∀ op ∈ ops, op.Legit served)
    (w : RadsWorld) (hp : PerfectRads served w) (hcwd : ∀ p, w.cwd p = false) (sv : SolVer) (hsv : sv.Plain)
    (t : Option Str) (r : Option Version) (hpt : site.Patch cfg.exe sv.name sv.version.s t) (hr : PatchOf t r)
    (hav : ∀ m p v es e, site.solution sv.name sv.version.s = some m → p ∈ m.required → m.versionOf p = some v → site.entries p v = some es →
      LastEntry es e → site.Available served p v e) :
    (cfg.patchVersion w (ops.foldl (RadsOp.run cfg) fs) sv).2 = .ok r := by
  have hg1 := (C63_history hon fs hg ops hops).2
  have hc1 := clear_grows hon.ok hap hc (grows_ops hon ops hops hg)
  generalize ops.foldl (RadsOp.run cfg) fs = fs1 at hg1 hc1
  have hst : (cfg.retrieveAndStore w fs1 sv).2 = .ok r := by
    obtain ⟨h1, b, h2⟩ := retrieve_succeeds hon hap hp hcwd hg1 hc1 hsv hpt hr hav
    have h3 := clear_grows hon.ok hap hc1 (grows_retrieve hon hp.ok hg1 hsv)
    unfold RadsCfg.retrieveAndStore
    rcases hx : cfg.retrieveVersion w fs1 sv with ⟨fs2, x⟩
    rw [hx] at h1 h2 h3
    simp only at h1 h2 h3
    subst h1
    simp only
    cases r with
    | none => rfl
    | some v =>
      obtain ⟨m, hm⟩ := patch_solution hpt
      have hw1 : site.Writes served (solutionFile sv.name sv.version.s "solutionmanifest".toList) := .solution hsv.1 hsv.2 hm
      have hw2 : site.Writes served (solutionFile sv.name sv.version.s "_patch_version".toList) := .version hsv.1 hsv.2 hm
      rw [manifest_path] at h2
      have h4 := h3.tree _ hw1 b h2
      have h5 := h3.files _ hw2
      rw [writes_root hon.ok _ hw1, solution_dirname _ _ _ (g := "_patch_version".toList) (by decide +kernel) (by decide +kernel), ← writes_root hon.ok _ hw2] at h4
      have h6 : openAndWrite fs2 (storageFspath cfg.base sv.cache) [.write (utf8Bytes (v.s ++ ['\n']))] {} =
          (fs2.set (storageFspath cfg.base sv.cache) (some (.file (utf8Bytes (v.s ++ ['\n'])))), .ok ()) := by
        rw [cache_path]
        exact open_succeeds h4 h5
      simp only [RadsCfg.storeVersion, hp.faults, h6]
  unfold RadsCfg.patchVersion
  rw [if_neg hpbe]
  cases hcache : fs1 (storageFspath cfg.base sv.cache) with
  | none => exact hst
  | some nd =>
    cases nd with
    | dir => exact hst
    | file b =>
      have hc' := hcache
      rw [cache_path] at hc'
      obtain ⟨t', ver, h1, h2, rfl⟩ := hg1.version _ _ _ hsv.1 hsv.2 hc'
      have := patch_unique hpt h1
      subst this
      obtain ⟨v, rfl, hv⟩ := hr
      rw [h2] at hv
      cases hv
      simp only [cache_roundtrip (patch_chars hon h1) h2]

end

/-! ## The concrete server -/

theorem radsListed {p : Str} (h : radsSite.Listed p) : p ∈ (radsPackages.map (·.2)).flatten.map (·.file) := by
  obtain ⟨n, v, es, hes, e, he, rfl⟩ := h
  exact List.mem_map.2 ⟨e, List.mem_flatten.2 ⟨es, List.mem_map.2 ⟨_, radsSite_entries hes, rfl⟩, he⟩, rfl⟩

theorem radsApart : radsSite.Apart where
  named := by
    intro p hp
    rintro ⟨d, rfl⟩
    have key : ∀ p ∈ (radsPackages.map (·.2)).flatten.map (·.file), p.getLast? ≠ some '/' := by decide +kernel
    exact key _ (radsListed hp) (by simp)
  apart := by
    intro p q hp hq
    rintro ⟨r, rfl⟩
    have key : ∀ p ∈ (radsPackages.map (·.2)).flatten.map (·.file), ∀ q ∈ (radsPackages.map (·.2)).flatten.map (·.file), startsWith q (p ++ ['/']) = false := by
      decide +kernel
    have := key _ (radsListed hp) _ (radsListed hq)
    rw [startsWith_iff.2 ⟨r, by simp⟩] at this
    cases this

theorem radsDisk_clear : ClearRads radsCfg.base radsSite radsServed radsDisk :=
  ⟨by simp [radsDisk], by simp [radsDisk], by simp [radsDisk]⟩

theorem radsPerfect : PerfectRads radsServed radsWorld where
  get _ := rfl
  stream p b h := ⟨[b.take 4, b.drop 4], by simp only [radsWorld, h], by simp⟩
  missing p h := by simp only [radsWorld, h]
  faults _ := rfl
  order := by simp [radsWorld]

theorem radsComplete {n v : Str} (h : ∃ es, radsSite.entries n v = some es) : radsSite.Complete radsServed n v := by
  have hp : ∀ es, radsSite.entries n v = some es → ((n, v), es) ∈ radsPackages := fun es => radsSite_entries
  refine ⟨h, ?_, ?_, ?_⟩
  · obtain ⟨es, hes⟩ := h
    have key : ∀ x ∈ radsPackages, (radsServed (projectFile x.1.1 x.1.2 "releasemanifest".toList)).isSome = true := by decide +kernel
    have h1 := key ((n, v), es) (hp es hes)
    simp only at h1
    exact Option.isSome_iff_exists.1 h1
  · intro es hes e he
    have hm : e ∈ es := by obtain ⟨a, b, rfl, -⟩ := he; simp
    have key : ∀ x ∈ radsPackages, ∀ e ∈ x.2, (radsServed (projectFile x.1.1 x.1.2 ("packages/files/".toList ++ e.package))).isSome = true ∧
      e.offset + e.size ≤ (radsSite.package x.1.1 x.1.2 e.package).length := by decide +kernel
    have h1 := key ((n, v), es) (hp es hes) e hm
    simp only at h1
    obtain ⟨h1, h2⟩ := h1
    exact ⟨Option.isSome_iff_exists.1 h1, h2⟩
  · intro es hes e e' he he' hne hpk
    have hm : e ∈ es := by obtain ⟨a, b, rfl, -⟩ := he; simp
    have hm' : e' ∈ es := by obtain ⟨a, b, rfl, -⟩ := he'; simp
    have key : ∀ x ∈ radsPackages, ∀ e ∈ x.2, ∀ e' ∈ x.2, e.file = e'.file ∨
      (e.offset < e'.offset ∧ e.offset + e.size ≤ e'.offset) ∨ (e'.offset < e.offset ∧ e'.offset + e'.size ≤ e.offset) := by decide +kernel
    exact (key ((n, v), es) (hp es hes) e hm e' hm').resolve_left hne

/-- The stream of the package of the client stops after its first chunk, and the manifest of the French project is not given. -/
def radsFailing : RadsWorld := { radsWorld with
  get := fun url => if url = projectFile "league_client_fr".toList "0.0.1.2".toList "releasemanifest".toList then .error (.os 104) else radsWorld.get url
  stream := fun url => (radsWorld.stream url).map fun l => l.take 1 }

theorem radsFailing_ok : RadsWorldOk radsServed radsFailing where
  get p b h := by
    simp only [radsFailing] at h
    split at h
    · simp at h
    · exact radsWorldOk.get p b h
  missing p h := by
    simp only [radsFailing] at h
    split at h
    · simp at h
    · exact radsWorldOk.missing p h
  stream p chunks h := by
    simp only [radsFailing, radsWorld] at h
    split at h
    · rename_i b hb
      simp only [Except.map, Except.ok.injEq] at h
      rw [← h]
      exact ⟨b, hb, by rw [show (List.take 1 [b.take 4, b.drop 4]).flatten = b.take 4 by simp]; exact List.take_prefix 4 b⟩
    · simp [Except.map] at h
  order := radsWorldOk.order
  remove := radsWorldOk.remove
  disk := radsWorldOk.disk
  cache := radsWorldOk.cache

/-- A download fails; the next one gives the files. -/
theorem C63_succeeds_case :
    (radsCfg.downloadSolution radsFailing radsDisk radsClient .all).2 ≠ .ok () ∧
    ∃ fs', radsCfg.downloadSolution radsWorld ([RadsOp.download radsFailing radsClient .all].foldl (RadsOp.run radsCfg) radsDisk) radsClient .all = (fs', .ok ()) ∧
      ∀ p, radsSite.Lists radsClient.name radsClient.version.s .all p → fs' (storageFspath radsCfg.base p) = some (.file (radsSite.file p)) := by
  have hpl : radsClient.Plain := ⟨by decide +kernel, by decide +kernel⟩
  obtain ⟨m, hm⟩ : ∃ m, radsSite.solution radsClient.name radsClient.version.s = some m := Option.isSome_iff_exists.1 (by decide +kernel)
  refine ⟨by decide +kernel, C63_succeeds radsOn radsApart radsDisk radsDisk_good radsDisk_clear _ ?_ radsWorld radsPerfect radsClient hpl .all
    m hm trivial ?_⟩
  · intro op hop
    rw [List.mem_singleton] at hop
    subst hop
    exact ⟨radsFailing_ok, hpl⟩
  · intro p v _ hv
    refine radsComplete ?_
    have key : ∀ m ∈ radsManifests, m.version = radsClient.version.s → ∀ x ∈ m.projects, (radsSite.entries x.1 x.2.1).isSome = true := by decide +kernel
    obtain ⟨h4, -, h5⟩ := radsSite_manifests hm
    obtain ⟨x, h1, h2⟩ := Option.map_eq_some_iff.1 hv
    have h3 := List.find?_some h1
    simp only [decide_eq_true_eq] at h3
    have := key m h4 h5 x (List.mem_reverse.1 (List.mem_of_find?_eq_some h1))
    rw [h3, h2] at this
    exact Option.isSome_iff_exists.1 this

/-- The patch version is not given when the stream is cut; it is afterwards. -/
theorem C63_version_succeeds_case :
    (radsCfg.patchVersion radsFailing radsDisk radsClient).2 ≠ .ok (some ⟨"8.1".toList, .nums [8, 1]⟩) ∧
    (radsCfg.patchVersion radsWorld ([RadsOp.version radsFailing radsClient, .download radsFailing radsClient .all].foldl (RadsOp.run radsCfg) radsDisk) radsClient).2 =
      .ok (some ⟨"8.1".toList, .nums [8, 1]⟩) := by
  have hpl : radsClient.Plain := ⟨by decide +kernel, by decide +kernel⟩
  have hpbe : radsCfg.url ≠ urlPbe := by decide +kernel
  have h1 : (radsCfg.patchVersion radsWorld radsDisk radsClient).2 = .ok (some ⟨"8.1".toList, .nums [8, 1]⟩) := by decide +kernel
  obtain ⟨t, h2, h3⟩ := ((version_spec hpbe radsOn radsWorldOk radsDisk_good hpl).2 _ h1).1
  refine ⟨by decide +kernel, C63_version_succeeds hpbe radsOn radsApart radsDisk radsDisk_good radsDisk_clear _ ?_ radsWorld radsPerfect (fun _ => rfl)
    radsClient hpl t _ h2 h3 ?_⟩
  · intro op hop
    rcases List.mem_cons.1 hop with rfl | hop
    · exact ⟨radsFailing_ok, hpl⟩
    · rw [List.mem_singleton] at hop
      subst hop
      exact ⟨radsFailing_ok, hpl⟩
  · intro m p v es e _ _ _ hes he
    exact (radsComplete ⟨es, hes⟩).files es hes e he

end Cdtb
