import Verif.Props.C60
import Verif.Props.C76Runs
import Verif.Props.C38
/-!
# C60, continued: the version of an element is given when nothing fails
-/
namespace Cdtb
set_option autoImplicit false
open Py Spec

/-! ## Specification -/

/-- The files that asking for the version of an element can write -/
inductive Spec.VersionPath (cfg : PCfg) (e : RelElem) : Str → Prop
  | manifest (n : Int) : VersionPath cfg e (storageFspath cfg.base (manifestRel n))
  | bundle (b : Nat) : VersionPath cfg e (cfg.bundlePath b)
  | stored (x : Str) : VersionPath cfg e (cfg.storePath (cfg.sha1 x))
  | extracted (fileName : Str) (f : PFile) : VersionFile e.name fileName → f.name = some fileName → VersionPath cfg e (cfg.extractPath e.version f)
  | cache : VersionPath cfg e (cfg.versionCache e)

/-- None of these files is a directory, no file or link is at the place of one of their directories; the release is in the storage. -/
structure Spec.ClearVersion (cfg : PCfg) (e : RelElem) (d : Disk) : Prop where
  files : ∀ p, VersionPath cfg e p → d.fs p ≠ some .dir
  parents : ∀ p, VersionPath cfg e p → ∀ q ∈ dirPrefixes (dirname p), (∀ b, d.fs q ≠ some (.file b)) ∧ d.links q = none
  release : d.fs (cfg.storageDir e.version) = some .dir

/-- The CDN answers and the disk does not fail; bundles are requested in some order. -/
structure Spec.PerfectVersion (cdn : Cdn) (served : Str → Bytes) (w : PvWorld) : Prop where
  manifest : ∀ p, w.manifest p = .ok (served p)
  manifestFaults : w.manifestFaults = {}
  bundle : ∀ b, w.bundle b = .ok (cdn.bundle b)
  bundleFaults : ∀ b, w.bundleFaults b = {}
  order : ∀ l, (w.order l).Perm l
  extract : w.extract = {}
  cache : w.cache = {}

/-- The element is on the CDN: its manifest has the file giving the version, which is the version `v`. -/
def Spec.VersionServed (cfg : PCfg) (json : Bytes → Res Str) (cdn : Cdn) (served : Str → Bytes) (catalog : Int → Str → List Nat) (e : RelElem)
    (v : Version) : Prop :=
  ∃ n m fileName f t, (ManifestRef.url e.url).toId = .ok n ∧ (parseRman cfg.zstd).run (served (manifestRel n)) = .ok m ∧
    VersionFile e.name fileName ∧ m.files.get (some fileName) = .ok f ∧ Genuine cfg cdn f (catalog e.version fileName) ∧
    ElementVersion json e.name ((catalog e.version fileName).map cdn.chunk).flatten t ∧ Cdtb.patchVersion (.str t) = .ok v

/-! ## Paths -/

theorem below_not_above {pre t t' : Str} (hpre : DirPrefix pre) (ht : '/' ∉ t) (ht' : t' ≠ []) : pre ++ t' ∉ dirPrefixes (dirname (pre ++ t)) := by
  intro hm
  have h1 := mem_dirPrefixes_length hm
  have h2 : (dirname (pre ++ t)).length ≤ pre.length := by
    unfold dirname
    rw [psplit_dir hpre ht]
    unfold Py.dirOf
    split
    · exact Nat.le_refl _
    · exact rstripChar_length_le _ _
  have h3 : 0 < t'.length := List.length_pos_iff.2 ht'
  rw [List.length_append] at h1
  omega

theorem hexInt16U_noslash (n : Int) : '/' ∉ hexInt16U n := by
  unfold hexInt16U
  split
  · intro h
    rcases List.mem_cons.1 h with h | h
    · exact absurd h (by decide)
    · obtain ⟨d, hd, he⟩ := List.mem_map.1 h
      obtain ⟨k, hk, rfl⟩ := hexW_mem hd
      have : ∀ k < 16, upperChar (digitChar k) ≠ '/' := by decide +kernel
      exact this k hk he
  · exact hexWU_noslash _

theorem manifestName_noslash (n : Int) : '/' ∉ hexInt16U n ++ ".manifest".toList := by
  intro h
  rcases List.mem_append.1 h with h | h
  · exact hexInt16U_noslash _ h
  · exact absurd h (by decide +kernel)

theorem versionName_noslash {name fileName : Str} (h : VersionFile name fileName) : '/' ∉ name ∧ '/' ∉ fileName ∧ fileName ≠ [] := by
  cases h <;> decide +kernel

theorem manifestPath_split (cfg : PCfg) (n : Int) : cfg.manifestPath n =
    (rootPre cfg.base ++ "channels/public/releases/".toList) ++ (hexInt16U n ++ ".manifest".toList) := by
  rw [manifestPath_eq, List.append_assoc]

theorem releases_dirPrefix (s : Str) : DirPrefix (s ++ "channels/public/releases/".toList) :=
  Or.inr ⟨s ++ "channels/public/releases".toList, by simp⟩

theorem manifestPath_names (cfg : PCfg) (n : Int) : dirname (cfg.manifestPath n) ≠ [] ∧ basename (cfg.manifestPath n) ≠ [] := by
  refine ⟨?_, ?_⟩
  · have : cfg.manifestPath n = (rootPre cfg.base ++ "channels".toList) ++ '/' :: ("public/releases/".toList ++ hexInt16U n ++ ".manifest".toList) := by
      rw [manifestPath_eq]; simp
    rw [this]
    exact dirname_ne_nil ⟨'c', by simp, by decide⟩
  · rw [manifestPath_split]
    unfold basename
    rw [psplit_dir (releases_dirPrefix _) (manifestName_noslash n)]
    simp

theorem storageDir_eq (cfg : PCfg) (v : Int) : cfg.storageDir v = rootPre cfg.base ++ ("cdtb/releases/".toList ++ (cfg.patchline ++ '/' :: showInt v)) := by
  unfold PCfg.storageDir PCfg.releasePath
  rw [fspath_eq _ rfl]; simp

/-- No file written is at the place of a directory of another. -/
theorem versionPath_apart {cfg : PCfg} {e : RelElem} (hdig : ∃ n, ∀ x, (cfg.sha1 x).length = n + 1) (hns : ∀ x, '/' ∉ cfg.sha1 x)
    (hname : '/' ∉ e.name) {p q : Str} (hp : VersionPath cfg e p) (hq : VersionPath cfg e q) : p ∉ dirPrefixes (dirname q) := by
  have pre : (¬ p <+: q) → p ∉ dirPrefixes (dirname q) := fun h hm => h (dirPrefixes_dirname_prefix hm)
  have hman : ∀ n, storageFspath cfg.base (manifestRel n) = cfg.manifestPath n := fun _ => rfl
  have hf : "/files/".toList = '/' :: "files/".toList := by decide +kernel
  cases hp with
  | manifest n =>
    rw [hman] at pre ⊢
    cases hq with
    | manifest n' =>
      rw [hman, manifestPath_split, manifestPath_split]
      exact below_not_above (releases_dirPrefix _) (manifestName_noslash _) (by simp)
    | bundle b => apply pre; rw [manifestPath_eq, bundlePath_eq, List.prefix_append_right_inj]; simp [List.cons_prefix_cons]
    | stored x => apply pre; rw [manifestPath_eq, storePath_eq, List.prefix_append_right_inj]; simp [List.cons_prefix_cons]
    | extracted fn f h1 h2 => apply pre; rw [manifestPath_eq, extractPath_eq, List.prefix_append_right_inj]; simp [List.cons_prefix_cons]
    | cache => apply pre; rw [manifestPath_eq, versionCache_eq, List.prefix_append_right_inj]; simp [List.cons_prefix_cons]
  | bundle b =>
    cases hq with
    | manifest n' => apply pre; rw [hman, manifestPath_eq, bundlePath_eq, List.prefix_append_right_inj]; simp [List.cons_prefix_cons]
    | bundle b' => 
      have h : ∀ b, cfg.bundlePath b = (rootPre cfg.base ++ "channels/public/bundles/".toList) ++ (hexWU 16 b ++ ".bundle".toList) := by
        intro b; rw [bundlePath_eq]; simp
      rw [h, h]
      refine below_not_above (Or.inr ⟨rootPre cfg.base ++ "channels/public/bundles".toList, by simp⟩) ?_ (by simp)
      intro h
      rcases List.mem_append.1 h with h | h
      · exact hexWU_noslash _ h
      · exact absurd h (by decide +kernel)
    | stored x => apply pre; rw [bundlePath_eq, storePath_eq, List.prefix_append_right_inj]; simp [List.cons_prefix_cons]
    | extracted fn f h1 h2 => apply pre; rw [bundlePath_eq, extractPath_eq, List.prefix_append_right_inj]; simp [List.cons_prefix_cons]
    | cache => apply pre; rw [bundlePath_eq, versionCache_eq, List.prefix_append_right_inj]; simp [List.cons_prefix_cons]
  | stored x =>
    cases hq with
    | manifest n' => apply pre; rw [hman, manifestPath_eq, storePath_eq, List.prefix_append_right_inj]; simp [List.cons_prefix_cons]
    | bundle b => apply pre; rw [bundlePath_eq, storePath_eq, List.prefix_append_right_inj]; simp [List.cons_prefix_cons]
    | stored y => exact GoodNames.storeParents (v := 0) (files := []) ⟨by simp, by simp, by simp, hdig, hns⟩ x y
    | extracted fn f h1 h2 => exact pre (store_not_prefix_extract cfg _ _ f)
    | cache => apply pre; rw [storePath_eq, versionCache_eq, List.prefix_append_right_inj]; simp [List.cons_prefix_cons]
  | extracted fn f h1 h2 =>
    cases hq with
    | manifest n' => apply pre; rw [hman, manifestPath_eq, extractPath_eq, List.prefix_append_right_inj]; simp [List.cons_prefix_cons]
    | bundle b => exact pre (extract_not_prefix_bundle cfg b _ f)
    | stored y => exact pre (extract_not_prefix_store cfg _ _ f)
    | extracted fn' f' h1' h2' =>
      unfold PCfg.extractPath
      rw [h2, h2']
      exact below_not_above (Or.inr ⟨cfg.storageDir e.version ++ "/files".toList, by simp⟩) (versionName_noslash h1').2.1 (versionName_noslash h1).2.2
    | cache =>
      apply pre
      rw [extractPath_eq, versionCache_eq, List.prefix_append_right_inj, hf]
      simp [List.append_assoc, List.prefix_append_right_inj, List.cons_prefix_cons]
  | cache =>
    cases hq with
    | manifest n' => apply pre; rw [hman, manifestPath_eq, versionCache_eq, List.prefix_append_right_inj]; simp [List.cons_prefix_cons]
    | bundle b => apply pre; rw [bundlePath_eq, versionCache_eq, List.prefix_append_right_inj]; simp [List.cons_prefix_cons]
    | stored y => apply pre; rw [storePath_eq, versionCache_eq, List.prefix_append_right_inj]; simp [List.cons_prefix_cons]
    | extracted fn' f' h1' h2' =>
      apply pre
      rw [extractPath_eq, versionCache_eq, List.prefix_append_right_inj, hf]
      simp [List.append_assoc, List.prefix_append_right_inj, List.cons_prefix_cons]
    | cache =>
      have h : cfg.versionCache e = (cfg.storageDir e.version ++ "/".toList) ++ ("patch_version.".toList ++ e.name) := by
        unfold PCfg.versionCache
        have : "/patch_version.".toList = "/".toList ++ "patch_version.".toList := by decide +kernel
        rw [this]; simp
      rw [h]
      refine below_not_above (Or.inr ⟨cfg.storageDir e.version, rfl⟩) ?_ (by simp)
      intro h
      rcases List.mem_append.1 h with h | h
      · exact absurd h (by decide +kernel)
      · exact hname h

theorem dirname_versionCache {cfg : PCfg} {e : RelElem} (hname : '/' ∉ e.name) : dirname (cfg.versionCache e) = cfg.storageDir e.version := by
  have h : cfg.versionCache e = cfg.storageDir e.version ++ '/' :: ("patch_version.".toList ++ e.name) := by
    unfold PCfg.versionCache
    have : "/patch_version.".toList = '/' :: "patch_version.".toList := by decide +kernel
    rw [this]; simp
  obtain ⟨x, c, hx, hc⟩ := showInt_last e.version
  rw [h]
  refine dirname_slash ?_ ⟨cfg.releasePath ++ '/' :: x, c, ?_, hc⟩
  · intro h
    rcases List.mem_append.1 h with h | h
    · exact absurd h (by decide +kernel)
    · exact hname h
  · unfold PCfg.storageDir; rw [hx]; simp

/-! ## Steps -/

section
variable {cfg : PCfg} {e : RelElem}

/-- The directory of the release is none of the files. -/
theorem storageDir_ne_versionPath {p : Str} (hp : VersionPath cfg e p) : cfg.storageDir e.version ≠ p := by
  cases hp with
  | manifest n =>
    have : storageFspath cfg.base (manifestRel n) = cfg.manifestPath n := rfl
    rw [this, manifestPath_eq, storageDir_eq, ne_eq, List.append_cancel_left_eq]; simp
  | bundle b => rw [bundlePath_eq, storageDir_eq, ne_eq, List.append_cancel_left_eq]; simp
  | stored x => rw [storePath_eq, storageDir_eq, ne_eq, List.append_cancel_left_eq]; simp
  | extracted fn f h1 h2 =>
    intro h
    have := congrArg List.length h
    unfold PCfg.extractPath at this
    simp at this
  | cache =>
    intro h
    have := congrArg List.length h
    unfold PCfg.versionCache at this
    simp at this

theorem Spec.ClearVersion.keep (hap : ∀ p q, VersionPath cfg e p → VersionPath cfg e q → p ∉ dirPrefixes (dirname q)) {d d' : Disk} (h : ClearVersion cfg e d)
    (hfile : ∀ q b, d'.fs q = some (.file b) → d.fs q = some (.file b) ∨ VersionPath cfg e q)
    (hdir : ∀ q, d'.fs q = some .dir → d.fs q = some .dir ∨ ∃ p, VersionPath cfg e p ∧ q ∈ dirPrefixes (dirname p))
    (hlink : ∀ q, d'.links q = d.links q ∨ VersionPath cfg e q) (hrel : d'.fs (cfg.storageDir e.version) = some .dir) : ClearVersion cfg e d' := by
  refine ⟨fun p hp hd => ?_, fun p hp q hq => ⟨fun b hb => ?_, ?_⟩, hrel⟩
  · rcases hdir p hd with h1 | ⟨p', h1, h2⟩
    · exact h.files p hp h1
    · exact hap p p' hp h1 h2
  · rcases hfile q b hb with h1 | h1
    · exact (h.parents p hp q hq).1 b h1
    · exact hap q p h1 hp hq
  · rcases hlink q with h1 | h1
    · rw [h1]; exact (h.parents p hp q hq).2
    · exact absurd hq (hap q p h1 hp)

/-- A download without faults succeeds. -/
theorem version_download (hap : ∀ p q, VersionPath cfg e p → VersionPath cfg e q → p ∉ dirPrefixes (dirname q)) {d : Disk} (h : ClearVersion cfg e d)
    {c : DownloadCall} {content : Bytes} (hc : VersionPath cfg e (c.dest cfg.base)) (hforce : c.force = false) (hr : c.response = .ok content)
    (hfl : c.faults = {}) (hd : dirname (c.dest cfg.base) ≠ []) (hb : basename (c.dest cfg.base) ≠ []) :
    ∃ fs t b, download cfg.base d.fs c = (fs, .ok (), t) ∧ ClearVersion cfg e { d with fs := fs } ∧ fs (c.dest cfg.base) = some (.file b) := by
  unfold download
  by_cases hf : d.fs.isFile (c.dest cfg.base) = true
  · rw [if_pos (by simp [hforce, hf])]
    unfold FS.isFile at hf
    cases hx : d.fs (c.dest cfg.base) with
    | none => rw [hx] at hf; simp at hf
    | some nd =>
      cases nd with
      | dir => rw [hx] at hf; simp at hf
      | file b => exact ⟨_, _, b, rfl, h, hx⟩
  · rw [if_neg (by simp [hf])]
    simp only [hr, hfl]
    have hok := C04_no_fault d.fs (c.dest cfg.base) [content] hd (fun q hq b => (h.parents _ hc q hq).1 b) (h.files _ hc) hb
    simp only [List.map_cons, List.map_nil] at hok
    have hfs : (writeFileOrRemove d.fs (c.dest cfg.base) [.write content] {}).1 (c.dest cfg.base) = some (.file content) := by
      obtain ⟨b, h1, h2⟩ := C05_success cfg.base d.fs (writeFileOrRemove d.fs (c.dest cfg.base) [.write content] {}).1 c (by
        unfold download
        rw [if_neg (by simp [hf])]
        simp only [hr, hfl]
        rw [Prod.mk.injEq, Prod.mk.injEq]; exact ⟨rfl, hok, rfl⟩)
      rw [hr] at h1
      cases h1
      exact h2
    refine ⟨_, _, content, by rw [Prod.mk.injEq, Prod.mk.injEq]; exact ⟨rfl, hok, rfl⟩, ?_, hfs⟩
    have htouch := writeFileOrRemove_touches d.fs (c.dest cfg.base) [.write content] {}
    refine h.keep hap (fun q b hb => ?_) (fun q hq => ?_) (fun q => Or.inl rfl) ?_
    · by_cases hq : q = c.dest cfg.base
      · exact Or.inr (by rw [hq]; exact hc)
      · rcases htouch q hq with h1 | ⟨-, -, h1⟩
        · left; simp only at hb; rw [h1] at hb; exact hb
        · simp only at hb; rw [h1] at hb; simp at hb
    · rcases writeFileOrRemove_dir hq with h1 | h1
      · exact Or.inl h1
      · exact Or.inr ⟨_, hc, h1⟩
    · rcases htouch _ (storageDir_ne_versionPath hc) with h1 | ⟨-, -, h1⟩
      · simp only; rw [h1]; exact h.release
      · exact h1

theorem elemExtract_keepsDir (cfg : PCfg) (v : Int) (o : Bool) (d : Disk) (file : PFile) (f : ExtractFaults) {q : Str}
    (hs : ∀ x, q ≠ cfg.storePath (cfg.sha1 x)) (ho : q ≠ cfg.extractPath v file) (h : d.fs q = some .dir) :
    (cfg.elemExtractFile v o d file f).1.fs q = some .dir := by
  have keep : ∀ {fs fs' : FS}, SameOrDir fs fs' q → fs q = some .dir → fs' q = some .dir := by
    intro fs fs' h1 h2
    rcases h1 with h1 | ⟨-, h1⟩
    · rw [h1]; exact h2
    · exact h1
  unfold PCfg.elemExtractFile
  split
  · exact h
  · unfold PCfg.extractFile
    split
    · cases digestInput file.chunks with
      | error e => exact h
      | ok x =>
        simp only
        have hf := ensureFile_frame cfg d.fs (cfg.storePath (cfg.sha1 x)) file.chunks f.write (hs x)
        rcases he : cfg.ensureFile d.fs (cfg.storePath (cfg.sha1 x)) file.chunks f.write with ⟨fs, r⟩
        rw [he] at hf
        cases r with
        | error e => exact keep hf h
        | ok u => exact keep (relink_fs { d with fs := fs } _ _ f ho) (keep hf h)
    · exact keep (ensureFile_frame cfg d.fs _ file.chunks f.write ho) h

/-- Requesting bundles one by one: all of them are there at the end. -/
theorem version_fetch {cdn : Cdn} {served : Str → Bytes} {catalog : Int → Str → List Nat}
    (hap : ∀ p q, VersionPath cfg e p → VersionPath cfg e q → p ∉ dirPrefixes (dirname q)) {w : PvWorld} (hw : PerfectVersion cdn served w)
    (ids : List (Option Nat)) (hids : ∀ i ∈ ids, ∃ b, i = some b) (d : Disk) (hg : GoodDisk cfg cdn catalog d) (h : ClearVersion cfg e d) :
    ∃ d', cfg.fetchBundles w d ids = (d', .ok ()) ∧ GoodDisk cfg cdn catalog d' ∧ ClearVersion cfg e d' ∧
      (∀ b x, d.fs (cfg.bundlePath b) = some (.file x) → ∃ y, d'.fs (cfg.bundlePath b) = some (.file y)) ∧
      ∀ b, some b ∈ ids → ∃ y, d'.fs (cfg.bundlePath b) = some (.file y) := by
  induction ids generalizing d with
  | nil => exact ⟨d, rfl, hg, h, fun b x hx => ⟨x, hx⟩, by simp⟩
  | cons i ids ih =>
    obtain ⟨b, rfl⟩ := hids i (by simp)
    obtain ⟨b1, b2, -⟩ := bundlePath_dirname_basename cfg b
    obtain ⟨fs, t, y, h1, h2, h3⟩ := version_download hap h (c := bundleCall w.bundle w.bundleFaults b) (content := cdn.bundle b)
      (.bundle b) rfl (hw.bundle b) (hw.bundleFaults b) b1 b2
    have hgd := good_download hg (b := b) (r := w.bundle b) (f := w.bundleFaults b)
      ⟨fun x hx => by rw [hw.bundle b] at hx; exact (Except.ok.inj hx).symm, by rw [hw.bundleFaults b]⟩
    simp only [POp.run] at hgd
    have hcall : bundleCall (fun _ => w.bundle b) (fun _ => w.bundleFaults b) b = bundleCall w.bundle w.bundleFaults b := rfl
    rw [hcall, h1] at hgd
    have hkeep : ∀ b' x, d.fs (cfg.bundlePath b') = some (.file x) → ∃ z, fs (cfg.bundlePath b') = some (.file z) := by
      intro b' x hx
      by_cases hq : cfg.bundlePath b' = cfg.bundlePath b
      · rw [hq]; exact ⟨y, h3⟩
      · have := (C05_frame cfg.base d.fs (bundleCall w.bundle w.bundleFaults b) (cfg.bundlePath b') hq x).2 hx
        rw [h1] at this
        exact ⟨x, this⟩
    obtain ⟨d', k1, k2, k3, k4, k5⟩ := ih (fun i hi => hids i (by simp [hi])) { d with fs := fs } hgd h2
    refine ⟨d', ?_, k2, k3, fun b' x hx => ?_, fun b' hb' => ?_⟩
    · simp only [PCfg.fetchBundles, bundleIdRes, h1]
      exact k1
    · obtain ⟨z, hz⟩ := hkeep b' x hx
      exact k4 b' z hz
    · rcases List.mem_cons.1 hb' with hb' | hb'
      · cases hb'; exact k4 b y h3
      · exact k5 b' hb'

/-- An element whose file is found: the version is read. -/
theorem versionSource_reads {json : Bytes → Res Str} {name fileName : Str} {b : Bytes} {t : Str} (h : VersionFile name fileName)
    (hv : ElementVersion json name b t) : ∃ ext, versionSource json name = .ok (fileName, ext) ∧ ext b = .ok (some t) := by
  have hcg : "game".toList ≠ "client".toList := by decide +kernel
  generalize hn : name = n at hv
  cases hv with
  | client h1 h2 h3 =>
    subst hn
    cases h with
    | client => exact ⟨_, by simp only [versionSource, if_true], ((C60_yaml b _ h1 _ h2).1 t).2 h3⟩
  | game h1 h2 =>
    subst hn
    cases h with
    | game => exact ⟨_, by simp only [versionSource, if_neg hcg, if_true], ((C60_metadata json b _ h1).1 t).2 h2⟩

end

/-! ## The theorem -/

/-- When nothing fails, asking for the version of an element succeeds, whatever bundles, files and cache are already in the storage: the
answer is the version written in the file of the release. -/
theorem C60_succeeds (cfg : PCfg) (json : Bytes → Res Str) (cdn : Cdn) (served : Str → Bytes) (catalog : Int → Str → List Nat)
    (hpbe : cfg.patchline ≠ "pbe".toList) (hsha : NoCollision cfg.sha1 catalog) (hdig : ∃ n, ∀ x, (cfg.sha1 x).length = n + 1)
    (hns : ∀ x, '/' ∉ cfg.sha1 x) (d : Disk) (hg : GoodStorage cfg json cdn served catalog d) (e : RelElem) (hc : ClearVersion cfg e d)
    (w : PvWorld) (hw : PerfectVersion cdn served w) (v : Version) (hv : VersionServed cfg json cdn served catalog e v) :
    (cfg.patchVersion json w e d).2 = .ok (some v) := by
  obtain ⟨n, m, fileName, f, t, hid, hman, hvf, hget, hgen, hel, hpv⟩ := hv
  obtain ⟨hname, hfn, hfne⟩ := versionName_noslash hvf
  have hap : ∀ p q, VersionPath cfg e p → VersionPath cfg e q → p ∉ dirPrefixes (dirname q) := fun p q => versionPath_apart hdig hns hname
  unfold PCfg.patchVersion
  rw [if_neg hpbe]
  cases hcache : d.content (cfg.versionCache e) with
  | some b =>
    simp only
    obtain ⟨v', ⟨fn', t', h1, h2, h3⟩, rfl⟩ := hg.caches e b hcache
    rw [cache_roundtrip (elementVersion_chars h2) h3]
    have : t' = t := C60_agree json e.name fn' fileName (fun fn => ((catalog e.version fn).map cdn.chunk).flatten) t' t h1 hvf h2 hel
    subst this
    rw [h3] at hpv
    cases hpv
    rfl
  | none =>
    simp only
    have hfname : f.name = some fileName := by
      apply parseRman_names hman
      unfold Dict.get at hget
      split at hget
      · rename_i hf; simp only [Except.ok.injEq] at hget; rw [hf, hget]
      · simp at hget
    have hfmt : fmtOpt f.name = fileName := by rw [hfname]; rfl
    obtain ⟨ext, hsrc, hext⟩ := versionSource_reads hvf hel
    -- the manifest
    obtain ⟨m1, m2⟩ := manifestPath_names cfg n
    obtain ⟨fs1, t1, b1, hdl, hc1, hb1⟩ := version_download hap hc (c := ⟨manifestRel n, none, false, w.manifest (manifestRel n), w.manifestFaults⟩)
      (content := served (manifestRel n)) (.manifest n) rfl (hw.manifest _) hw.manifestFaults m1 m2
    have hmb : b1 = served (manifestRel n) := by
      have := download_keeps cfg.base served d.fs ⟨manifestRel n, none, false, w.manifest (manifestRel n), w.manifestFaults⟩
        (cfg.manifestPath n) (manifestRel n) (fun b hb => by simp only [hw.manifest] at hb; exact (Except.ok.inj hb).symm)
        (by simp only [hw.manifestFaults]) (fun h => manifestRel_path (cfg := cfg) h) (fun b hb => hg.manifests n b hb)
      rw [hdl] at this
      exact this b1 hb1
    have hurl : e.url.isEmpty = false := by
      cases hu : e.url with
      | nil => rw [hu] at hid; exact absurd hid (by rw [show (ManifestRef.url []).toId = .error .value by decide +kernel]; simp)
      | cons _ _ => rfl
    have hload : cfg.loadManif w e d = ({ d with fs := fs1 }, .ok m) := by
      unfold PCfg.loadManif downloadManifest
      simp only [hurl, Bool.false_eq_true, if_false, hid, hdl]
      have hr : fs1.readFile (storageFspath cfg.base (manifestRel n)) = .ok b1 := by
        have : fs1 (storageFspath cfg.base (manifestRel n)) = some (.file b1) := hb1
        simp [FS.readFile, this]
      rw [hr, hmb]
      simp only [bind, Except.bind, hman]
    have hgd1 : GoodDisk cfg cdn catalog { d with fs := fs1 } := by
      have hs := fun q => loadManif_same cfg w e d (q := q)
      rw [hload] at hs
      exact hg.disk.of_same (fun b => hs _ fun n => (manifest_ne_bundle cfg n b).symm) (fun x => hs _ fun n => (manifest_ne_store cfg n x).symm)
        (fun v f => hs _ fun n => (manifest_ne_extract cfg n v f).symm)
    -- the bundles
    have hout : VersionPath cfg e (cfg.extractPath e.version f) := .extracted fileName f hvf hfname
    have hids : ∀ c ∈ f.chunks, ∃ b, c.bundle = some b := by
      intro c hcm
      obtain ⟨i, -, -, -, b, k, h, -⟩ := forall₂_mem_left hgen hcm
      exact ⟨b, h⟩
    have hfetch : ∃ d2, cfg.fetchIfNeeded w e.version { d with fs := fs1 } f = (d2, .ok ()) ∧ GoodDisk cfg cdn catalog d2 ∧ ClearVersion cfg e d2 ∧
        (cfg.isExtracted e.version d2 f = false → ∀ c ∈ f.chunks, ∃ b x, c.bundle = some b ∧ d2.fs (cfg.bundlePath b) = some (.file x)) := by
      unfold PCfg.fetchIfNeeded
      by_cases hx : cfg.isExtracted e.version { d with fs := fs1 } f = true
      · rw [if_pos hx]
        exact ⟨_, rfl, hgd1, hc1, fun h => by rw [hx] at h; simp at h⟩
      · rw [if_neg hx]
        have hmem : ∀ i, i ∈ w.order (fileBundles [f]) ↔ ∃ c ∈ f.chunks, c.bundle = i := by
          intro i
          rw [(hw.order _).mem_iff]
          simp [fileBundles]
        obtain ⟨d2, k1, k2, k3, -, k5⟩ := version_fetch (e := e) hap hw (w.order (fileBundles [f])) (fun i hi => by
          obtain ⟨c, hcm, rfl⟩ := (hmem i).1 hi
          exact hids c hcm) _ hgd1 hc1
        refine ⟨d2, k1, k2, k3, fun _ c hcm => ?_⟩
        obtain ⟨b, hb⟩ := hids c hcm
        obtain ⟨y, hy⟩ := k5 b ((hmem _).2 ⟨c, hcm, hb⟩)
        exact ⟨b, y, hb, hy⟩
    obtain ⟨d2, hf2, hgd2, hc2, hbun⟩ := hfetch
    -- the file
    have hgen' : Genuine cfg cdn f (catalog e.version (fmtOpt f.name)) := by rw [hfmt]; exact hgen
    have hext2 : (cfg.elemExtractFile e.version false d2 f {}).2 = .ok () := by
      refine elemExtractFile_succeeds (files := [f]) ⟨?_, ?_, by simp, hdig, hns⟩ hgd2 ⟨?_, ?_, ?_, ?_⟩ (by simp) hgen' hbun
      · intro g hg'
        rw [List.mem_singleton] at hg'
        subst hg'
        unfold PCfg.extractPath basename
        rw [hfmt, psplit_dir (Or.inr ⟨cfg.storageDir e.version ++ "/files".toList, by simp⟩) hfn]
        exact hfne
      · intro g hg' g' hg''
        rw [List.mem_singleton] at hg' hg''
        subst hg' hg''
        exact hap _ _ hout hout
      · intro g hg'
        rw [List.mem_singleton] at hg'
        subst hg'
        exact hc2.parents _ hout
      · intro g hg'
        rw [List.mem_singleton] at hg'
        subst hg'
        exact hc2.files _ hout
      · intro x q hq b
        exact (hc2.parents _ (.stored x) q hq).1 b
      · intro x
        exact hc2.files _ (.stored x)
    obtain ⟨-, hcont⟩ := good_step hsha hgd2 (op := .extract e.version false f {}) ⟨hgen', rfl⟩
    simp only [POp.run] at hcont
    have hcont := hcont e.version false f {} rfl hext2
    rw [hfmt] at hcont
    have hrel := elemExtract_keepsDir cfg e.version false d2 f {} (q := cfg.storageDir e.version)
      (fun x => storageDir_ne_versionPath (.stored x)) (storageDir_ne_versionPath hout) hc2.release
    have hnd : (cfg.elemExtractFile e.version false d2 f {}).1.fs (cfg.versionCache e) ≠ some .dir := by
      intro h
      rcases elemExtractFile_dir h with h | ⟨x, h⟩ | h
      · exact hc2.files _ .cache h
      · exact hap _ _ .cache (.stored x) h
      · exact hap _ _ .cache hout h
    have hret : cfg.retrieveVersion json w e d = ((cfg.elemExtractFile e.version false d2 f {}).1, .ok v) := by
      unfold PCfg.retrieveVersion
      simp only [hsrc, hload, hget]
      unfold PCfg.retrieveFrom
      rw [hf2, hw.extract]
      rcases he : cfg.elemExtractFile e.version false d2 f {} with ⟨d3, r⟩
      rw [he] at hext2 hcont
      simp only at hext2 hcont
      subst hext2
      simp only [he, PCfg.readVersion, hcont, bind, Except.bind]
      have hx : ext (cdn.file (catalog e.version fileName)) = .ok (some t) := hext
      rw [hx]
      simp only [hpv]
    rw [hret]
    simp only
    unfold PCfg.writeVersionCache
    rw [hw.cache]
    unfold openAndWrite
    simp only [dirname_versionCache hname, hrel, ne_eq, not_true_eq_false, if_false, if_neg hnd]
    rfl

/-! ## Case -/

/-- A storage with links whose digests are all the same (there is one file) -/
def versionCfg : PCfg := { injCfg true with sha1 := fun _ => "a".toList }

theorem versionDisk_files (p : Str) (b : Bytes) : versionDisk.fs p ≠ some (.file b) := by
  simp only [versionDisk]
  split <;> simp

/-- With nothing but the directory of the release, the version is downloaded. -/
example : (versionCfg.patchVersion versionLoad versionWorld versionElem versionDisk).2 = .ok (some ⟨"10.15".toList, .nums [10, 15]⟩) := by
  refine C60_succeeds versionCfg versionLoad versionCdn versionServed versionCatalog (by decide +kernel) ?_ ⟨0, fun _ => rfl⟩
    (fun x => show '/' ∉ "a".toList by decide +kernel) versionDisk ?_ versionElem ?_ versionWorld ?_ _ ?_
  · intro v n v' n' t t' h h' _
    exact IdsText_unique h h'
  · refine ⟨C34_fresh _ _ _ _ (fun _ => rfl) versionDisk_files, fun n b h => absurd h (versionDisk_files _ b), fun _ => rfl, fun e b h => ?_⟩
    rw [content_eq_some] at h
    exact absurd h (versionDisk_files _ b)
  · have hdir : versionCfg.storageDir versionElem.version = "/s/cdtb/releases/live/12".toList := by decide +kernel
    refine ⟨fun p hp h => ?_, fun p hp q hq => ⟨versionDisk_files q, rfl⟩, by rw [hdir]; decide +kernel⟩
    have hne := storageDir_ne_versionPath hp
    rw [hdir] at hne
    simp only [versionDisk] at h
    rw [if_neg (Ne.symm hne)] at h
    exact absurd h (by simp)
  · exact ⟨fun _ => rfl, rfl, fun _ => rfl, fun _ => rfl, fun l => List.Perm.refl l, rfl, rfl⟩
  · have hm : ∃ m, (parseRman versionCfg.zstd).run versionManifest = .ok m ∧ m.files = [(some "content-metadata.json".toList, versionFile)] := by
      have h := versionManifest_files true
      have hz : versionCfg.zstd = (injCfg true).zstd := rfl
      rw [hz]
      cases hx : (parseRman (injCfg true).zstd).run versionManifest with
      | error er => rw [hx] at h; simp [Except.map] at h
      | ok m => rw [hx] at h; exact ⟨m, rfl, by simpa [Except.map] using h⟩
    obtain ⟨m, hm, hf⟩ := hm
    refine ⟨0x0123456789ABCDEF, m, "content-metadata.json".toList, versionFile, "10.15".toList, by decide +kernel, hm, .game, ?_, ?_, ?_, by decide +kernel⟩
    · rw [hf]; decide +kernel
    · exact .cons ⟨rfl, by decide, 10, 23, rfl, rfl, by decide +kernel⟩ .nil
    · refine .game (s := "10.15.33".toList) (by decide +kernel) ?_
      exact (matchMetadata_iff _ _).1 (by decide +kernel)

end Cdtb
