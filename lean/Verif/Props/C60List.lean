import Verif.Props.C60Runs
/-!
# C60: listing the patch elements succeeds when nothing fails
-/
namespace Cdtb
set_option autoImplicit false
open Py Spec

section
variable {cfg : PCfg}

/-! ## Paths of two elements -/

/-- A path of the release is one of the version of the element, or of all elements. -/
theorem versionPath_cases {e : RelElem} (e' : RelElem) {p : Str} (hp : VersionPath cfg e p) : VersionPath cfg e' p ∨
    ∃ x, p = (cfg.storageDir e.version ++ "/".toList) ++ x ∧ x ≠ [] ∧
      ((∃ f fileName, x = "files/".toList ++ fileName ∧ VersionFile e.name fileName ∧ p = cfg.extractPath e.version f) ∨ x = "patch_version.".toList ++ e.name) := by
  cases hp with
  | manifest n => exact .inl (.manifest n)
  | bundle b => exact .inl (.bundle b)
  | stored x => exact .inl (.stored x)
  | extracted fn f h1 h2 =>
    refine .inr ⟨"files/".toList ++ fn, ?_, by simp, .inl ⟨f, fn, rfl, h1, rfl⟩⟩
    unfold PCfg.extractPath
    rw [h2]
    have : "/files/".toList = "/".toList ++ "files/".toList := by decide +kernel
    rw [this]
    simp [fmtOpt]
  | cache =>
    refine .inr ⟨"patch_version.".toList ++ e.name, ?_, by simp, .inr rfl⟩
    unfold PCfg.versionCache
    have : "/patch_version.".toList = "/".toList ++ "patch_version.".toList := by decide +kernel
    rw [this]
    simp

theorem storageDir_prefix {v v' : Int} {x y : Str} (h : (cfg.storageDir v ++ "/".toList) ++ x <+: (cfg.storageDir v' ++ "/".toList) ++ y) :
    v = v' ∧ x <+: y := by
  obtain ⟨z, hz⟩ := h
  rw [storageDir_eq, storageDir_eq] at hz
  simp only [List.append_assoc, List.append_cancel_left_eq, List.cons_append, List.cons.injEq, true_and] at hz
  have hs : "/".toList = ['/'] := by decide +kernel
  simp only [hs, List.cons_append, List.nil_append] at hz
  obtain ⟨h1, h2⟩ := noslash_split (showInt_noslash v) (showInt_noslash v') hz
  exact ⟨showInt_inj h1, z, h2⟩

/-- No file written for an element is at the place of a directory of a file written for another. -/
theorem versionPath_apart_two {e e' : RelElem} (hdig : ∃ n, ∀ x, (cfg.sha1 x).length = n + 1) (hns : ∀ x, '/' ∉ cfg.sha1 x)
    (hname : '/' ∉ e.name) (hname' : '/' ∉ e'.name) {p q : Str} (hp : VersionPath cfg e p) (hq : VersionPath cfg e' q) : p ∉ dirPrefixes (dirname q) := by
  rcases versionPath_cases e' hp with h | ⟨x, rfl, hx, hxc⟩
  · exact versionPath_apart hdig hns hname' h hq
  rcases versionPath_cases e hq with h | ⟨y, rfl, hy, hyc⟩
  · exact versionPath_apart hdig hns hname hp h
  intro hm
  obtain ⟨hv, hxy⟩ := storageDir_prefix (dirPrefixes_dirname_prefix hm)
  rw [hv] at hm
  rcases hxc with ⟨f, fn, rfl, h1, -⟩ | rfl <;> rcases hyc with ⟨f', fn', rfl, h1', -⟩ | rfl
  · rw [← List.append_assoc, ← List.append_assoc] at hm
    refine below_not_above (Or.inr ⟨cfg.storageDir e'.version ++ "/files".toList, ?_⟩) (versionName_noslash h1').2.1 (versionName_noslash h1).2.2 hm
    simp
  · simp [List.cons_prefix_cons] at hxy
  · simp [List.cons_prefix_cons] at hxy
  · refine below_not_above (Or.inr ⟨cfg.storageDir e'.version, rfl⟩) ?_ (by simp) hm
    intro h
    rcases List.mem_append.1 h with h | h
    · exact absurd h (by decide +kernel)
    · exact hname' h

/-- The directory of a release is none of the files of an element. -/
theorem storageDir_ne_path {e : RelElem} (v : Int) {p : Str} (hp : VersionPath cfg e p) : cfg.storageDir v ≠ p := by
  rcases versionPath_cases ⟨v, e.name, e.url⟩ hp with h | ⟨x, rfl, hx, -⟩
  · exact storageDir_ne_versionPath h
  · intro h
    rw [storageDir_eq, storageDir_eq] at h
    simp only [List.append_assoc, List.append_cancel_left_eq, List.cons_append, List.cons.injEq, true_and] at h
    have : '/' ∈ showInt v := by rw [h]; simp
    exact showInt_noslash v this

/-! ## What a request changes -/

/-- From a disk to another, only files of an element are written. -/
structure VersionTouch (cfg : PCfg) (e : RelElem) (d d' : Disk) : Prop where
  file : ∀ q b, d'.fs q = some (.file b) → d.fs q = some (.file b) ∨ VersionPath cfg e q
  dir : ∀ q, d'.fs q = some .dir → d.fs q = some .dir ∨ ∃ p, VersionPath cfg e p ∧ q ∈ dirPrefixes (dirname p)
  link : ∀ q, d'.links q = d.links q ∨ VersionPath cfg e q
  kept : ∀ q, ¬ VersionPath cfg e q → d.fs q = some .dir → d'.fs q = some .dir

variable {e : RelElem}

theorem VersionTouch.refl (d : Disk) : VersionTouch cfg e d d := ⟨fun _ _ h => .inl h, fun _ h => .inl h, fun _ => .inl rfl, fun _ _ h => h⟩

theorem VersionTouch.trans {d d1 d2 : Disk} (h : VersionTouch cfg e d d1) (h' : VersionTouch cfg e d1 d2) : VersionTouch cfg e d d2 := by
  refine ⟨fun q b hb => ?_, fun q hq => ?_, fun q => ?_, fun q hq hd => h'.kept q hq (h.kept q hq hd)⟩
  · rcases h'.file q b hb with h1 | h1
    · exact h.file q b h1
    · exact .inr h1
  · rcases h'.dir q hq with h1 | h1
    · exact h.dir q h1
    · exact .inr h1
  · rcases h'.link q with h1 | h1
    · rw [h1]; exact h.link q
    · exact .inr h1

theorem touch_download (d : Disk) (c : DownloadCall) (hc : VersionPath cfg e (c.dest cfg.base)) :
    VersionTouch cfg e d { d with fs := (download cfg.base d.fs c).1 } := by
  unfold download
  split
  · exact VersionTouch.refl d
  · cases hr : c.response with
    | error er => exact VersionTouch.refl d
    | ok content =>
      have htouch := writeFileOrRemove_touches d.fs (c.dest cfg.base) [.write content] c.faults
      refine ⟨fun q b hb => ?_, fun q hq => ?_, fun q => .inl rfl, fun q hq hd => ?_⟩
      · by_cases hq : q = c.dest cfg.base
        · exact Or.inr (by rw [hq]; exact hc)
        · rcases htouch q hq with h1 | ⟨-, -, h1⟩
          · left; simp only at hb; rw [h1] at hb; exact hb
          · simp only at hb; rw [h1] at hb; simp at hb
      · rcases writeFileOrRemove_dir hq with h1 | h1
        · exact Or.inl h1
        · exact Or.inr ⟨_, hc, h1⟩
      · have hne : q ≠ c.dest cfg.base := fun h => hq (h ▸ hc)
        rcases htouch _ hne with h1 | ⟨-, -, h1⟩
        · simp only; rw [h1]; exact hd
        · exact h1

theorem touch_loadManif (w : PvWorld) (d : Disk) : VersionTouch cfg e d (cfg.loadManif w e d).1 := by
  unfold PCfg.loadManif
  split
  · exact VersionTouch.refl d
  · unfold downloadManifest
    cases hid : (ManifestRef.url e.url).toId with
    | error er => exact VersionTouch.refl d
    | ok n =>
      simp only
      have h := touch_download (cfg := cfg) (e := e) d ⟨manifestRel n, none, false, w.manifest (manifestRel n), w.manifestFaults⟩ (.manifest n)
      rcases hd : download cfg.base d.fs ⟨manifestRel n, none, false, w.manifest (manifestRel n), w.manifestFaults⟩ with ⟨fs, r, t⟩
      rw [hd] at h
      cases r <;> exact h

theorem touch_fetchBundles (w : PvWorld) : ∀ (ids : List (Option Nat)) (d : Disk), VersionTouch cfg e d (cfg.fetchBundles w d ids).1
  | [], d => VersionTouch.refl d
  | i :: r, d => by
    unfold PCfg.fetchBundles
    cases hi : bundleIdRes i with
    | error er => exact VersionTouch.refl d
    | ok b =>
      simp only
      have h := touch_download (cfg := cfg) (e := e) d (bundleCall w.bundle w.bundleFaults b) (.bundle b)
      rcases hd : download cfg.base d.fs (bundleCall w.bundle w.bundleFaults b) with ⟨fs, er | u, t⟩
      · rw [hd] at h; exact h
      · rw [hd] at h; exact h.trans (touch_fetchBundles w r _)

theorem touch_extract {fileName : Str} {f : PFile} (hvf : VersionFile e.name fileName) (hf : f.name = some fileName) (o : Bool) (d : Disk) (flt : ExtractFaults) :
    VersionTouch cfg e d (cfg.elemExtractFile e.version o d f flt).1 := by
  have hout : VersionPath cfg e (cfg.extractPath e.version f) := .extracted fileName f hvf hf
  refine ⟨fun q b hb => ?_, fun q hq => ?_, fun q => ?_, fun q hq hd => ?_⟩
  · rcases elemExtractFile_file hb with h | ⟨x, rfl⟩ | rfl
    · exact .inl h
    · exact .inr (.stored x)
    · exact .inr hout
  · rcases elemExtractFile_dir hq with h | ⟨x, h⟩ | h
    · exact .inl h
    · exact .inr ⟨_, .stored x, h⟩
    · exact .inr ⟨_, hout, h⟩
  · by_cases hq : q = cfg.extractPath e.version f
    · exact .inr (hq ▸ hout)
    · exact .inl (elemExtractFile_links hq)
  · exact elemExtract_keepsDir cfg e.version o d f flt (fun x h => hq (h ▸ .stored x)) (fun h => hq (h ▸ hout)) hd

theorem openAndWrite_cases (fs : FS) (path : Str) (body : List BodyStep) (f : WriteFaults) :
    (openAndWrite fs path body f).1 = fs ∨ ∃ c, (openAndWrite fs path body f).1 = fs.set path (some (.file c)) := by
  unfold openAndWrite
  cases f.open_ with
  | some er => exact .inl rfl
  | none =>
    simp only
    split
    · exact .inl rfl
    · split
      · exact .inl rfl
      · exact .inr ⟨_, rfl⟩

theorem touch_cache (w : PvWorld) (d : Disk) (v : Version) : VersionTouch cfg e d (cfg.writeVersionCache w e d v).1 := by
  have hfst : (cfg.writeVersionCache w e d v).1 = { d with fs := (openAndWrite d.fs (cfg.versionCache e) [.write (utf8Bytes (v.s ++ ['\n']))] w.cache).1 } := by
    unfold PCfg.writeVersionCache
    rcases openAndWrite d.fs (cfg.versionCache e) [.write (utf8Bytes (v.s ++ ['\n']))] w.cache with ⟨fs, er | u⟩ <;> rfl
  rw [hfst]
  rcases openAndWrite_cases d.fs (cfg.versionCache e) [.write (utf8Bytes (v.s ++ ['\n']))] w.cache with h | ⟨c, h⟩
  · rw [h]; exact VersionTouch.refl d
  · rw [h]
    have hne : ∀ q, ¬ VersionPath cfg e q → q ≠ cfg.versionCache e := fun q hq h => hq (h ▸ .cache)
    refine ⟨fun q b hb => ?_, fun q hq => ?_, fun q => .inl rfl, fun q hq hd => ?_⟩
    · by_cases hq : VersionPath cfg e q
      · exact .inr hq
      · simp only [FS.set, if_neg (hne q hq)] at hb
        exact .inl hb
    · by_cases hx : q = cfg.versionCache e
      · subst hx; simp [FS.set] at hq
      · simp only [FS.set, if_neg hx] at hq
        exact .inl hq
    · simp only [FS.set, if_neg (hne q hq)]
      exact hd

/-- Asking for the version of an element, whatever fails -/
theorem touch_version (json : Bytes → Res Str) (w : PvWorld) (d : Disk) : VersionTouch cfg e d (cfg.patchVersion json w e d).1 := by
  unfold PCfg.patchVersion
  split
  · exact VersionTouch.refl d
  · cases d.content (cfg.versionCache e) with
    | some b => exact VersionTouch.refl d
    | none =>
      simp only
      have hret : VersionTouch cfg e d (cfg.retrieveVersion json w e d).1 := by
        unfold PCfg.retrieveVersion
        cases hsrc : versionSource json e.name with
        | error er => exact VersionTouch.refl d
        | ok src =>
          obtain ⟨fileName, ext⟩ := src
          obtain ⟨hvf, -⟩ := versionSource_file hsrc
          simp only
          have h1 := touch_loadManif (cfg := cfg) (e := e) w d
          have hp : ∀ m, (cfg.loadManif w e d).2 = .ok m → ∃ b, (parseRman cfg.zstd).run b = .ok m := by
            intro m hm
            unfold PCfg.loadManif at hm
            split at hm
            · simp at hm
            · split at hm
              · simp at hm
              · rename_i fs path t hd
                simp only [bind, Except.bind] at hm
                split at hm
                · simp at hm
                · exact ⟨_, hm⟩
          rcases hl : cfg.loadManif w e d with ⟨d1, er | m⟩
          · rw [hl] at h1; exact h1
          · rw [hl] at h1 hp
            simp only
            obtain ⟨b, hb⟩ := hp m rfl
            cases hget : m.files.get (some fileName) with
            | error er => exact h1
            | ok f =>
              simp only
              have hfname : f.name = some fileName := by
                apply parseRman_names hb
                unfold Dict.get at hget
                split at hget
                · rename_i hf; simp only [Except.ok.injEq] at hget; rw [hf, hget]
                · simp at hget
              refine h1.trans ?_
              unfold PCfg.retrieveFrom
              have h2 : VersionTouch cfg e d1 (cfg.fetchIfNeeded w e.version d1 f).1 := by
                unfold PCfg.fetchIfNeeded
                split
                · exact VersionTouch.refl d1
                · exact touch_fetchBundles w _ d1
              rcases hfe : cfg.fetchIfNeeded w e.version d1 f with ⟨d2, er | u⟩
              · rw [hfe] at h2; exact h2
              · rw [hfe] at h2
                simp only
                have h3 := touch_extract (cfg := cfg) hvf hfname false d2 w.extract
                rcases hex : cfg.elemExtractFile e.version false d2 f w.extract with ⟨d3, er | u⟩
                · rw [hex] at h3; exact h2.trans h3
                · rw [hex] at h3; exact h2.trans h3
      rcases hr : cfg.retrieveVersion json w e d with ⟨d1, er | v⟩
      · rw [hr] at hret; exact hret
      · rw [hr] at hret; exact hret.trans (touch_cache w d1 v)

theorem Spec.ClearVersion.other {e e' : RelElem} (hdig : ∃ n, ∀ x, (cfg.sha1 x).length = n + 1) (hns : ∀ x, '/' ∉ cfg.sha1 x)
    (hname : '/' ∉ e.name) (hname' : '/' ∉ e'.name) {d d' : Disk} (ht : VersionTouch cfg e d d') (h : ClearVersion cfg e' d) : ClearVersion cfg e' d' := by
  refine ⟨fun p hp hd => ?_, fun p hp q hq => ⟨fun b hb => ?_, ?_⟩, ?_⟩
  · rcases ht.dir p hd with h1 | ⟨p', h1, h2⟩
    · exact h.files p hp h1
    · exact versionPath_apart_two hdig hns hname' hname hp h1 h2
  · rcases ht.file q b hb with h1 | h1
    · exact (h.parents p hp q hq).1 b h1
    · exact versionPath_apart_two hdig hns hname hname' h1 hp hq
  · rcases ht.link q with h1 | h1
    · rw [h1]; exact (h.parents p hp q hq).2
    · exact absurd hq (versionPath_apart_two hdig hns hname hname' h1 hp)
  · exact ht.kept _ (fun hp => storageDir_ne_path _ hp rfl) h.release

end

/-! ## The theorem -/

theorem Spec.PerfectVersion.legit {cdn : Cdn} {served : Str → Bytes} {w : PvWorld} (h : PerfectVersion cdn served w) : w.Legit cdn served := by
  refine ⟨fun p b hb => ?_, by rw [h.manifestFaults], fun b x hx => ?_, fun b => by rw [h.bundleFaults], by rw [h.extract], by rw [h.cache], by rw [h.cache]⟩
  · rw [h.manifest] at hb; exact (Except.ok.inj hb).symm
  · rw [h.bundle] at hx; exact (Except.ok.inj hx).symm

theorem Spec.VersionServed.published {cfg : PCfg} {json : Bytes → Res Str} {cdn : Cdn} {served : Str → Bytes} {catalog : Int → Str → List Nat} {e : RelElem}
    {v : Version} (h : VersionServed cfg json cdn served catalog e v) : Published cfg cdn served catalog e := by
  obtain ⟨n, m, fileName, f, t, hid, hman, hvf, hget, hgen, -, -⟩ := h
  intro n' m' fileName' f' hid' hman' hvf' hget'
  rw [hid] at hid'
  cases hid'
  rw [hman] at hman'
  cases hman'
  have : fileName = fileName' := by
    generalize e.name = nm at hvf hvf'
    cases hvf with
    | client =>
      generalize hn : "client".toList = nm at hvf'
      cases hvf' with
      | client => rfl
      | game => exact absurd hn (by decide +kernel)
    | game =>
      generalize hn : "game".toList = nm at hvf'
      cases hvf' with
      | client => exact absurd hn (by decide +kernel)
      | game => rfl
  subst this
  rw [hget] at hget'
  cases hget'
  exact hgen

/-- When nothing fails, listing the patch elements gives all of them, each with the version written in its files, whatever the storage already has. -/
theorem C60_lists (cfg : PCfg) (json : Bytes → Res Str) (cdn : Cdn) (served : Str → Bytes) (catalog : Int → Str → List Nat)
    (hpbe : cfg.patchline ≠ "pbe".toList) (hsha : NoCollision cfg.sha1 catalog) (hdig : ∃ n, ∀ x, (cfg.sha1 x).length = n + 1)
    (hns : ∀ x, '/' ∉ cfg.sha1 x) (ws : Nat → PvWorld) (hws : ∀ i, PerfectVersion cdn served (ws i)) (version : RelElem → Version)
    (es : List RelElem) (hv : ∀ e ∈ es, VersionServed cfg json cdn served catalog e (version e)) (i : Nat) (d : Disk)
    (hg : GoodStorage cfg json cdn served catalog d) (hc : ∀ e ∈ es, ClearVersion cfg e d) :
    (cfg.patchElements json ws i d es).2 = (es.map fun e => (e, some (version e)), .ok ()) := by
  induction es generalizing i d with
  | nil => rfl
  | cons e r ih =>
    have h1 := C60_succeeds cfg json cdn served catalog hpbe hsha hdig hns d hg e (hc e (by simp)) (ws i) (hws i) _ (hv e (by simp))
    have h2 := (version_good hpbe hsha hg (hws i).legit (hv e (by simp)).published).1
    have h3 := touch_version (cfg := cfg) (e := e) json (ws i) d
    have hnm : ∀ e' ∈ e :: r, '/' ∉ e'.name := by
      intro e' he'
      obtain ⟨_, _, _, _, _, -, -, hvf, -⟩ := hv e' he'
      exact (versionName_noslash hvf).1
    rcases hx : cfg.patchVersion json (ws i) e d with ⟨d1, x⟩
    rw [hx] at h1 h2 h3
    simp only at h1
    subst h1
    have h4 := ih (fun e' he' => hv e' (by simp [he'])) (i + 1) d1 h2 fun e' he' =>
      (hc e' (by simp [he'])).other hdig hns (hnm e (by simp)) (hnm e' (by simp [he'])) h3
    unfold PCfg.patchElements
    rw [hx]
    simp only
    rcases hy : cfg.patchElements json ws (i + 1) d1 r with ⟨d2, l2, res2⟩
    rw [hy] at h4
    simp only [Prod.mk.injEq] at h4
    obtain ⟨rfl, rfl⟩ := h4
    rfl

/-! ## Case -/

/-- A game in a release -/
def versionElemOf (n : Int) : RelElem := { versionElem with version := n }

/-- A disk with nothing but the directories of two releases -/
def versionDisk2 : Disk :=
  ⟨fun p => if p = "/s/cdtb/releases/live/13".toList then some .dir else if p = "/s/cdtb/releases/live/12".toList then some .dir else none, fun _ => none⟩

theorem versionDisk2_files (p : Str) (b : Bytes) : versionDisk2.fs p ≠ some (.file b) := by
  simp only [versionDisk2]
  split
  · simp
  · split <;> simp

/-- The hypotheses of `C60_lists` are met: two releases, whose versions are downloaded. -/
example : (versionCfg.patchElements versionLoad (fun _ => versionWorld) 0 versionDisk2 [versionElemOf 13, versionElemOf 12]).2 =
    ([(versionElemOf 13, some ⟨"10.15".toList, .nums [10, 15]⟩), (versionElemOf 12, some ⟨"10.15".toList, .nums [10, 15]⟩)], .ok ()) := by
  refine C60_lists versionCfg versionLoad versionCdn versionServed versionCatalog (by decide +kernel) ?_ ⟨0, fun _ => rfl⟩
    (fun x => show '/' ∉ "a".toList by decide +kernel) (fun _ => versionWorld) (fun _ => ?_) (fun _ => ⟨"10.15".toList, .nums [10, 15]⟩)
    [versionElemOf 13, versionElemOf 12] ?_ 0 versionDisk2 ?_ ?_
  · intro v n v' n' t t' h h' _
    exact IdsText_unique h h'
  · exact ⟨fun _ => rfl, rfl, fun _ => rfl, fun _ => rfl, fun l => List.Perm.refl l, rfl, rfl⟩
  · have hm : ∃ m, (parseRman versionCfg.zstd).run versionManifest = .ok m ∧ m.files = [(some "content-metadata.json".toList, versionFile)] := by
      have h := versionManifest_files true
      have hz : versionCfg.zstd = (injCfg true).zstd := rfl
      rw [hz]
      cases hx : (parseRman (injCfg true).zstd).run versionManifest with
      | error er => rw [hx] at h; simp [Except.map] at h
      | ok m => rw [hx] at h; exact ⟨m, rfl, by simpa [Except.map] using h⟩
    obtain ⟨m, hm, hf⟩ := hm
    have key : ∀ n, VersionServed versionCfg versionLoad versionCdn versionServed versionCatalog (versionElemOf n) ⟨"10.15".toList, .nums [10, 15]⟩ := by
      intro n
      refine ⟨0x0123456789ABCDEF, m, "content-metadata.json".toList, versionFile, "10.15".toList,
        (show (ManifestRef.url versionElem.url).toId = _ by decide +kernel), hm, .game, ?_, ?_, ?_, by decide +kernel⟩
      · rw [hf]; decide +kernel
      · exact .cons ⟨rfl, by decide, 10, 23, rfl, rfl, by decide +kernel⟩ .nil
      · refine .game (s := "10.15.33".toList) (show versionLoad ([5].map versionCdn.chunk).flatten = _ by decide +kernel) ?_
        exact (matchMetadata_iff _ _).1 (by decide +kernel)
    intro e he
    simp only [List.mem_cons, List.not_mem_nil, or_false] at he
    rcases he with rfl | rfl <;> exact key _
  · refine ⟨C34_fresh _ _ _ _ (fun _ => rfl) versionDisk2_files, fun n b h => absurd h (versionDisk2_files _ b), fun _ => rfl, fun e b h => ?_⟩
    rw [content_eq_some] at h
    exact absurd h (versionDisk2_files _ b)
  · have h12 : versionCfg.storageDir 12 = "/s/cdtb/releases/live/12".toList := by decide +kernel
    have h13 : versionCfg.storageDir 13 = "/s/cdtb/releases/live/13".toList := by decide +kernel
    intro e he
    refine ⟨fun p hp h => ?_, fun p hp q hq => ⟨versionDisk2_files q, rfl⟩, ?_⟩
    · have n12 := storageDir_ne_path 12 hp
      have n13 := storageDir_ne_path 13 hp
      rw [h12] at n12
      rw [h13] at n13
      simp only [versionDisk2] at h
      rw [if_neg (Ne.symm n13), if_neg (Ne.symm n12)] at h
      exact absurd h (by simp)
    · simp only [List.mem_cons, List.not_mem_nil, or_false] at he
      rcases he with rfl | rfl <;> decide +kernel

end Cdtb
