import Verif.Lemmas.VersionCache
/-!
# C60  The patch version of an element

`cdn` gives the content of chunks and bundles of the CDN, `served` the content of its manifests, `catalog version name` the
chunks of the file with this name in a release. `json b` is the value of the key `version` of a JSON object.
-/
namespace Cdtb
set_option autoImplicit false
open Py Spec

/-! ## The version in a file -/

/-- `system.yaml`: the version is the one of the first line giving a branch; there is none if no line gives a branch. -/
theorem C60_yaml (b : Bytes) (text : Str) (ht : utf8 b = .ok text) (ls : List Str) (hl : TextLines text ls) :
    (∀ v, systemYamlVersion b = .ok (some v) ↔ FirstBranch ls v) ∧
    (systemYamlVersion b = .ok none ↔ ∀ l ∈ ls, ∀ v, ¬ BranchLine l v) := by
  have h := findSome_yaml (fileLines_textLines hl)
  have e : systemYamlVersion b = .ok ((fileLines (universalNewlines text)).findSome? yamlLine) := by
    simp [systemYamlVersion, ht, bind, Except.bind, pure, Except.pure]
  rw [e]
  exact ⟨fun v => by rw [← h.1 v, Except.ok.injEq], by rw [← h.2, Except.ok.injEq]⟩

/-- Every text has lines, and the version is the only one. -/
theorem C60_yaml_total (text : Str) : (∃ ls, TextLines text ls) ∧
    ∀ ls ls' v v', TextLines text ls → TextLines text ls' → FirstBranch ls v → FirstBranch ls' v' → v = v' := by
  refine ⟨textLines_total text, fun ls ls' v v' h h' hv hv' => ?_⟩
  have h1 := ((findSome_yaml (fileLines_textLines h)).1 v).2 hv
  have h2 := ((findSome_yaml (fileLines_textLines h')).1 v').2 hv'
  rw [h1] at h2
  exact Option.some.inj h2

/-- `content-metadata.json`: the version is the first two numbers of the value of `version`, if a dot follows them. -/
theorem C60_metadata (json : Bytes → Res Str) (b : Bytes) (s : Str) (hs : json b = .ok s) :
    (∀ v, contentMetadataVersion json b = .ok (some v) ↔ ShortVersion s v) ∧
    (contentMetadataVersion json b = .ok none ↔ ∀ v, ¬ ShortVersion s v) := by
  have e : contentMetadataVersion json b = .ok (matchMetadata s) := by
    simp [contentMetadataVersion, hs, bind, Except.bind, pure, Except.pure]
  rw [e]
  refine ⟨fun v => by rw [← matchMetadata_iff, Except.ok.injEq], ?_⟩
  rw [Except.ok.injEq, Option.eq_none_iff_forall_ne_some]
  exact forall_congr' fun v => not_congr (matchMetadata_iff s v)

/-! ## Specification of a storage -/

/-- `v` is the version of an element, from the file of the release that gives it. -/
def IsVersion (json : Bytes → Res Str) (cdn : Cdn) (catalog : Int → Str → List Nat) (e : RelElem) (v : Version) : Prop :=
  ∃ fileName t, VersionFile e.name fileName ∧ ElementVersion json e.name (cdn.file (catalog e.version fileName)) t ∧
    Cdtb.patchVersion (.str t) = .ok v

/-- The manifest of an element describes its file as the catalog does. -/
def Published (cfg : PCfg) (cdn : Cdn) (served : Str → Bytes) (catalog : Int → Str → List Nat) (e : RelElem) : Prop :=
  ∀ n m fileName f, (ManifestRef.url e.url).toId = .ok n → (parseRman cfg.zstd).run (served (manifestRel n)) = .ok m →
    VersionFile e.name fileName → m.files.get (some fileName) = .ok f → Genuine cfg cdn f (catalog e.version fileName)

/-- Responses are those of the CDN; partly written files can be removed; the cache is written entirely, or not opened. -/
structure PvWorld.Legit (cdn : Cdn) (served : Str → Bytes) (w : PvWorld) : Prop where
  manifest : ∀ p b, w.manifest p = .ok b → b = served p
  manifestRemove : w.manifestFaults.remove = false
  bundle : ∀ b x, w.bundle b = .ok x → x = cdn.bundle b
  bundleRemove : ∀ b, (w.bundleFaults b).remove = false
  extractRemove : w.extract.write.remove = false
  cacheWrite : w.cache.write 0 = none
  cacheClose : w.cache.close = none

/-- A disk consistent with the CDN and the catalog, caches included -/
structure GoodStorage (cfg : PCfg) (json : Bytes → Res Str) (cdn : Cdn) (served : Str → Bytes) (catalog : Int → Str → List Nat)
    (d : Disk) : Prop where
  disk : GoodDisk cfg cdn catalog d
  manifests : ∀ n b, d.fs (storageFspath cfg.base (manifestRel n)) = some (.file b) → b = served (manifestRel n)
  cacheLinks : ∀ e, d.links (cfg.versionCache e) = none
  caches : ∀ e b, d.content (cfg.versionCache e) = some b → ∃ v, IsVersion json cdn catalog e v ∧ b = utf8Bytes (v.s ++ ['\n'])

/-! ## Cache -/

theorem versionSource_file {json : Bytes → Res Str} {name fileName : Str} {ext : Bytes → Res (Option Str)}
    (h : versionSource json name = .ok (fileName, ext)) : VersionFile name fileName ∧
    ∀ b t, ext b = .ok (some t) → ElementVersion json name b t := by
  unfold versionSource at h
  split at h
  · rename_i hn
    simp only [Except.ok.injEq, Prod.mk.injEq] at h
    obtain ⟨rfl, rfl⟩ := h
    subst hn
    refine ⟨.client, fun b t hb => ?_⟩
    cases hu : utf8 b with
    | error er => simp [systemYamlVersion, hu, bind, Except.bind] at hb
    | ok text =>
      obtain ⟨ls, hls⟩ := textLines_total text
      exact .client hu hls (((C60_yaml b text hu ls hls).1 t).1 hb)
  · split at h
    · rename_i hn
      simp only [Except.ok.injEq, Prod.mk.injEq] at h
      obtain ⟨rfl, rfl⟩ := h
      subst hn
      refine ⟨.game, fun b t hb => ?_⟩
      cases hj : json b with
      | error er => simp [contentMetadataVersion, hj, bind, Except.bind] at hb
      | ok s => exact .game hj (((C60_metadata json b s hj).1 t).1 hb)
    · simp at h

theorem elementVersion_chars {json : Bytes → Res Str} {name : Str} {b : Bytes} {t : Str} (h : ElementVersion json name b t) :
    ∀ c ∈ t, c ∈ "0123456789.".toList := by
  have hsub : ∀ c ∈ "0123456789".toList, c ∈ "0123456789.".toList := by decide +kernel
  have hdot : '.' ∈ "0123456789.".toList := by decide +kernel
  cases h with
  | client _ _ hf =>
    obtain ⟨_, _, _, _, ⟨_, _, _, _, _, _, _, _, _, _, h⟩, _⟩ := hf
    exact h
  | game _ hs =>
    obtain ⟨x, y, _, hx, hy, _, rfl⟩ := hs
    intro c hc
    simp only [List.mem_append, List.mem_cons] at hc
    rcases hc with hc | rfl | hc
    · exact hsub c (hx.2 c hc)
    · exact hdot
    · exact hsub c (hy.2 c hc)

/-- The text of a version found in a file is read back from the cache. -/
theorem cache_roundtrip {t : Str} {v : Version} (ht : ∀ c ∈ t, c ∈ "0123456789.".toList) (hv : Cdtb.patchVersion (.str t) = .ok v) :
    readVersionCache (utf8Bytes (v.s ++ ['\n'])) = .ok (some v) := by
  have hm : t ≠ "main".toList := by
    rintro rfl
    have := ht 'm' (by decide +kernel)
    exact absurd this (by decide +kernel)
  have hm' : VArg.str t ≠ .str "main".toList := by simpa using hm
  -- the text of the version
  have key : (∀ c ∈ v.s, c ≠ '\r' ∧ isSpace c = false) ∧ v.s ≠ [] ∧ Cdtb.patchVersion (.str v.s) = .ok v := by
    cases hb : baseVersion (.str t) with
    | error er => simp only [Cdtb.patchVersion, if_neg hm', hb, bind, Except.bind] at hv; simp at hv
    | ok a =>
      obtain ⟨h1, nums, h2, -⟩ := C02_text_kept hb
      obtain ⟨as, at_⟩ := a
      simp only at h1 h2
      subst h1 h2
      have hne : as ≠ [] := by rintro rfl; simp [baseVersion] at hb
      rcases nums with _ | ⟨x, _ | ⟨y, r⟩⟩
      · simp only [Cdtb.patchVersion, if_neg hm', hb, bind, Except.bind] at hv; simp at hv
      · simp only [Cdtb.patchVersion, if_neg hm', hb, bind, Except.bind] at hv; simp at hv
      · obtain ⟨g1, g2⟩ := C02_patch_truncates_text hb
        have hxy := (C02_patch_truncates_tuple x y []).2
        by_cases hr : r = []
        · have := g2 hr
          rw [hv] at this
          simp only [Except.ok.injEq] at this
          subst this
          refine ⟨fun c hc => ?_, hne, hv⟩
          have := versionChar_props c (ht c hc)
          exact ⟨this.2.1, this.2.2.1⟩
        · have := g1 hr
          rw [hv, hxy] at this
          simp only [Except.ok.injEq] at this
          subst this
          refine ⟨fun c hc => ?_, by simp, ?_⟩
          · simp only [List.mem_append, List.mem_cons] at hc
            have hsp : ∀ n : Int, c ∈ showInt n → c ≠ '\r' ∧ isSpace c = false := by
              intro n hn
              have h := (showInt_no_dot hn).2
              refine ⟨?_, h⟩
              rintro rfl
              exact absurd h (by decide)
            rcases hc with hc | rfl | hc
            · exact hsp x hc
            · decide
            · exact hsp y hc
          · have hb2 := baseVersion_str_join (t := [x, y]) (by simp)
            have hj : join ['.'] ([x, y].map showInt) = showInt x ++ '.' :: showInt y := by simp [join]
            rw [hj] at hb2
            obtain ⟨-, k2⟩ := C02_patch_truncates_text (r := []) hb2
            exact k2 rfl
  obtain ⟨k1, k2, k3⟩ := key
  have hu : universalNewlines (v.s ++ ['\n']) = v.s ++ ['\n'] := by
    rw [universal_plain (fun h => (k1 _ h).1 rfl)]
    rfl
  have hs : strip (v.s ++ ['\n']) = v.s := by
    have e1 : (v.s ++ ['\n']).dropWhile isSpace = v.s ++ ['\n'] := by
      cases hv' : v.s with
      | nil => exact absurd hv' k2
      | cons c r =>
        rw [List.cons_append, List.dropWhile_cons_of_neg]
        rw [(k1 c (by rw [hv']; simp)).2]; simp
    have e2 : v.s.reverse.dropWhile isSpace = v.s.reverse := dropWhile_eq_self fun c hc => (k1 c (by simpa using hc)).2
    have e3 : isSpace '\n' = true := by decide
    simp only [strip, e1, List.reverse_append, List.reverse_cons, List.reverse_nil, List.nil_append, List.cons_append,
      List.dropWhile_cons, e3, if_true, e2, List.reverse_reverse]
  simp only [readVersionCache, utf8_utf8Bytes, bind, Except.bind, hu, hs]
  rw [if_neg (by simpa using k2), k3]
  rfl

/-- Retrieving the version: the disk stays good and the version is the one of the release. -/
theorem retrieve_good {cfg : PCfg} {json : Bytes → Res Str} {cdn : Cdn} {served : Str → Bytes} {catalog : Int → Str → List Nat}
    (hsha : NoCollision cfg.sha1 catalog) {d : Disk} (hg : GoodStorage cfg json cdn served catalog d) {w : PvWorld}
    (hw : w.Legit cdn served) {e : RelElem} (hp : Published cfg cdn served catalog e) :
    GoodDisk cfg cdn catalog (cfg.retrieveVersion json w e d).1 ∧
    (∀ n b, (cfg.retrieveVersion json w e d).1.fs (cfg.manifestPath n) = some (.file b) → b = served (manifestRel n)) ∧
    ∀ v, (cfg.retrieveVersion json w e d).2 = .ok v → IsVersion json cdn catalog e v := by
  unfold PCfg.retrieveVersion
  cases hsrc : versionSource json e.name with
  | error er => exact ⟨hg.disk, hg.manifests, by simp⟩
  | ok src =>
    obtain ⟨fileName, ext⟩ := src
    simp only
    obtain ⟨hvf, hext⟩ := versionSource_file hsrc
    -- the manifest
    have hm : GoodDisk cfg cdn catalog (cfg.loadManif w e d).1 ∧
        (∀ n b, (cfg.loadManif w e d).1.fs (cfg.manifestPath n) = some (.file b) → b = served (manifestRel n)) ∧
        (∀ m, (cfg.loadManif w e d).2 = .ok m → ∃ n, (ManifestRef.url e.url).toId = .ok n ∧ (parseRman cfg.zstd).run (served (manifestRel n)) = .ok m) := by
      refine ⟨?_, ?_, ?_⟩
      · exact hg.disk.of_same (fun b => loadManif_same cfg w e d fun n => (manifest_ne_bundle cfg n b).symm)
          (fun x => loadManif_same cfg w e d fun n => (manifest_ne_store cfg n x).symm)
          (fun v f => loadManif_same cfg w e d fun n => (manifest_ne_extract cfg n v f).symm)
      all_goals
        unfold PCfg.loadManif
        split
        · first | exact hg.manifests | simp
        · unfold downloadManifest
          cases hid : (ManifestRef.url e.url).toId with
          | error er => first | exact hg.manifests | simp
          | ok n =>
            simp only
            have hk : ∀ n' b, (download cfg.base d.fs ⟨manifestRel n, none, false, w.manifest (manifestRel n), w.manifestFaults⟩).1
                (cfg.manifestPath n') = some (.file b) → b = served (manifestRel n') := by
              intro n'
              exact download_keeps cfg.base served d.fs ⟨manifestRel n, none, false, w.manifest (manifestRel n), w.manifestFaults⟩
                (cfg.manifestPath n') (manifestRel n') (fun b hb => hw.manifest _ b hb) hw.manifestRemove
                (fun h => manifestRel_path (cfg := cfg) h) (fun b hb => hg.manifests n' b hb)
            rcases he : download cfg.base d.fs ⟨manifestRel n, none, false, w.manifest (manifestRel n), w.manifestFaults⟩ with ⟨fs, r, t⟩
            rw [he] at hk
            cases r with
            | error er => first | exact hk | simp
            | ok u =>
              first
              | exact hk
              | intro m hm
                simp only at hm
                have hk' := hk n
                unfold PCfg.manifestPath at hk'
                cases hf : fs (storageFspath cfg.base (manifestRel n)) with
                | none => simp [FS.readFile, hf, bind, Except.bind] at hm
                | some nd =>
                  cases nd with
                  | dir => simp [FS.readFile, hf, bind, Except.bind] at hm
                  | file b =>
                    simp only [FS.readFile, hf, bind, Except.bind] at hm
                    rw [hk' b hf] at hm
                    exact ⟨n, rfl, hm⟩
    rcases hlm : cfg.loadManif w e d with ⟨d1, r⟩
    rw [hlm] at hm
    obtain ⟨hd1, hman1, hm⟩ := hm
    cases r with
    | error er => exact ⟨hd1, hman1, by simp⟩
    | ok m =>
      simp only at hm ⊢
      obtain ⟨n, hid, hparse⟩ := hm m rfl
      cases hfile : m.files.get (some fileName) with
      | error er => exact ⟨hd1, hman1, by simp⟩
      | ok f =>
        simp only
        have hname : f.name = some fileName := by
          apply parseRman_names hparse
          unfold Dict.get at hfile
          split at hfile
          · rename_i hf; simp only [Except.ok.injEq] at hfile; rw [hf, hfile]
          · simp at hfile
        have hgen : Genuine cfg cdn f (catalog e.version (fmtOpt f.name)) := by
          rw [hname]; exact hp n m fileName f hid hparse hvf hfile
        have hfn : fmtOpt f.name = fileName := by rw [hname]; rfl
        refine ⟨?_, ?_, ?_⟩
        rotate_left
        · intro n' b hb
          refine hman1 n' b (((retrieveFrom_same cfg w e.version d1 f ext (fun b => manifest_ne_bundle cfg n' b)
            (fun x => manifest_ne_store cfg n' x) (manifest_ne_extract cfg n' _ f)).2 b).1 hb)
        all_goals
          unfold PCfg.retrieveFrom
          have hfetch : GoodDisk cfg cdn catalog (cfg.fetchIfNeeded w e.version d1 f).1 := by
            unfold PCfg.fetchIfNeeded
            split
            · exact hd1
            · generalize w.order (fileBundles [f]) = ids
              clear * - hd1 hw
              induction ids generalizing d1 with
              | nil => exact hd1
              | cons i ids ih =>
                simp only [PCfg.fetchBundles]
                cases bundleIdRes i with
                | error er => exact hd1
                | ok b =>
                  simp only
                  have hgd := good_download hd1 (b := b) (r := w.bundle b) (f := w.bundleFaults b) ⟨fun x hx => hw.bundle b x hx, hw.bundleRemove b⟩
                  simp only [POp.run] at hgd
                  have hcall : bundleCall (fun _ => w.bundle b) (fun _ => w.bundleFaults b) b = bundleCall w.bundle w.bundleFaults b := rfl
                  rw [hcall] at hgd
                  rcases he : download cfg.base d1.fs (bundleCall w.bundle w.bundleFaults b) with ⟨fs, r, t⟩
                  rw [he] at hgd
                  cases r with
                  | error er => exact hgd
                  | ok u => exact ih _ hgd
          rcases hfe : cfg.fetchIfNeeded w e.version d1 f with ⟨d2, r⟩
          rw [hfe] at hfetch
          cases r with
          | error er => first | exact hfetch | simp
          | ok u =>
            simp only
            obtain ⟨h1, h2⟩ := good_step hsha hfetch (op := .extract e.version false f w.extract) ⟨hgen, hw.extractRemove⟩
            simp only [POp.run] at h1 h2
            rcases hex : cfg.elemExtractFile e.version false d2 f w.extract with ⟨d3, r⟩
            rw [hex] at h1 h2
            cases r with
            | error er => first | exact h1 | simp
            | ok u =>
              first
              | exact h1
              | intro v hv
                simp only at hv
                have hc := h2 e.version false f w.extract rfl rfl
                simp only at hc
                unfold PCfg.readVersion at hv
                rw [hc] at hv
                simp only [bind, Except.bind] at hv
                cases hx : ext (cdn.file (catalog e.version (fmtOpt f.name))) with
                | error er => rw [hx] at hv; simp at hv
                | ok o =>
                  rw [hx] at hv
                  cases o with
                  | none => simp [throw, throwThe, MonadExceptOf.throw] at hv
                  | some t =>
                    simp only at hv
                    rw [hfn] at hx
                    exact ⟨fileName, t, hvf, hext _ t hx, hv⟩

/-! ## Histories -/

/-- An operation of a history: a download or an extraction (C34), or a call of `patch_version` -/
inductive VOp where
  | store (op : POp)
  | version (w : PvWorld) (e : RelElem)

def VOp.run (cfg : PCfg) (json : Bytes → Res Str) (d : Disk) : VOp → Disk
  | .store op => (op.run cfg d).1
  | .version w e => (cfg.patchVersion json w e d).1

def VOp.Legit (cfg : PCfg) (cdn : Cdn) (served : Str → Bytes) (catalog : Int → Str → List Nat) : VOp → Prop
  | .store op => op.Legit cfg cdn catalog
  | .version w e => w.Legit cdn served ∧ Published cfg cdn served catalog e

theorem writeCache_content {cfg : PCfg} {w : PvWorld} {e : RelElem} {d : Disk} {v : Version} (hw0 : w.cache.write 0 = none)
    (hw1 : w.cache.close = none) (hl : d.links (cfg.versionCache e) = none) (hn : d.content (cfg.versionCache e) = none) {b : Bytes}
    (h : (cfg.writeVersionCache w e d v).1.content (cfg.versionCache e) = some b) : b = utf8Bytes (v.s ++ ['\n']) := by
  have hno : ∀ x, d.fs (cfg.versionCache e) ≠ some (.file x) := by
    intro x hx; rw [content_plain hl hx] at hn; simp at hn
  have hc : closeFile w.cache (writeBody w.cache 0 [] [.write (utf8Bytes (v.s ++ ['\n']))]) = (utf8Bytes (v.s ++ ['\n']), .ok ()) := by
    simp [closeFile, writeBody, hw0, hw1]
  rw [content_eq_some] at h
  unfold PCfg.writeVersionCache openAndWrite at h
  cases ho : w.cache.open_ with
  | some er => simp only [ho, Disk.resolve, hl, Option.getD_none] at h; exact absurd h (hno b)
  | none =>
    simp only [ho, hc] at h
    split at h
    · rename_i hx
      split at hx <;> (try split at hx) <;> simp only [Prod.mk.injEq, reduceCtorEq, and_false] at hx
      · obtain ⟨rfl, -⟩ := hx
        simp only [Disk.resolve, hl, Option.getD_none] at h; exact absurd h (hno b)
      · obtain ⟨rfl, -⟩ := hx
        simp only [Disk.resolve, hl, Option.getD_none] at h; exact absurd h (hno b)
    · rename_i hx
      split at hx <;> (try split at hx) <;> simp only [Prod.mk.injEq, reduceCtorEq, and_false, and_true] at hx
      subst hx
      simp only [Disk.resolve, hl, Option.getD_none, FS.set_self, Option.some.injEq, Node.file.injEq] at h
      exact h.symm

/-- A call of `patch_version`, whatever its outcome, leaves a good storage; a version which is returned is the one of the release. -/
theorem version_good {cfg : PCfg} {json : Bytes → Res Str} {cdn : Cdn} {served : Str → Bytes} {catalog : Int → Str → List Nat}
    (hpbe : cfg.patchline ≠ "pbe".toList) (hsha : NoCollision cfg.sha1 catalog) {d : Disk} (hg : GoodStorage cfg json cdn served catalog d)
    {w : PvWorld} (hw : w.Legit cdn served) {e : RelElem} (hp : Published cfg cdn served catalog e) :
    GoodStorage cfg json cdn served catalog (cfg.patchVersion json w e d).1 ∧
    ∀ r, (cfg.patchVersion json w e d).2 = .ok r → ∃ v, r = some v ∧ IsVersion json cdn catalog e v := by
  unfold PCfg.patchVersion
  rw [if_neg hpbe]
  cases hc : d.content (cfg.versionCache e) with
  | some b =>
    refine ⟨hg, fun r hr => ?_⟩
    obtain ⟨v, hv, rfl⟩ := hg.caches e b hc
    obtain ⟨fileName, t, h1, h2, h3⟩ := id hv
    simp only [cache_roundtrip (elementVersion_chars h2) h3, Except.ok.injEq] at hr
    exact ⟨v, hr.symm, hv⟩
  | none =>
    simp only
    obtain ⟨h1, h2, h3⟩ := retrieve_good hsha hg hw hp
    have hsame : ∀ e', SameAt d (cfg.retrieveVersion json w e d).1 (cfg.versionCache e') := fun e' =>
      retrieveVersion_same cfg json w e d (fun n => (manifest_ne_cache cfg n e').symm) (cache_ne_bundle cfg e') (cache_ne_store cfg e')
        (cache_ne_extract cfg e' _)
    rcases hr : cfg.retrieveVersion json w e d with ⟨d1, r⟩
    rw [hr] at h1 h2 h3 hsame
    simp only at h1 h2 h3 hsame
    have hcont : ∀ e', d1.content (cfg.versionCache e') = d.content (cfg.versionCache e') := fun e' => (hsame e').content (hg.cacheLinks e')
    have hlinks : ∀ e', d1.links (cfg.versionCache e') = none := fun e' => (hsame e').1.trans (hg.cacheLinks e')
    have hg1 : GoodStorage cfg json cdn served catalog d1 :=
      ⟨h1, h2, hlinks, fun e' b hb => hg.caches e' b (by rw [← hcont e']; exact hb)⟩
    cases r with
    | error er => exact ⟨hg1, by simp⟩
    | ok v =>
      simp only
      have hv := h3 v rfl
      have hws := fun q (hq : q ≠ cfg.versionCache e) => writeCache_same cfg w e d1 v hq
      refine ⟨⟨?_, ?_, ?_, ?_⟩, ?_⟩
      · exact h1.of_same (fun b => hws _ (cache_ne_bundle cfg e b).symm) (fun x => hws _ (cache_ne_store cfg e x).symm)
          (fun v f => hws _ (cache_ne_extract cfg e v f).symm)
      · intro n b hb
        exact h2 n b (((hws _ (manifest_ne_cache cfg n e)).2 b).1 hb)
      · intro e'
        by_cases hq : cfg.versionCache e' = cfg.versionCache e
        · rw [hq]
          unfold PCfg.writeVersionCache
          rcases openAndWrite d1.fs (cfg.versionCache e) [.write (utf8Bytes (v.s ++ ['\n']))] w.cache with ⟨fs, r⟩
          cases r <;> exact hlinks e
        · exact (hws _ hq).1.trans (hlinks e')
      · intro e' b hb
        by_cases hq : cfg.versionCache e' = cfg.versionCache e
        · obtain ⟨q1, q2⟩ := versionCache_inj hq
          rw [hq] at hb
          refine ⟨v, ?_, writeCache_content hw.cacheWrite hw.cacheClose (hlinks e) (by rw [hcont e]; exact hc) hb⟩
          obtain ⟨fn, t, k1, k2, k3⟩ := hv
          exact ⟨fn, t, by rw [q2]; exact k1, by rw [q1, q2]; exact k2, k3⟩
        · rw [(hws _ hq).content (hlinks e')] at hb
          exact hg1.caches e' b hb
      · intro r hr
        unfold PCfg.writeVersionCache at hr
        split at hr
        · simp at hr
        · simp only [Except.ok.injEq] at hr
          exact ⟨v, hr.symm, hv⟩

theorem vop_good {cfg : PCfg} {json : Bytes → Res Str} {cdn : Cdn} {served : Str → Bytes} {catalog : Int → Str → List Nat}
    (hpbe : cfg.patchline ≠ "pbe".toList) (hsha : NoCollision cfg.sha1 catalog) {d : Disk} (hg : GoodStorage cfg json cdn served catalog d)
    {op : VOp} (hop : op.Legit cfg cdn served catalog) : GoodStorage cfg json cdn served catalog (op.run cfg json d) := by
  cases op with
  | version w e => exact (version_good hpbe hsha hg hop.1 hop.2).1
  | store op =>
    have hd := (good_step hsha hg.disk (op := op) hop).1
    have hsame : ∀ q, (∀ b, q ≠ cfg.bundlePath b) → (∀ x, q ≠ cfg.storePath x) → (∀ v f, q ≠ cfg.extractPath v f) →
        SameAt d (op.run cfg d).1 q := by
      intro q hb hs he
      cases op with
      | download b r f => exact download_same cfg d _ (hb b)
      | extract v o file f => exact elemExtract_same cfg v o d file f hs (he v file)
    have hc := fun e => hsame (cfg.versionCache e) (cache_ne_bundle cfg e) (cache_ne_store cfg e) (cache_ne_extract cfg e)
    refine ⟨hd, ?_, fun e => (hc e).1.trans (hg.cacheLinks e), ?_⟩
    · intro n b hb
      exact hg.manifests n b (((hsame _ (manifest_ne_bundle cfg n) (manifest_ne_store cfg n) (manifest_ne_extract cfg n)).2 b).1 hb)
    · intro e b hb
      refine hg.caches e b ?_
      rw [← (hc e).content (hg.cacheLinks e)]; exact hb

/-- After any history of downloads, extractions and calls of `patch_version`, with any failures of the network and of the
disk (but a cache which is opened is entirely written): a version which is returned is the one written in the file of
the release, whether it comes from the cache or not; a call never returns no version. -/
theorem C60_history (cfg : PCfg) (json : Bytes → Res Str) (cdn : Cdn) (served : Str → Bytes) (catalog : Int → Str → List Nat)
    (hpbe : cfg.patchline ≠ "pbe".toList) (hsha : NoCollision cfg.sha1 catalog) (d : Disk) (hg : GoodStorage cfg json cdn served catalog d)
    (ops : List VOp) (hops : ∀ op ∈ ops, op.Legit cfg cdn served catalog) (w : PvWorld) (hw : w.Legit cdn served) (e : RelElem)
    (hp : Published cfg cdn served catalog e) (d' : Disk) (r : Option Version)
    (h : cfg.patchVersion json w e (ops.foldl (VOp.run cfg json) d) = (d', .ok r)) :
    ∃ v fileName t, r = some v ∧ VersionFile e.name fileName ∧ Cdtb.patchVersion (.str t) = .ok v ∧
      ElementVersion json e.name ((catalog e.version fileName).map cdn.chunk).flatten t := by
  have hg' : GoodStorage cfg json cdn served catalog (ops.foldl (VOp.run cfg json) d) := by
    clear h
    induction ops generalizing d with
    | nil => exact hg
    | cons op ops ih => exact ih _ (vop_good hpbe hsha hg (hops op (by simp))) (fun o ho => hops o (by simp [ho]))
  obtain ⟨v, h1, fn, t, h2, h3, h4⟩ := (version_good hpbe hsha hg' hw hp).2 r (by rw [h])
  exact ⟨v, fn, t, h1, h2, h4, h3⟩

/-- The version of a release is unique: all calls that succeed agree. -/
theorem C60_agree (json : Bytes → Res Str) (name f f' : Str) (b : Str → Bytes) (t t' : Str) (hf : VersionFile name f) (hf' : VersionFile name f')
    (h : ElementVersion json name (b f) t) (h' : ElementVersion json name (b f') t') : t = t' := by
  have hcg : "client".toList ≠ "game".toList := by decide +kernel
  have hff : f = f' := by
    cases hf <;> cases hf' <;> rfl
  subst hff
  generalize b f = x at h h'
  clear hf hf'
  generalize hn : name = n at h'
  cases h with
  | client h1 h2 h3 =>
    cases h' with
    | client g1 g2 g3 =>
      rw [h1] at g1
      cases g1
      exact (C60_yaml_total _).2 _ _ _ _ h2 g2 h3 g3
    | game => exact absurd hn hcg
  | game h1 h2 =>
    cases h' with
    | client => exact absurd hn.symm hcg
    | game g1 g2 =>
      rw [h1] at g1
      cases g1
      have k1 := (matchMetadata_iff _ _).2 h2
      rw [(matchMetadata_iff _ _).2 g2] at k1
      exact (Option.some.inj k1).symm

/-! ## One call -/

/-- On PBE, the version is always `main`: nothing is read, downloaded or written. -/
theorem C60_pbe (cfg : PCfg) (h : cfg.patchline = "pbe".toList) (json : Bytes → Res Str) (w : PvWorld) (e : RelElem) (d : Disk) :
    cfg.patchVersion json w e d = (d, .ok (some ⟨"main".toList, .main⟩)) := by
  unfold PCfg.patchVersion
  rw [if_pos h]
  simp [Cdtb.patchVersion, Except.map]

/-- A version which has been returned is returned again as long as the cache is not touched, whatever happens to the other
files and to the network; nothing is downloaded nor written. -/
theorem C60_cached (cfg : PCfg) (json : Bytes → Res Str) (w : PvWorld) (e : RelElem) (d d' : Disk) (v : Version)
    (hl : d.links (cfg.versionCache e) = none) (hn : d.content (cfg.versionCache e) = none)
    (hw0 : w.cache.write 0 = none) (hw1 : w.cache.close = none)
    (h : cfg.patchVersion json w e d = (d', .ok (some v))) (later : Disk) (json' : Bytes → Res Str) (w' : PvWorld) (url : Str)
    (hsame : later.content (cfg.versionCache e) = d'.content (cfg.versionCache e)) :
    cfg.patchVersion json' w' { e with url := url } later = (later, .ok (some v)) := by
  by_cases hpbe : cfg.patchline = "pbe".toList
  · rw [C60_pbe cfg hpbe] at h ⊢
    simp only [Prod.mk.injEq, Except.ok.injEq] at h
    rw [h.2]
  · unfold PCfg.patchVersion at h
    rw [if_neg hpbe, hn] at h
    simp only at h
    have hs := retrieveVersion_same cfg json w e d (fun n => (manifest_ne_cache cfg n e).symm) (cache_ne_bundle cfg e) (cache_ne_store cfg e)
        (cache_ne_extract cfg e _)
    -- the text of the version
    have htext : ∀ x, (cfg.retrieveVersion json w e d).2 = .ok x → ∃ t, (∀ c ∈ t, c ∈ "0123456789.".toList) ∧ Cdtb.patchVersion (.str t) = .ok x := by
      intro x hx
      unfold PCfg.retrieveVersion at hx
      cases hsrc : versionSource json e.name with
      | error er => rw [hsrc] at hx; simp at hx
      | ok src =>
        obtain ⟨fileName, ext⟩ := src
        obtain ⟨-, hext⟩ := versionSource_file hsrc
        rw [hsrc] at hx
        simp only at hx
        split at hx
        · simp at hx
        · split at hx
          · simp at hx
          · unfold PCfg.retrieveFrom at hx
            split at hx
            · simp at hx
            · split at hx
              · simp at hx
              · simp only [PCfg.readVersion] at hx
                split at hx
                · simp at hx
                · rename_i b _
                  simp only [bind, Except.bind] at hx
                  cases hxt : ext b with
                  | error er => rw [hxt] at hx; simp at hx
                  | ok o =>
                    rw [hxt] at hx
                    cases o with
                    | none => simp [throw, throwThe, MonadExceptOf.throw] at hx
                    | some t => exact ⟨t, elementVersion_chars (hext b t hxt), hx⟩
    rcases hr : cfg.retrieveVersion json w e d with ⟨d1, r⟩
    rw [hr] at h hs htext
    cases r with
    | error er => simp at h
    | ok x =>
      simp only at h
      have hvx : x = v := by
        unfold PCfg.writeVersionCache at h
        split at h
        · simp at h
        · simp only [Prod.mk.injEq, Except.ok.injEq, Option.some.injEq] at h; exact h.2
      subst hvx
      obtain ⟨t, ht, hpv⟩ := htext x rfl
      have hd' : d'.content (cfg.versionCache e) = some (utf8Bytes (x.s ++ ['\n'])) := by
        have hl1 : d1.links (cfg.versionCache e) = none := hs.1.trans hl
        have hc : closeFile w.cache (writeBody w.cache 0 [] [.write (utf8Bytes (x.s ++ ['\n']))]) = (utf8Bytes (x.s ++ ['\n']), .ok ()) := by
          simp [closeFile, writeBody, hw0, hw1]
        unfold PCfg.writeVersionCache openAndWrite at h
        cases ho : w.cache.open_ with
        | some er => simp [ho] at h
        | none =>
          simp only [ho, hc] at h
          split at h
          · simp at h
          · rename_i hx
            split at hx <;> (try split at hx) <;> simp only [Prod.mk.injEq, reduceCtorEq, and_false, and_true] at hx
            subst hx
            simp only [Prod.mk.injEq, and_true] at h
            rw [← h, content_eq_some]
            simp [Disk.resolve, hl1]
      unfold PCfg.patchVersion
      have hcache : cfg.versionCache { e with url := url } = cfg.versionCache e := rfl
      rw [if_neg hpbe, hcache, hsame, hd']
      simp only [cache_roundtrip ht hpv]

/-- A call that fails leaves no cache (unless writing the cache itself was interrupted): the next call tries again. -/
theorem C60_failure (cfg : PCfg) (json : Bytes → Res Str) (w : PvWorld) (e : RelElem) (d d' : Disk) (er : Err)
    (hl : d.links (cfg.versionCache e) = none) (hn : d.content (cfg.versionCache e) = none)
    (hw0 : w.cache.write 0 = none) (hw1 : w.cache.close = none) (h : cfg.patchVersion json w e d = (d', .error er)) :
    d'.content (cfg.versionCache e) = none := by
  by_cases hpbe : cfg.patchline = "pbe".toList
  · rw [C60_pbe cfg hpbe] at h; simp at h
  · unfold PCfg.patchVersion at h
    rw [if_neg hpbe, hn] at h
    simp only at h
    have hs := retrieveVersion_same cfg json w e d (fun n => (manifest_ne_cache cfg n e).symm) (cache_ne_bundle cfg e) (cache_ne_store cfg e)
        (cache_ne_extract cfg e _)
    rcases hr : cfg.retrieveVersion json w e d with ⟨d1, r⟩
    rw [hr] at h hs
    have hc1 : d1.content (cfg.versionCache e) = none := by rw [hs.content hl, hn]
    cases r with
    | error er =>
      simp only [Prod.mk.injEq] at h
      rw [← h.1]; exact hc1
    | ok x =>
      simp only at h
      have hc : closeFile w.cache (writeBody w.cache 0 [] [.write (utf8Bytes (x.s ++ ['\n']))]) = (utf8Bytes (x.s ++ ['\n']), .ok ()) := by
        simp [closeFile, writeBody, hw0, hw1]
      unfold PCfg.writeVersionCache openAndWrite at h
      cases ho : w.cache.open_ with
      | some e' =>
        simp only [ho, Prod.mk.injEq] at h
        rw [← h.1]; exact hc1
      | none =>
        simp only [ho, hc] at h
        split at h
        · rename_i hx
          split at hx <;> (try split at hx) <;> simp only [Prod.mk.injEq, reduceCtorEq, and_false] at hx
          · rw [← hx.1] at h
            simp only [Prod.mk.injEq] at h
            rw [← h.1]; exact hc1
          · rw [← hx.1] at h
            simp only [Prod.mk.injEq] at h
            rw [← h.1]; exact hc1
        · simp at h

/-- Only an existing cache without any version gives `None`: a version that cannot be found raises an exception (although the
documentation of the method says that `None` is returned). -/
theorem C60_none (cfg : PCfg) (json : Bytes → Res Str) (w : PvWorld) (e : RelElem) (d d' : Disk)
    (h : cfg.patchVersion json w e d = (d', .ok none)) :
    ∃ b text, d.content (cfg.versionCache e) = some b ∧ utf8 b = .ok text ∧ strip (universalNewlines text) = [] ∧ d' = d := by
  by_cases hpbe : cfg.patchline = "pbe".toList
  · rw [C60_pbe cfg hpbe] at h; simp at h
  · unfold PCfg.patchVersion at h
    rw [if_neg hpbe] at h
    cases hc : d.content (cfg.versionCache e) with
    | none =>
      rw [hc] at h
      simp only at h
      split at h
      · simp at h
      · unfold PCfg.writeVersionCache at h
        split at h <;> simp at h
    | some b =>
      rw [hc] at h
      simp only [Prod.mk.injEq] at h
      obtain ⟨rfl, h⟩ := h
      unfold readVersionCache at h
      cases hu : utf8 b with
      | error er => rw [hu] at h; simp [bind, Except.bind] at h
      | ok text =>
        rw [hu] at h
        simp only [bind, Except.bind] at h
        split at h
        · rename_i hs
          exact ⟨b, text, rfl, hu, by simpa using hs, rfl⟩
        · split at h
          · simp at h
          · simp [pure, Except.pure] at h

/-- What `C60_history` relies on: the cache is written in place. If writing it is interrupted (disk full, process killed), what
has been written is taken as the version by all later calls: none, or a wrong one. -/
theorem C60_interrupted (cfg : PCfg) (hpbe : cfg.patchline ≠ "pbe".toList) (json : Bytes → Res Str) (w : PvWorld) (e : RelElem) (d d1 : Disk) (v : Version)
    (hl : d1.links (cfg.versionCache e) = none) (hn : d.content (cfg.versionCache e) = none)
    (hr : cfg.retrieveVersion json w e d = (d1, .ok v)) (hdir : d1.fs (dirname (cfg.versionCache e)) = some .dir)
    (hnd : d1.fs (cfg.versionCache e) ≠ some .dir) (ho : w.cache.open_ = none) (hw0 : w.cache.write 0 = none) (k : Nat) (er : Err)
    (hc : w.cache.close = some (k, er)) (w' : PvWorld) :
    (cfg.patchVersion json w e d).2 = .error er ∧
    cfg.patchVersion json w' e (cfg.patchVersion json w e d).1 = ((cfg.patchVersion json w e d).1, readVersionCache ((utf8Bytes (v.s ++ ['\n'])).take k)) := by
  have hcl : closeFile w.cache (writeBody w.cache 0 [] [.write (utf8Bytes (v.s ++ ['\n']))]) = ((utf8Bytes (v.s ++ ['\n'])).take k, .error er) := by
    simp [closeFile, writeBody, hw0, hc]
  have hcall : cfg.patchVersion json w e d =
      ({ d1 with fs := d1.fs.set (cfg.versionCache e) (some (.file ((utf8Bytes (v.s ++ ['\n'])).take k))) }, .error er) := by
    conv_lhs => unfold PCfg.patchVersion
    rw [if_neg hpbe, hn]
    simp only [hr, PCfg.writeVersionCache, openAndWrite, ho, hdir, hnd, hcl, ne_eq, not_true, if_false]
  rw [hcall]
  refine ⟨rfl, ?_⟩
  unfold PCfg.patchVersion
  rw [if_neg hpbe]
  have : Disk.content { d1 with fs := d1.fs.set (cfg.versionCache e) (some (.file ((utf8Bytes (v.s ++ ['\n'])).take k))) } (cfg.versionCache e) =
      some ((utf8Bytes (v.s ++ ['\n'])).take k) := by
    rw [content_eq_some]; simp [Disk.resolve, hl]
  rw [this]

/-! ## Elements of a storage -/

/-- Elements of the releases: in the order of releases, `game` before `client`, those whose URL is known and not empty. -/
theorem C60_releaseElems (rels : List (Int × RelData)) :
    (∀ e, e ∈ releaseElems rels ↔ e.url ≠ [] ∧ (e.name = "game".toList ∨ e.name = "client".toList) ∧
      ∃ data, (e.version, data) ∈ rels ∧ data.get? (e.name ++ "_patch_url".toList) = some e.url) ∧
    (releaseElems rels).map (fun e => (e.version, e.name)) =
      rels.flatMap fun r => (["game".toList, "client".toList].filter fun n =>
        match r.2.get? (n ++ "_patch_url".toList) with | some (_ :: _) => true | _ => false).map fun n => (r.1, n) := by
  have hrel : ∀ (data : RelData) (n u : Str), relElement data n = some u ↔ u ≠ [] ∧ data.get? (n ++ "_patch_url".toList) = some u := by
    intro data n u
    unfold relElement
    split
    · rename_i h
      rw [h]
      constructor
      · intro h'; cases h'
      · rintro ⟨hu, h'⟩; exact absurd (Option.some.inj h').symm hu
    · rename_i h
      constructor
      · intro h'; exact ⟨fun hu => h (by rw [h', hu]), h'⟩
      · exact fun h' => h'.2
  constructor
  · intro e
    simp only [releaseElems, List.mem_flatMap, List.mem_map, relElements, List.mem_filter, List.mem_cons, List.not_mem_nil, or_false]
    constructor
    · rintro ⟨⟨v, data⟩, hr, n, ⟨hn, hs⟩, rfl⟩
      obtain ⟨u, hu⟩ := Option.isSome_iff_exists.1 hs
      have := (hrel data n u).1 hu
      simp only [hu, Option.getD_some]
      exact ⟨this.1, hn, data, hr, this.2⟩
    · rintro ⟨hu, hn, data, hr, hd⟩
      have := (hrel data e.name e.url).2 ⟨hu, hd⟩
      exact ⟨(e.version, data), hr, e.name, ⟨hn, by simp [this]⟩, by simp [this]⟩
  · simp only [releaseElems, List.map_flatMap, List.map_map, relElements]
    congr 1
    funext r
    simp only [Function.comp_def]
    congr 1
    apply List.filter_congr
    intro n _
    unfold relElement
    cases r.2.get? (n ++ "_patch_url".toList) with
    | none => rfl
    | some u => cases u <;> rfl

/-- `patch_elements`: the elements given are the first ones, in order; if it ends, all of them, otherwise the next one is the
one whose version could not be known (all the following ones, which are older, are not given). On a storage consistent with
the CDN, each version given is the one of its release, and the storage stays consistent. -/
theorem C60_elements (cfg : PCfg) (json : Bytes → Res Str) (cdn : Cdn) (served : Str → Bytes) (catalog : Int → Str → List Nat)
    (hpbe : cfg.patchline ≠ "pbe".toList) (hsha : NoCollision cfg.sha1 catalog) (ws : Nat → PvWorld) (hws : ∀ i, (ws i).Legit cdn served)
    (es : List RelElem) (hp : ∀ e ∈ es, Published cfg cdn served catalog e) (i : Nat) (d d' : Disk)
    (hg : GoodStorage cfg json cdn served catalog d) (l : List (RelElem × Option Version)) (res : Res Unit)
    (h : cfg.patchElements json ws i d es = (d', l, res)) :
    GoodStorage cfg json cdn served catalog d' ∧ (∀ x ∈ l, ∃ v, x.2 = some v ∧ IsVersion json cdn catalog x.1 v) ∧
    (res = .ok () → l.map (·.1) = es) ∧
    (∀ er, res = .error er → ∃ e rest d1, es = l.map (·.1) ++ e :: rest ∧ GoodStorage cfg json cdn served catalog d1 ∧
      cfg.patchVersion json (ws (i + l.length)) e d1 = (d', .error er)) := by
  induction es generalizing i d l with
  | nil =>
    simp only [PCfg.patchElements, Prod.mk.injEq] at h
    obtain ⟨rfl, rfl, rfl⟩ := h
    exact ⟨hg, by simp, fun _ => rfl, by simp⟩
  | cons e r ih =>
    unfold PCfg.patchElements at h
    obtain ⟨hg1, hv⟩ := version_good hpbe hsha hg (hws i) (hp e (by simp))
    rcases hx : cfg.patchVersion json (ws i) e d with ⟨d1, er | v⟩
    · rw [hx] at h
      simp only [Prod.mk.injEq] at h
      obtain ⟨rfl, rfl, rfl⟩ := h
      rw [hx] at hg1
      refine ⟨hg1, by simp, by simp, fun er' he => ⟨e, r, d, rfl, hg, ?_⟩⟩
      cases he
      exact hx
    · rw [hx] at h hg1 hv
      simp only at h
      rcases hy : cfg.patchElements json ws (i + 1) d1 r with ⟨d2, l2, res2⟩
      rw [hy] at h
      simp only [Prod.mk.injEq] at h
      obtain ⟨rfl, rfl, rfl⟩ := h
      obtain ⟨k1, k2, k3, k4⟩ := ih (fun e' he' => hp e' (by simp [he'])) (i + 1) d1 hg1 l2 hy
      refine ⟨k1, ?_, fun hr => by simp [k3 hr], fun er he => ?_⟩
      · intro x hxm
        rcases List.mem_cons.1 hxm with rfl | hxm
        · exact hv v rfl
        · exact k2 x hxm
      · obtain ⟨e', rest, d3, q1, q2, q3⟩ := k4 er he
        refine ⟨e', rest, d3, by simp [q1], q2, ?_⟩
        have : i + ((e, v) :: l2).length = i + 1 + l2.length := by simp only [List.length_cons]; omega
        rw [this]
        exact q3

/-! ## Non-vacuity -/

/-- a text with the three ends of lines, and the first branch -/
example : TextLines "# x\n    game-branch: \"Releases/10.15\"\r\nbranch: '9.1'".toList
    ["# x".toList, "    game-branch: \"Releases/10.15\"".toList, "branch: '9.1'".toList] := by
  have h := TextLines.cons (l := "# x".toList) (eol := ['\n']) (by decide +kernel) (by decide +kernel) (by decide) (by simp)
    (TextLines.cons (l := "    game-branch: \"Releases/10.15\"".toList) (eol := ['\r', '\n']) (by decide +kernel) (by decide +kernel) (by decide)
      (by simp) (TextLines.last (l := "branch: '9.1'".toList) (by decide +kernel) (by decide +kernel) (by decide +kernel)))
  exact h
example : BranchLine "    game-branch: \"Releases/10.15\"".toList "10.15".toList :=
  ⟨4, "game-".toList, "\"Releases".toList, '/', ['"'], by decide +kernel, .inr rfl, by simp, by simp, by decide +kernel, by decide +kernel⟩
example : systemYamlVersion (utf8Bytes "# x\n    game-branch: \"Releases/10.15\"\r\nbranch: '9.1'".toList) = .ok (some "10.15".toList) := by
  decide +kernel
example : systemYamlVersion (utf8Bytes "game-branch: \"Releases/10.15x\"\nxbranch: '9.1'\nbranch: 9.1\n".toList) = .ok none := by
  decide +kernel
example : contentMetadataVersion (fun _ => .ok "10.15.330.1".toList) [] = .ok (some "10.15".toList) := by decide +kernel

/-- A manifest with one file, `content-metadata.json` -/
def versionManifest : Bytes :=
  [82, 77, 65, 78, 2, 0, 0, 2, 28, 0, 0, 0, 196, 0, 0, 0, 1, 0, 0, 0, 0, 0, 0, 0, 195, 0, 0, 0, 0, 0, 0, 0, 0, 24, 0, 0,
    0, 90, 0, 0, 0, 90, 0, 0, 0, 175, 0, 0, 0, 0, 0, 0, 0, 0, 0, 0, 0, 1, 0, 0, 0, 12, 0, 0, 0, 8, 0, 0, 0, 4, 0, 12, 0,
    8, 0, 0, 0, 10, 0, 0, 0, 0, 0, 0, 0, 4, 0, 0, 0, 1, 0, 0, 0, 14, 0, 0, 0, 10, 0, 0, 0, 4, 0, 12, 0, 16, 0, 10, 0, 0,
    0, 5, 0, 0, 0, 0, 0, 0, 0, 23, 0, 0, 0, 22, 0, 0, 0, 0, 0, 0, 0, 1, 0, 0, 0, 24, 0, 0, 0, 20, 0, 0, 0, 4, 0, 0, 0,
    12, 0, 16, 0, 0, 0, 0, 0, 0, 0, 20, 0, 20, 0, 0, 0, 1, 0, 0, 0, 0, 0, 0, 0, 22, 0, 0, 0, 8, 0, 0, 0, 29, 0, 0, 0, 21,
    0, 0, 0, 99, 111, 110, 116, 101, 110, 116, 45, 109, 101, 116, 97, 100, 97, 116, 97, 46, 106, 115, 111, 110, 1, 0, 0,
    0, 5, 0, 0, 0, 0, 0, 0, 0, 0, 0, 0, 0]
/-- Content of the file -/
def versionJson : Bytes :=
  [123, 34, 118, 101, 114, 115, 105, 111, 110, 34, 58, 34, 49, 48, 46, 49, 53, 46, 51, 51, 34, 125]
def versionCdn : Cdn := ⟨fun _ => versionJson, fun _ => 0 :: versionJson⟩
def versionServed : Str → Bytes := fun _ => versionManifest
def versionCatalog : Int → Str → List Nat := fun _ _ => [5]
def versionElem : RelElem := ⟨12, "game".toList, "https://lol.secure.dyn.riotcdn.net/channels/public/releases/0123456789ABCDEF.manifest".toList⟩
def versionWorld : PvWorld := { manifest := fun _ => .ok versionManifest, bundle := fun _ => .ok (0 :: versionJson) }
def versionFile : PFile := ⟨some "content-metadata.json".toList, some 22, none, none, [⟨some 5, some 10, 0, some 23, some 22⟩]⟩
/-- `json.load` of this content -/
def versionLoad : Bytes → Res Str := fun b => if b = versionJson then .ok "10.15.33".toList else .error .value
/-- A disk with nothing but the directory of the release -/
def versionDisk : Disk := ⟨fun p => if p = "/s/cdtb/releases/live/12".toList then some .dir else none, fun _ => none⟩

theorem versionManifest_files (sym : Bool) : ((parseRman (injCfg sym).zstd).run versionManifest).map (·.files) =
    .ok [(some "content-metadata.json".toList, versionFile)] := by
  cases sym <;> decide +kernel
example (sym : Bool) : GoodStorage (injCfg sym) versionLoad versionCdn versionServed versionCatalog versionDisk := by
  have hf : ∀ p b, versionDisk.fs p ≠ some (.file b) := by
    intro p b
    simp only [versionDisk]
    split <;> simp
  refine ⟨C34_fresh _ _ _ _ (fun _ => rfl) hf, fun n b h => absurd h (hf _ b), fun _ => rfl, fun e b h => ?_⟩
  rw [content_eq_some] at h
  exact absurd h (hf _ b)
example : versionWorld.Legit versionCdn versionServed :=
  ⟨fun _ _ h => (Except.ok.inj h).symm, rfl, fun _ _ h => (Except.ok.inj h).symm, fun _ => rfl, rfl, rfl, rfl⟩
example (sym : Bool) : Published (injCfg sym) versionCdn versionServed versionCatalog versionElem := by
  intro n m fileName f _ hm hv hf
  have h := versionManifest_files sym
  rw [versionServed] at hm
  rw [hm] at h
  simp only [Except.map, Except.ok.injEq] at h
  rw [h] at hf
  generalize hn : versionElem.name = name at hv
  cases hv with
  | client => exact absurd hn (by decide +kernel)
  | game =>
    have : f = versionFile := by
      have e : Dict.get [(some "content-metadata.json".toList, versionFile)] (some "content-metadata.json".toList) = .ok versionFile := by
        decide +kernel
      rw [e] at hf
      exact (Except.ok.inj hf).symm
    subst this
    exact .cons ⟨rfl, by decide, 10, 23, rfl, rfl, by cases sym <;> decide +kernel⟩ .nil
example (sym : Bool) : ((injCfg sym).patchVersion versionLoad versionWorld versionElem versionDisk).2.toOption.map (·.map (·.s)) =
    some (some "10.15".toList) := by cases sym <;> decide +kernel
example (sym : Bool) : ((injCfg sym).patchVersion versionLoad versionWorld versionElem versionDisk).1.content
    "/s/cdtb/releases/live/12/patch_version.game".toList = some (utf8Bytes "10.15\n".toList) := by cases sym <;> decide +kernel
/-- an interrupted write of the cache: the version is wrong from then on -/
example : ((injCfg true).patchVersion versionLoad versionWorld versionElem
    ((injCfg true).patchVersion versionLoad { versionWorld with cache := { close := some (4, .os 28) } } versionElem versionDisk).1).2.toOption.map
      (·.map (·.s)) = some (some "10.1".toList) := by decide +kernel

end Cdtb
