import Verif.Lemmas.PatchVersion
import Verif.Props.C02
import Verif.Props.C34
/-! Lemmas about the disk when retrieving the version of an element, for C60. -/
namespace Cdtb
set_option autoImplicit false
open Py Spec

/-! ## Names of the files of a manifest -/

theorem Rd.bindInv {α β : Type} {p : Rd α} {f : α → Rd β} {data : Bytes} {pos : Nat} {r : β × Nat}
    (h : (p >>= f) data pos = .ok r) : ∃ a pos', p data pos = .ok (a, pos') ∧ f a data pos' = .ok r := by
  change (match p data pos with
    | .error e => Except.error e
    | .ok (a, pos') => f a data pos') = _ at h
  split at h
  · simp at h
  · rename_i a pos' he; exact ⟨a, pos', he, h⟩

theorem Rd.lift_inv {α : Type} {x : Res α} {data : Bytes} {pos : Nat} {r : α × Nat} (h : Rd.lift x data pos = .ok r) :
    x = .ok r.1 := by
  unfold Rd.lift at h
  split at h
  · simp only [Except.ok.injEq] at h; rw [← h]
  · simp at h

theorem Rd.run_inv {α : Type} {p : Rd α} {data : Bytes} {a : α} (h : p.run data = .ok a) : ∃ pos, p data 0 = .ok (a, pos) := by
  unfold Rd.run at h
  split at h
  · rename_i a' pos he; simp only [Except.ok.injEq] at h; rw [← h]; exact ⟨pos, he⟩
  · simp at h

theorem mapM_mem {α β : Type} {f : α → Res β} {l : List α} {l' : List β} (h : l.mapM f = .ok l') : ∀ y ∈ l', ∃ x ∈ l, f x = .ok y := by
  induction l generalizing l' with
  | nil => simp [pure, Except.pure] at h; subst h; simp
  | cons x l ih =>
    rw [List.mapM_cons] at h
    cases hx : f x with
    | error e => rw [hx] at h; simp [bind, Except.bind] at h
    | ok y =>
      cases hl : l.mapM f with
      | error e => rw [hx, hl] at h; simp [bind, Except.bind] at h
      | ok ys =>
        rw [hx, hl] at h
        simp [bind, Except.bind, pure, Except.pure] at h
        subst h
        intro z hz
        rcases List.mem_cons.1 hz with rfl | hz
        · exact ⟨x, by simp, hx⟩
        · obtain ⟨x', h1, h2⟩ := ih hl z hz
          exact ⟨x', by simp [h1], h2⟩

theorem mergeFile_entry {chunks : Dict (Option Nat) PChunk} {flags : Dict Nat Str} {dirs : Directories} {e : PEntry} {kf : Option Str × PFile}
    (h : mergeFile chunks flags dirs e = .ok kf) : kf.2.name = kf.1 := by
  unfold mergeFile at h
  simp only [bind, Except.bind] at h
  split at h
  · simp at h
  · split at h
    · simp at h
    · split at h
      · simp at h
      · simp only [pure, Except.pure, Except.ok.injEq] at h
        rw [← h]

theorem parseBody_names {data : Bytes} {pos : Nat} {r : Manifest × Nat} (h : parseBody data pos = .ok r) :
    ∀ k f, r.1.files.get? k = some f → f.name = k := by
  unfold parseBody at h
  obtain ⟨_, _, _, h⟩ := Rd.bindInv h
  obtain ⟨_, _, _, h⟩ := Rd.bindInv h
  obtain ⟨_, _, _, h⟩ := Rd.bindInv h
  obtain ⟨_, _, _, h⟩ := Rd.bindInv h
  obtain ⟨_, _, _, h⟩ := Rd.bindInv h
  obtain ⟨_, _, _, h⟩ := Rd.bindInv h
  obtain ⟨_, _, _, h⟩ := Rd.bindInv h
  obtain ⟨_, _, _, h⟩ := Rd.bindInv h
  obtain ⟨_, _, _, h⟩ := Rd.bindInv h
  obtain ⟨_, _, _, h⟩ := Rd.bindInv h
  obtain ⟨_, _, _, h⟩ := Rd.bindInv h
  obtain ⟨_, _, _, h⟩ := Rd.bindInv h
  obtain ⟨files, _, hf, h⟩ := Rd.bindInv h
  have hf := Rd.lift_inv hf
  simp only [pure, Except.ok.injEq] at h
  intro k f hk
  rw [← h] at hk
  simp only [Dict.get?_ofList, Option.map_eq_some_iff] at hk
  obtain ⟨kv, h1, h2⟩ := hk
  have hkv := List.find?_some h1
  simp only [decide_eq_true_eq] at hkv
  obtain ⟨e, -, he⟩ := mapM_mem hf kv (by simpa using List.mem_of_find?_eq_some h1)
  rw [← h2, mergeFile_entry he, hkv]

theorem parseRman_names {zstd : Bytes → Res Bytes} {data : Bytes} {m : Manifest} (h : (parseRman zstd).run data = .ok m) :
    ∀ k f, m.files.get? k = some f → f.name = k := by
  obtain ⟨_, h⟩ := Rd.run_inv h
  unfold parseRman at h
  obtain ⟨_, _, _, h⟩ := Rd.bindInv h
  split at h
  · simp [Rd.fail] at h
  · split at h
    · simp [Rd.fail] at h
    · obtain ⟨_, _, _, h⟩ := Rd.bindInv h
      split at h
      · simp [Rd.fail] at h
      · obtain ⟨_, _, _, h⟩ := Rd.bindInv h
        split at h
        · simp [Rd.fail] at h
        · obtain ⟨_, _, _, h⟩ := Rd.bindInv h
          obtain ⟨_, _, _, h⟩ := Rd.bindInv h
          obtain ⟨_, h⟩ := Rd.run_inv (Rd.lift_inv h)
          exact parseBody_names h

/-! ## Paths -/

/-- Path of a manifest in a storage -/
def PCfg.manifestPath (cfg : PCfg) (n : Int) : Str := storageFspath cfg.base (manifestRel n)

theorem manifestPath_eq (cfg : PCfg) (n : Int) : cfg.manifestPath n =
    rootPre cfg.base ++ ("channels/public/releases/".toList ++ (hexInt16U n ++ ".manifest".toList)) := by
  unfold PCfg.manifestPath manifestRel
  rw [fspath_eq, List.append_assoc]
  rw [Bool.eq_false_iff, ne_eq, startsWith_iff]
  rintro ⟨t, h⟩
  rw [List.append_assoc] at h
  have := congrArg List.head? h
  simp at this

theorem versionCache_eq (cfg : PCfg) (e : RelElem) : cfg.versionCache e =
    rootPre cfg.base ++ ("cdtb/releases/".toList ++ (cfg.patchline ++ '/' :: (showInt e.version ++ '/' :: ("patch_version.".toList ++ e.name)))) := by
  unfold PCfg.versionCache PCfg.storageDir PCfg.releasePath
  rw [fspath_eq _ rfl]
  have : "/patch_version.".toList = '/' :: "patch_version.".toList := by decide +kernel
  rw [this]
  simp only [List.append_assoc, List.cons_append]

theorem head_ne {a b : Char} {s t : Str} (h : a ≠ b) : a :: s ≠ b :: t := by
  intro he; exact h (List.cons.inj he).1

theorem manifest_ne_bundle (cfg : PCfg) (n : Int) (b : Nat) : cfg.manifestPath n ≠ cfg.bundlePath b := by
  rw [manifestPath_eq, bundlePath_eq, ne_eq, List.append_cancel_left_eq]
  simp

theorem manifest_ne_store (cfg : PCfg) (n : Int) (x : Str) : cfg.manifestPath n ≠ cfg.storePath x := by
  rw [manifestPath_eq, storePath_eq, ne_eq, List.append_cancel_left_eq]
  simp

theorem manifest_ne_extract (cfg : PCfg) (n : Int) (v : Int) (f : PFile) : cfg.manifestPath n ≠ cfg.extractPath v f := by
  rw [manifestPath_eq, extractPath_eq, ne_eq, List.append_cancel_left_eq]
  simp

theorem manifest_ne_cache (cfg : PCfg) (n : Int) (e : RelElem) : cfg.manifestPath n ≠ cfg.versionCache e := by
  rw [manifestPath_eq, versionCache_eq, ne_eq, List.append_cancel_left_eq]
  simp

theorem cache_ne_bundle (cfg : PCfg) (e : RelElem) (b : Nat) : cfg.versionCache e ≠ cfg.bundlePath b := by
  rw [versionCache_eq, bundlePath_eq, ne_eq, List.append_cancel_left_eq]
  simp

theorem cache_ne_store (cfg : PCfg) (e : RelElem) (x : Str) : cfg.versionCache e ≠ cfg.storePath x := by
  rw [versionCache_eq, storePath_eq, ne_eq, List.append_cancel_left_eq]
  simp

theorem cache_ne_extract (cfg : PCfg) (e : RelElem) (v : Int) (f : PFile) : cfg.versionCache e ≠ cfg.extractPath v f := by
  rw [versionCache_eq, extractPath_eq, ne_eq, List.append_cancel_left_eq]
  intro h
  have hf : "/files/".toList = '/' :: "files/".toList := by decide +kernel
  rw [hf] at h
  simp only [List.append_assoc, List.append_cancel_left_eq, List.cons_append, List.cons.injEq, true_and] at h
  obtain ⟨-, h2⟩ := noslash_split (showInt_noslash e.version) (showInt_noslash v) h
  simp at h2

theorem versionCache_inj {cfg : PCfg} {e e' : RelElem} (h : cfg.versionCache e = cfg.versionCache e') :
    e.version = e'.version ∧ e.name = e'.name := by
  rw [versionCache_eq, versionCache_eq, List.append_cancel_left_eq] at h
  simp only [List.append_cancel_left_eq, List.cons.injEq, true_and] at h
  obtain ⟨h1, h2⟩ := noslash_split (showInt_noslash e.version) (showInt_noslash e'.version) h
  exact ⟨showInt_inj h1, by simpa using h2⟩

theorem manifestRel_path {cfg : PCfg} {n n' : Int} (h : cfg.manifestPath n = cfg.manifestPath n') : manifestRel n = manifestRel n' := by
  rw [manifestPath_eq, manifestPath_eq, List.append_cancel_left_eq] at h
  unfold manifestRel
  rw [List.append_assoc, List.append_assoc]; exact h

/-! ## Changes of the disk -/

/-- Same links and files at a path -/
def SameAt (d d' : Disk) (p : Str) : Prop := d'.links p = d.links p ∧ ∀ b, d'.fs p = some (.file b) ↔ d.fs p = some (.file b)

theorem SameAt.refl (d : Disk) (p : Str) : SameAt d d p := ⟨rfl, fun _ => Iff.rfl⟩

theorem SameAt.trans {d d' d'' : Disk} {p : Str} (h : SameAt d d' p) (h' : SameAt d' d'' p) : SameAt d d'' p :=
  ⟨h'.1.trans h.1, fun b => (h'.2 b).trans (h.2 b)⟩

theorem SameAt.content {d d' : Disk} {p : Str} (h : SameAt d d' p) (hl : d.links p = none) : d'.content p = d.content p := by
  have e : ∀ b, d'.content p = some b ↔ d.content p = some b := by
    intro b
    rw [content_eq_some, content_eq_some, Disk.resolve, Disk.resolve, h.1, hl]
    exact h.2 b
  cases hc : d.content p with
  | some b => exact (e b).2 hc
  | none =>
    cases hc' : d'.content p with
    | none => rfl
    | some b => rw [(e b).1 hc'] at hc; simp at hc

/-- A disk with the same bundles, store and outputs is good too. -/
theorem GoodDisk.of_same {cfg : PCfg} {w : Cdn} {catalog : Int → Str → List Nat} {d d' : Disk} (hg : GoodDisk cfg w catalog d)
    (hb : ∀ b, SameAt d d' (cfg.bundlePath b)) (hs : ∀ x, SameAt d d' (cfg.storePath x))
    (he : ∀ v f, SameAt d d' (cfg.extractPath v f)) : GoodDisk cfg w catalog d' := by
  refine ⟨?_, ?_, ?_, ?_⟩
  · intro b x hx; exact hg.bundles b x (((hb b).2 x).1 hx)
  · intro v n t x ht hx; exact hg.store v n t x ht (((hs _).2 x).1 hx)
  · intro h v f
    obtain ⟨h1, h2⟩ := hg.links h v f
    exact ⟨fun b hx => h1 b (((he v f).2 b).1 hx), fun t ht => h2 t (by rw [← (he v f).1]; exact ht)⟩
  · intro h v f
    obtain ⟨h1, h2⟩ := hg.files h v f
    exact ⟨by rw [(he v f).1]; exact h1, fun b hx => h2 b (((he v f).2 b).1 hx)⟩

/-- What an extraction leaves unchanged -/
theorem extractFile_same (cfg : PCfg) (d : Disk) (file : PFile) (out : Str) (f : ExtractFaults) {q : Str}
    (hs : ∀ x, q ≠ cfg.storePath x) (ho : q ≠ out) : SameAt d (cfg.extractFile d file out f).1 q := by
  unfold PCfg.extractFile
  split
  · cases digestInput file.chunks with
    | error e => exact .refl d q
    | ok x =>
      simp only
      have hf := ensureFile_frame cfg d.fs (cfg.storePath (cfg.sha1 x)) file.chunks f.write (hs _)
      rcases he : cfg.ensureFile d.fs (cfg.storePath (cfg.sha1 x)) file.chunks f.write with ⟨fs, r⟩
      rw [he] at hf
      cases r with
      | error e => exact ⟨rfl, hf.file⟩
      | ok u =>
        refine ⟨relink_links { d with fs := fs } _ _ f ho, fun b => ?_⟩
        exact ((relink_fs { d with fs := fs } _ _ f ho).file b).trans (hf.file b)
  · exact ⟨rfl, (ensureFile_frame cfg d.fs out file.chunks f.write ho).file⟩

theorem elemExtract_same (cfg : PCfg) (v : Int) (o : Bool) (d : Disk) (file : PFile) (f : ExtractFaults) {q : Str}
    (hs : ∀ x, q ≠ cfg.storePath x) (ho : q ≠ cfg.extractPath v file) : SameAt d (cfg.elemExtractFile v o d file f).1 q := by
  unfold PCfg.elemExtractFile
  split
  · exact .refl d q
  · exact extractFile_same cfg d file _ f hs ho

theorem download_same (cfg : PCfg) (d : Disk) (c : DownloadCall) {q : Str} (hq : q ≠ c.dest cfg.base) :
    SameAt d { d with fs := (download cfg.base d.fs c).1 } q := ⟨rfl, fun b => C05_frame cfg.base d.fs c q hq b⟩

theorem fetchBundles_same (cfg : PCfg) (w : PvWorld) (ids : List (Option Nat)) (d : Disk) {q : Str} (hq : ∀ b, q ≠ cfg.bundlePath b) :
    SameAt d (cfg.fetchBundles w d ids).1 q := by
  induction ids generalizing d with
  | nil => exact .refl d q
  | cons i ids ih =>
    simp only [PCfg.fetchBundles]
    cases bundleIdRes i with
    | error e => exact .refl d q
    | ok b =>
      simp only
      have h := download_same cfg d (bundleCall w.bundle w.bundleFaults b) (hq b)
      rcases he : download cfg.base d.fs (bundleCall w.bundle w.bundleFaults b) with ⟨fs, r, t⟩
      rw [he] at h
      cases r with
      | error e => exact h
      | ok u => exact h.trans (ih _)

theorem loadManif_same (cfg : PCfg) (w : PvWorld) (e : RelElem) (d : Disk) {q : Str} (hq : ∀ n, q ≠ cfg.manifestPath n) :
    SameAt d (cfg.loadManif w e d).1 q := by
  unfold PCfg.loadManif
  split
  · exact .refl d q
  · unfold downloadManifest
    cases (ManifestRef.url e.url).toId with
    | error er => exact .refl d q
    | ok n =>
      simp only
      have h := download_same cfg d ⟨manifestRel n, none, false, w.manifest (manifestRel n), w.manifestFaults⟩ (hq n)
      rcases he : download cfg.base d.fs ⟨manifestRel n, none, false, w.manifest (manifestRel n), w.manifestFaults⟩ with ⟨fs, r, t⟩
      rw [he] at h
      cases r with
      | error er => exact h
      | ok u => exact h

theorem openAndWrite_frame (fs : FS) (path : Str) (body : List BodyStep) (f : WriteFaults) {q : Str} (h : q ≠ path) :
    (openAndWrite fs path body f).1 q = fs q := by
  unfold openAndWrite
  cases f.open_ with
  | some e => rfl
  | none =>
    simp only
    split
    · rfl
    · split
      · rfl
      · exact FS.set_other _ h _

theorem writeCache_same (cfg : PCfg) (w : PvWorld) (e : RelElem) (d : Disk) (v : Version) {q : Str} (hq : q ≠ cfg.versionCache e) :
    SameAt d (cfg.writeVersionCache w e d v).1 q := by
  unfold PCfg.writeVersionCache
  have h := openAndWrite_frame d.fs (cfg.versionCache e) [.write (utf8Bytes (v.s ++ ['\n']))] w.cache hq
  rcases he : openAndWrite d.fs (cfg.versionCache e) [.write (utf8Bytes (v.s ++ ['\n']))] w.cache with ⟨fs, r⟩
  rw [he] at h
  cases r <;> exact ⟨rfl, fun b => by simp only at h ⊢; rw [h]⟩

theorem retrieveFrom_same (cfg : PCfg) (w : PvWorld) (v : Int) (d : Disk) (f : PFile) (ext : Bytes → Res (Option Str)) {q : Str}
    (hb : ∀ b, q ≠ cfg.bundlePath b) (hs : ∀ x, q ≠ cfg.storePath x) (ho : q ≠ cfg.extractPath v f) :
    SameAt d (cfg.retrieveFrom w v d f ext).1 q := by
  unfold PCfg.retrieveFrom
  have h1 : SameAt d (cfg.fetchIfNeeded w v d f).1 q := by
    unfold PCfg.fetchIfNeeded
    split
    · exact .refl d q
    · exact fetchBundles_same cfg w _ d hb
  rcases he : cfg.fetchIfNeeded w v d f with ⟨d', r⟩
  rw [he] at h1
  cases r with
  | error er => exact h1
  | ok u =>
    simp only
    have h2 := elemExtract_same cfg v false d' f w.extract hs ho
    rcases he2 : cfg.elemExtractFile v false d' f w.extract with ⟨d'', r⟩
    rw [he2] at h2
    cases r <;> exact h1.trans h2

theorem retrieveVersion_same (cfg : PCfg) (json : Bytes → Res Str) (w : PvWorld) (e : RelElem) (d : Disk) {q : Str}
    (hm : ∀ n, q ≠ cfg.manifestPath n) (hb : ∀ b, q ≠ cfg.bundlePath b) (hs : ∀ x, q ≠ cfg.storePath x) (ho : ∀ f, q ≠ cfg.extractPath e.version f) :
    SameAt d (cfg.retrieveVersion json w e d).1 q := by
  unfold PCfg.retrieveVersion
  cases versionSource json e.name with
  | error er => exact .refl d q
  | ok s =>
    obtain ⟨fileName, ext⟩ := s
    simp only
    have h1 := loadManif_same cfg w e d hm
    rcases he : cfg.loadManif w e d with ⟨d', r⟩
    rw [he] at h1
    cases r with
    | error er => exact h1
    | ok m =>
      simp only
      cases m.files.get (some fileName) with
      | error er => exact h1
      | ok f => exact h1.trans (retrieveFrom_same cfg w e.version d' f ext hb hs (ho f))

end Cdtb
