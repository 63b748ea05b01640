import Verif.Lemmas.Patcher
import Verif.Props.C05
import Verif.Props.C33
/-!
# C34  The shared extracted-file store always holds correct contents

`w : Cdn` is what the CDN serves: content of chunks and of bundles. `catalog version name` is the list of
chunks of the file with this name in a release. Histories are made of downloads of bundles and
extractions of files, with any failures; only removing a partly written file is assumed to work.
-/
namespace Cdtb
set_option autoImplicit false
open Py Spec

/-- The chunks of a file are those of `ids`, and the data they designate on the CDN are their contents. -/
def Genuine (cfg : PCfg) (w : Cdn) (f : PFile) (ids : List Nat) : Prop :=
  List.Forall₂ (fun c i => c.id = some i ∧ i < 2 ^ 64 ∧ ∃ b n, c.bundle = some b ∧ c.size = some n ∧
    cfg.zstd (((w.bundle b).drop c.offset).take n) = .ok (w.chunk i)) f.chunks ids

/-- SHA-1 does not give the same digest to the texts of two lists of chunks of the catalog. -/
def NoCollision (sha1 : Str → Str) (catalog : Int → Str → List Nat) : Prop :=
  ∀ v n v' n' t t', IdsText (catalog v n) t → IdsText (catalog v' n') t' → sha1 t = sha1 t' → t = t'

/-- An operation of a history -/
inductive POp where
  | download (bundle : Nat) (response : Res Bytes) (faults : WriteFaults)
  | extract (version : Int) (overwrite : Bool) (file : PFile) (faults : ExtractFaults)

def POp.run (cfg : PCfg) (d : Disk) : POp → Disk × Res Unit
  | .download b r f => let x := Cdtb.download cfg.base d.fs (bundleCall (fun _ => r) (fun _ => f) b); ({ d with fs := x.1 }, x.2.1)
  | .extract v o file f => cfg.elemExtractFile v o d file f

/-- Responses are those of the CDN, files are those of the catalog, partly written files can be removed. -/
def POp.Legit (cfg : PCfg) (w : Cdn) (catalog : Int → Str → List Nat) : POp → Prop
  | .download b r f => (∀ x, r = .ok x → x = w.bundle b) ∧ f.remove = false
  | .extract v _ file f => Genuine cfg w file (catalog v (fmtOpt file.name)) ∧ f.write.remove = false

/-- The state of a disk is consistent with the CDN and the catalog. -/
structure GoodDisk (cfg : PCfg) (w : Cdn) (catalog : Int → Str → List Nat) (d : Disk) : Prop where
  /-- bundles are those of the CDN -/
  bundles : ∀ b x, d.fs (cfg.bundlePath b) = some (.file x) → x = w.bundle b
  /-- files of the store contain what their chunk list designates -/
  store : ∀ v n t x, IdsText (catalog v n) t → d.fs (cfg.storePath (cfg.sha1 t)) = some (.file x) → x = w.file (catalog v n)
  /-- with symlinks, outputs are links to the file of the store for their chunk list -/
  links : cfg.symlinks = true → ∀ v f, (∀ b, d.fs (cfg.extractPath v f) ≠ some (.file b)) ∧
    ∀ t, d.links (cfg.extractPath v f) = some t → ∃ x, IdsText (catalog v (fmtOpt f.name)) x ∧ t = cfg.storePath (cfg.sha1 x)
  /-- without symlinks, outputs are files with the right content -/
  files : cfg.symlinks = false → ∀ v f, d.links (cfg.extractPath v f) = none ∧
    ∀ b, d.fs (cfg.extractPath v f) = some (.file b) → b = w.file (catalog v (fmtOpt f.name))

theorem genuine_digest {cfg : PCfg} {w : Cdn} {f : PFile} {ids : List Nat} (h : Genuine cfg w f ids) :
    ∃ x, digestInput f.chunks = .ok x ∧ IdsText ids x := by
  unfold Genuine at h
  generalize f.chunks = cs at h
  have hlt : ∀ i ∈ ids, i < 2 ^ 64 := by
    intro i hi
    induction h with
    | nil => simp at hi
    | cons hc _ ih =>
      rcases List.mem_cons.1 hi with rfl | hi
      · exact hc.2.1
      · exact ih hi
  refine ⟨(ids.map (hexWU 16)).flatten, ?_, idsText_map ids hlt⟩
  unfold digestInput
  have : List.mapM chunkIdText cs = .ok (ids.map (hexWU 16)) := by
    clear hlt
    induction h with
    | nil => rfl
    | cons hc _ ih => rw [List.mapM_cons, ih, chunkIdText, hc.1]; rfl
  rw [this]; rfl

/-- What the chunks of a genuine file load to, from a disk whose bundles are those of the CDN. -/
theorem genuine_loads {cfg : PCfg} {w : Cdn} {f : PFile} {ids : List Nat} (h : Genuine cfg w f ids) {fs : FS}
    (hb : ∀ b x, fs (cfg.bundlePath b) = some (.file x) → x = w.bundle b) {bs : List Bytes}
    (hl : List.Forall₂ (fun c b => cfg.loadChunk fs c = .ok b) f.chunks bs) : bs.flatten = w.file ids := by
  have : bs = ids.map w.chunk := by
    unfold Genuine at h
    generalize f.chunks = cs at h hl
    induction h generalizing bs with
    | nil => cases hl; rfl
    | @cons c i cs ids hc _ ih =>
      cases hl with
      | @cons _ b _ bs hx hr =>
        rw [ih hr, List.map_cons]
        congr 1
        obtain ⟨-, -, n, s, h1, h2, h3⟩ := hc
        unfold PCfg.loadChunk at hx
        rw [h1] at hx
        simp only at hx
        cases hf : fs (cfg.bundlePath n) with
        | none => rw [hf] at hx; simp at hx
        | some nd =>
          cases nd with
          | dir => rw [hf] at hx; simp at hx
          | file y =>
            rw [hf] at hx
            simp only [h2, readOpt] at hx
            rw [hb n y hf] at hx
            rw [hx] at h3
            exact Except.ok.inj h3
  rw [this]; rfl

theorem bundleCall_dest (cfg : PCfg) (r f b) : (bundleCall r f b).dest cfg.base = cfg.bundlePath b := rfl

theorem good_download {cfg : PCfg} {w : Cdn} {catalog : Int → Str → List Nat} {d : Disk} (hg : GoodDisk cfg w catalog d)
    {b : Nat} {r : Res Bytes} {f : WriteFaults} (hl : (POp.download b r f).Legit cfg w catalog) :
    GoodDisk cfg w catalog ((POp.download b r f).run cfg d).1 := by
  have frame : ∀ q, q ≠ cfg.bundlePath b → ∀ x,
      (Cdtb.download cfg.base d.fs (bundleCall (fun _ => r) (fun _ => f) b)).1 q = some (.file x) ↔ d.fs q = some (.file x) :=
    fun q hq x => C05_frame cfg.base d.fs (bundleCall (fun _ => r) (fun _ => f) b) q hq x
  refine ⟨?_, ?_, ?_, ?_⟩
  · intro b' x hx
    by_cases hb : b' = b
    · subst hb
      exact download_keeps cfg.base (fun _ => w.bundle b') d.fs (bundleCall (fun _ => r) (fun _ => f) b') (cfg.bundlePath b') (bundleRel b')
        (fun x hx => hl.1 x hx) hl.2 (fun _ => rfl) (fun x hx => hg.bundles b' x hx) x hx
    · exact hg.bundles b' x ((frame _ (fun h => hb (bundlePath_inj h)) x).1 hx)
  · intro v' n' t x ht hx
    exact hg.store v' n' t x ht ((frame _ (bundle_ne_store cfg b _).symm x).1 hx)
  · intro hs v f'
    obtain ⟨h1, h2⟩ := hg.links hs v f'
    exact ⟨fun x hx => h1 x ((frame _ (bundle_ne_extract cfg b v f').symm x).1 hx), h2⟩
  · intro hs v f'
    obtain ⟨h1, h2⟩ := hg.files hs v f'
    exact ⟨h1, fun x hx => h2 x ((frame _ (bundle_ne_extract cfg b v f').symm x).1 hx)⟩

/-- Extraction of a file, not skipped: the disk stays good; on success the output has its content. -/
theorem good_extractFile {cfg : PCfg} {w : Cdn} {catalog : Int → Str → List Nat} (hsha : NoCollision cfg.sha1 catalog) {d : Disk}
    (hg : GoodDisk cfg w catalog d) {v : Int} {file : PFile} {f : ExtractFaults}
    (hgen : Genuine cfg w file (catalog v (fmtOpt file.name))) (hrm : f.write.remove = false) :
    GoodDisk cfg w catalog (cfg.extractFile d file (cfg.extractPath v file) f).1 ∧
    ((cfg.extractFile d file (cfg.extractPath v file) f).2 = .ok () →
      (cfg.extractFile d file (cfg.extractPath v file) f).1.content (cfg.extractPath v file)
        = some (w.file (catalog v (fmtOpt file.name)))) := by
  obtain ⟨x, hx, htx⟩ := genuine_digest hgen
  cases hs : cfg.symlinks with
  | true =>
    simp only [PCfg.extractFile, hs, if_true, hx]
    set real := cfg.storePath (cfg.sha1 x) with hreal
    have hframe := fun q (hq : q ≠ real) => ensureFile_frame cfg d.fs real file.chunks f.write hq
    -- content of the real output after writing
    have hcont : ∀ y, (cfg.ensureFile d.fs real file.chunks f.write).1 real = some (.file y) → y = w.file (catalog v (fmtOpt file.name)) := by
      intro y hy
      by_cases hp : ∃ b, d.fs real = some (.file b)
      · obtain ⟨b, hb⟩ := hp
        rw [ensureFile_present _ _ hb] at hy
        exact hg.store _ _ x y htx hy
      · have hn : ∀ b, d.fs real ≠ some (.file b) := fun b hb => hp ⟨b, hb⟩
        cases hr : (cfg.ensureFile d.fs real file.chunks f.write).2 with
        | error e => exact absurd hy (ensureFile_error hr hrm y)
        | ok u =>
          obtain ⟨bs, h1, h2⟩ := ensureFile_written hr hn
          rw [h2] at hy
          simp only [Option.some.injEq, Node.file.injEq] at hy
          rw [← hy]; exact genuine_loads hgen hg.bundles h1
    have hpres : (cfg.ensureFile d.fs real file.chunks f.write).2 = .ok () →
        ∃ y, (cfg.ensureFile d.fs real file.chunks f.write).1 real = some (.file y) := by
      intro hr
      by_cases hp : ∃ b, d.fs real = some (.file b)
      · obtain ⟨b, hb⟩ := hp
        rw [ensureFile_present _ _ hb]; exact ⟨b, hb⟩
      · obtain ⟨bs, _, h2⟩ := ensureFile_written hr (fun b hb => hp ⟨b, hb⟩)
        exact ⟨_, h2⟩
    -- the disk after writing
    have hg1 : GoodDisk cfg w catalog { d with fs := (cfg.ensureFile d.fs real file.chunks f.write).1 } := by
      refine ⟨?_, ?_, ?_, ?_⟩
      · intro b y hy
        exact hg.bundles b y (((hframe _ (bundle_ne_store cfg b _)).file y).1 hy)
      · intro v' n' t y ht hy
        by_cases he : cfg.storePath (cfg.sha1 t) = real
        · have h1 := hsha _ _ _ _ _ _ ht htx (storePath_inj he)
          subst h1
          rw [IdsText_inj ht htx]
          simp only at hy
          rw [he] at hy
          exact hcont y hy
        · exact hg.store v' n' t y ht (((hframe _ he).file y).1 hy)
      · intro _ v' f'
        obtain ⟨h1, h2⟩ := hg.links hs v' f'
        exact ⟨fun b hb => h1 b (((hframe _ (store_ne_extract cfg _ v' f').symm).file b).1 hb), h2⟩
      · intro hs'; rw [hs] at hs'; simp at hs'
    rcases he : cfg.ensureFile d.fs real file.chunks f.write with ⟨fs1, r⟩
    rw [he] at hg1 hcont hpres
    simp only at hg1 hcont hpres
    cases r with
    | error e => exact ⟨hg1, by simp⟩
    | ok u =>
      simp only
      have hfs := fun q (hq : q ≠ cfg.extractPath v file) => relink_fs { d with fs := fs1 } real (cfg.extractPath v file) f hq
      constructor
      · refine ⟨?_, ?_, ?_, ?_⟩
        · intro b y hy
          exact hg1.bundles b y (((hfs _ (bundle_ne_extract cfg b v file)).file y).1 hy)
        · intro v' n' t y ht hy
          exact hg1.store v' n' t y ht (((hfs _ (store_ne_extract cfg _ v file)).file y).1 hy)
        · intro _ v' f'
          obtain ⟨h1, h2⟩ := hg1.links hs v' f'
          by_cases hp : cfg.extractPath v' f' = cfg.extractPath v file
          · obtain ⟨rfl, hname⟩ := extractPath_inj hp
            rw [hp] at h1 h2 ⊢
            refine ⟨fun b hb => h1 b (relink_fs_self _ _ _ _ hb), ?_⟩
            intro t ht
            rcases relink_links_self _ _ _ _ ht with h | h
            · exact h2 t h
            · exact ⟨x, by rw [hname]; exact htx, h⟩
          · refine ⟨fun b hb => h1 b (((hfs _ hp).file b).1 hb), ?_⟩
            intro t ht
            rw [relink_links _ _ _ _ hp] at ht
            exact h2 t ht
        · intro hs'; rw [hs] at hs'; simp at hs'
      · intro hr
        obtain ⟨y, hy⟩ := hpres rfl
        rw [← hcont y hy]
        exact content_link (relink_ok hr) (((hfs _ (store_ne_extract cfg _ v file)).file y).2 hy)
  | false =>
    simp only [PCfg.extractFile, hs, Bool.false_eq_true, if_false]
    set out := cfg.extractPath v file with hout
    have hframe := fun q (hq : q ≠ out) => ensureFile_frame cfg d.fs out file.chunks f.write hq
    obtain ⟨hlk, hfl⟩ := hg.files hs v file
    have hcont : ∀ y, (cfg.ensureFile d.fs out file.chunks f.write).1 out = some (.file y) → y = w.file (catalog v (fmtOpt file.name)) := by
      intro y hy
      by_cases hp : ∃ b, d.fs out = some (.file b)
      · obtain ⟨b, hb⟩ := hp
        rw [ensureFile_present _ _ hb] at hy
        exact hfl y hy
      · have hn : ∀ b, d.fs out ≠ some (.file b) := fun b hb => hp ⟨b, hb⟩
        cases hr : (cfg.ensureFile d.fs out file.chunks f.write).2 with
        | error e => exact absurd hy (ensureFile_error hr hrm y)
        | ok u =>
          obtain ⟨bs, h1, h2⟩ := ensureFile_written hr hn
          rw [h2] at hy
          simp only [Option.some.injEq, Node.file.injEq] at hy
          rw [← hy]; exact genuine_loads hgen hg.bundles h1
    constructor
    · refine ⟨?_, ?_, ?_, ?_⟩
      · intro b y hy
        exact hg.bundles b y (((hframe _ (bundle_ne_extract cfg b v file)).file y).1 hy)
      · intro v' n' t y ht hy
        exact hg.store v' n' t y ht (((hframe _ (store_ne_extract cfg _ v file)).file y).1 hy)
      · intro hs'; rw [hs] at hs'; simp at hs'
      · intro _ v' f'
        obtain ⟨h1, h2⟩ := hg.files hs v' f'
        refine ⟨h1, ?_⟩
        intro b hb
        by_cases hp : cfg.extractPath v' f' = out
        · obtain ⟨rfl, hname⟩ := extractPath_inj hp
          rw [hname]
          simp only at hb
          rw [hp] at hb
          exact hcont b hb
        · exact h2 b (((hframe _ hp).file b).1 hb)
    · intro hr
      by_cases hp : ∃ b, d.fs out = some (.file b)
      · obtain ⟨b, hb⟩ := hp
        rw [ensureFile_present _ _ hb, ← hfl b hb]
        exact content_plain hlk hb
      · obtain ⟨bs, h1, h2⟩ := ensureFile_written hr (fun b hb => hp ⟨b, hb⟩)
        rw [← genuine_loads hgen hg.bundles h1]
        exact content_plain hlk h2

theorem good_content {cfg : PCfg} {w : Cdn} {catalog : Int → Str → List Nat} {d : Disk} (hg : GoodDisk cfg w catalog d)
    {v : Int} {f : PFile} {x : Bytes} (h : d.content (cfg.extractPath v f) = some x) : x = w.file (catalog v (fmtOpt f.name)) := by
  rw [content_eq_some, Disk.resolve] at h
  cases hs : cfg.symlinks with
  | true =>
    obtain ⟨h1, h2⟩ := hg.links hs v f
    cases hl : d.links (cfg.extractPath v f) with
    | none => rw [hl] at h; exact absurd h (h1 x)
    | some t =>
      rw [hl] at h
      obtain ⟨y, hy, rfl⟩ := h2 t hl
      exact hg.store _ _ y x hy h
  | false =>
    obtain ⟨h1, h2⟩ := hg.files hs v f
    rw [h1] at h
    exact h2 x h

theorem good_step {cfg : PCfg} {w : Cdn} {catalog : Int → Str → List Nat} (hsha : NoCollision cfg.sha1 catalog) {d : Disk}
    (hg : GoodDisk cfg w catalog d) {op : POp} (hl : op.Legit cfg w catalog) :
    GoodDisk cfg w catalog (op.run cfg d).1 ∧
    (∀ v o file f, op = .extract v o file f → (op.run cfg d).2 = .ok () →
      (op.run cfg d).1.content (cfg.extractPath v file) = some (w.file (catalog v (fmtOpt file.name)))) := by
  cases op with
  | download b r f => exact ⟨good_download hg hl, by simp⟩
  | extract v o file f =>
    simp only [POp.run, PCfg.elemExtractFile]
    split
    · rename_i hc
      refine ⟨hg, ?_⟩
      rintro v' o' file' f' he -
      cases he
      simp only [Bool.and_eq_true, PCfg.isExtracted] at hc
      cases hcon : d.content (cfg.extractPath v file) with
      | none => rw [hcon] at hc; simp at hc
      | some y => rw [good_content hg hcon]
    · obtain ⟨h1, h2⟩ := good_extractFile hsha hg (f := f) hl.1 hl.2
      refine ⟨h1, ?_⟩
      rintro v' o' file' f' he hr
      cases he
      exact h2 hr

/-- The disk after a history -/
def afterOps (cfg : PCfg) (d : Disk) (ops : List POp) : Disk := ops.foldl (fun d op => (op.run cfg d).1) d

theorem good_history {cfg : PCfg} {w : Cdn} {catalog : Int → Str → List Nat} (hsha : NoCollision cfg.sha1 catalog) {d : Disk}
    (hg : GoodDisk cfg w catalog d) {ops : List POp} (hl : ∀ op ∈ ops, op.Legit cfg w catalog) :
    GoodDisk cfg w catalog (afterOps cfg d ops) := by
  induction ops generalizing d with
  | nil => exact hg
  | cons op ops ih => exact ih (good_step hsha hg (hl op (by simp))).1 (fun o ho => hl o (by simp [ho]))

/-- After any history of downloads and extractions, with any failures: every file of the shared store
holds the content designated by its chunk list, and every output which can be read holds the content of its file. -/
theorem C34_history (cfg : PCfg) (w : Cdn) (catalog : Int → Str → List Nat) (hsha : NoCollision cfg.sha1 catalog) (d : Disk)
    (hg : GoodDisk cfg w catalog d) (ops : List POp) (hl : ∀ op ∈ ops, op.Legit cfg w catalog) :
    (∀ v name t x, IdsText (catalog v name) t → (afterOps cfg d ops).fs (cfg.storePath (cfg.sha1 t)) = some (.file x) →
      x = ((catalog v name).map w.chunk).flatten) ∧
    (∀ v file x, (afterOps cfg d ops).content (cfg.extractPath v file) = some x →
      x = ((catalog v (fmtOpt file.name)).map w.chunk).flatten) :=
  have h := good_history hsha hg hl
  ⟨h.store, fun _ _ _ hx => good_content h hx⟩

/-- A file whose extraction succeeds, after any history, resolves to its content; whatever the
outcome, the disk stays good (so this holds for the following operations). -/
theorem C34_success (cfg : PCfg) (w : Cdn) (catalog : Int → Str → List Nat) (hsha : NoCollision cfg.sha1 catalog) (d : Disk)
    (hg : GoodDisk cfg w catalog d) (ops : List POp) (hl : ∀ op ∈ ops, op.Legit cfg w catalog)
    (version : Int) (overwrite : Bool) (file : PFile) (f : ExtractFaults)
    (hop : (POp.extract version overwrite file f).Legit cfg w catalog) (d' : Disk) (r : Res Unit)
    (hrun : cfg.elemExtractFile version overwrite (afterOps cfg d ops) file f = (d', r)) :
    GoodDisk cfg w catalog d' ∧
    (r = .ok () → d'.content (cfg.extractPath version file) = some ((catalog version (fmtOpt file.name)).map w.chunk).flatten) := by
  obtain ⟨h1, h2⟩ := good_step hsha (good_history hsha hg hl) hop
  simp only [POp.run, hrun] at h1 h2
  exact ⟨h1, h2 version overwrite file f rfl⟩

/-- Two files use the same file of the store only if they have the same list of chunks. -/
theorem C34_shared (cfg : PCfg) (f f' : PFile) (ids ids' : List Nat) (w : Cdn)
    (hsha : ∀ t t', IdsText ids t → IdsText ids' t' → cfg.sha1 t = cfg.sha1 t' → t = t')
    (h : Genuine cfg w f ids) (h' : Genuine cfg w f' ids') (x x' : Str) (hx : digestInput f.chunks = .ok x)
    (hx' : digestInput f'.chunks = .ok x') :
    cfg.storePath (cfg.sha1 x) = cfg.storePath (cfg.sha1 x') ↔ ids = ids' := by
  obtain ⟨y, hy, hty⟩ := genuine_digest h
  obtain ⟨y', hy', hty'⟩ := genuine_digest h'
  rw [hx] at hy; rw [hx'] at hy'
  cases hy; cases hy'
  constructor
  · intro he
    have := hsha _ _ hty hty' (storePath_inj he)
    subst this
    exact IdsText_inj hty hty'
  · rintro rfl
    rw [IdsText_unique hty hty']

/-- A disk without links, bundles, stored files nor outputs is good. -/
theorem C34_fresh (cfg : PCfg) (w : Cdn) (catalog : Int → Str → List Nat) (d : Disk) (hl : ∀ p, d.links p = none)
    (hf : ∀ p b, d.fs p ≠ some (.file b)) : GoodDisk cfg w catalog d :=
  ⟨fun b x h => absurd h (hf _ x), fun _ _ _ x _ h => absurd h (hf _ x), fun _ _ _ => ⟨fun b h => hf _ b h, fun t h => by simp [hl] at h⟩,
    fun _ _ _ => ⟨hl _, fun b h => absurd h (hf _ b)⟩⟩

/-- What the theorems above rely on: the content of the store is trusted. If the file of the store
exists with any content `b` (for instance after a power loss while writing it), extracting
gives `b`. -/
theorem C34_trusted_store (cfg : PCfg) (hs : cfg.symlinks = true) (d d' : Disk) (version : Int) (file : PFile) (f : ExtractFaults)
    (x : Str) (hx : digestInput file.chunks = .ok x) (b : Bytes) (hb : d.fs (cfg.storePath (cfg.sha1 x)) = some (.file b))
    (hok : cfg.extractFile d file (cfg.extractPath version file) f = (d', .ok ())) :
    d'.content (cfg.extractPath version file) = some b := by
  simp only [PCfg.extractFile, hs, if_true, hx, ensureFile_present _ _ hb] at hok
  have hl := relink_ok (d := d) (real := cfg.storePath (cfg.sha1 x)) (out := cfg.extractPath version file) (f := f) (by rw [hok])
  have hf := relink_fs d (cfg.storePath (cfg.sha1 x)) (cfg.extractPath version file) f (store_ne_extract cfg (cfg.sha1 x) version file)
  rw [hok] at hl hf
  exact content_link hl ((hf.file b).2 hb)

/-- Without symlinks, an existing output is never written again, even with `overwrite` and a wrong content. -/
theorem C34_no_overwrite (cfg : PCfg) (hs : cfg.symlinks = false) (d : Disk) (version : Int) (overwrite : Bool) (file : PFile)
    (f : ExtractFaults) (b : Bytes) (hb : d.fs (cfg.extractPath version file) = some (.file b)) :
    cfg.elemExtractFile version overwrite d file f = (d, .ok ()) := by
  unfold PCfg.elemExtractFile
  split
  · rfl
  · simp only [PCfg.extractFile, hs, Bool.false_eq_true, if_false, ensureFile_present _ _ hb]

/-! Non-vacuity -/
def demoCdn : Cdn := ⟨fun i => if i = 5 then [1, 2] else [3], fun _ => [0, 1, 2, 0, 3]⟩
def demoCatalog : Int → Str → List Nat := fun _ _ => [7, 5, 7]
def injCfg (sym : Bool) : PCfg := { demoCfg sym with sha1 := fun x => x }
example (sym : Bool) : NoCollision (injCfg sym).sha1 demoCatalog := fun _ _ _ _ _ _ _ _ h => h
theorem demo_genuine (sym : Bool) : Genuine (injCfg sym) demoCdn demoFile [7, 5, 7] :=
  .cons ⟨rfl, by decide, 10, 2, rfl, rfl, by cases sym <;> decide +kernel⟩
    (.cons ⟨rfl, by decide, 10, 3, rfl, rfl, by cases sym <;> decide +kernel⟩
      (.cons ⟨rfl, by decide, 10, 2, rfl, rfl, by cases sym <;> decide +kernel⟩ .nil))
example (sym : Bool) : (POp.extract 12 true demoFile { symlink := some (.os 5) }).Legit (injCfg sym) demoCdn demoCatalog :=
  ⟨demo_genuine sym, rfl⟩
example (sym : Bool) : (POp.download 10 (.ok [0, 1, 2, 0, 3]) { close := some (3, .os 28) }).Legit (injCfg sym) demoCdn demoCatalog :=
  ⟨fun x h => by simpa [demoCdn] using (Except.ok.inj h).symm, rfl⟩
/-- a failed download, a failed extraction (no bundle), then both succeed -/
example : ((afterOps (injCfg true) ⟨fun _ => none, fun _ => none⟩
    [.download 10 (.ok [0, 1, 2, 0, 3]) { close := some (3, .os 28) }, .extract 12 false demoFile {},
     .download 10 (.ok [0, 1, 2, 0, 3]) {}, .extract 12 false demoFile {}]).content "/s/cdtb/releases/live/12/files/a/b.txt".toList)
    = some [3, 1, 2, 3] := by decide +kernel

end Cdtb
