import Verif.Props.C04
import Verif.Props.C06
import Verif.Props.C34
import Verif.Props.C29
import Verif.Props.C36
/-!
# C35  Downloading then extracting an element never misses a bundle

The bundles are downloaded by a pool: `sched` is any interleaving of the tasks. `d` is the disk before
downloading: any subset of bundles may be present, any subset of files may be extracted.
-/
namespace Cdtb
set_option autoImplicit false
open Py Spec

/-! ### Files present stay -/

theorem download_keep {base : Str} {fs : FS} {c : DownloadCall} (hf : c.force = false) {q : Str} {b : Bytes}
    (h : fs q = some (.file b)) : (download base fs c).1 q = some (.file b) := by
  by_cases hq : q = c.dest base
  · rw [C05_present base fs c hf b (by rw [← hq]; exact h)]; exact h
  · exact (C05_frame base fs c q hq b).2 h

theorem downloads_keep {base : Str} {cs : List DownloadCall} (hf : ∀ c ∈ cs, c.force = false) {fs : FS} {q : Str} {b : Bytes}
    (h : fs q = some (.file b)) : downloads base fs cs q = some (.file b) := by
  unfold downloads
  induction cs generalizing fs with
  | nil => exact h
  | cons c cs ih => exact ih (fun c hc => hf c (by simp [hc])) (download_keep (hf c (by simp)) h)

theorem download_ok_file {base : Str} {fs : FS} {c : DownloadCall} (h : (download base fs c).2.1 = .ok ()) :
    ∃ b, (download base fs c).1 (c.dest base) = some (.file b) := by
  rcases hd : download base fs c with ⟨fs', r, q⟩
  rw [hd] at h
  simp only at h
  subst h
  cases q with
  | true => obtain ⟨b, _, h2⟩ := C05_success base fs fs' c hd; exact ⟨b, h2⟩
  | false =>
    unfold download at hd
    split at hd
    · rename_i hc
      simp only [Prod.mk.injEq] at hd
      rw [← hd.1]
      simp only [Bool.and_eq_true, FS.isFile] at hc
      cases hx : fs (c.dest base) with
      | none => rw [hx] at hc; simp at hc
      | some n => cases n with
        | file b => exact ⟨b, hx⟩
        | dir => rw [hx] at hc; simp at hc
    · cases hr : c.response with
      | error e => rw [hr] at hd; simp at hd
      | ok content => rw [hr] at hd; simp at hd

/-! ### The pool -/

theorem bundles_separate (cfg : PCfg) (response : Nat → Res Bytes) (faults : Nat → WriteFaults) (ids : List Nat)
    (hlt : ∀ i ∈ ids, i < 2 ^ 64) : Separate (fun i : {i // i ∈ ids} => cfg.bundleTask response faults i.1) := by
  apply separate_of_same_dir _ (rootPre cfg.base ++ "channels/public/bundles".toList) (fun i => hexWU 16 i.1 ++ ".bundle".toList) 23
  · intro i
    show cfg.bundlePath i.1 = _
    rw [bundlePath_eq]; simp
  · intro i; simp
  · intro i
    have := (hexU16_hexWU (hlt i.1 i.2)).length
    simp [this]
  · intro i j h
    have : cfg.bundlePath i.1 = cfg.bundlePath j.1 := by
      rw [bundlePath_eq, bundlePath_eq, List.append_assoc, List.append_assoc]
      rw [h]
    exact Subtype.ext (bundlePath_inj this)
  · intro i h
    rcases List.mem_append.1 h with h | h
    · exact hexWU_noslash _ h
    · exact absurd h (by decide +kernel)

/-- When all the tasks of the pool succeed, all the bundles are there, and files which were there are
unchanged. -/
theorem pool_done (cfg : PCfg) (response : Nat → Res Bytes) (faults : Nat → WriteFaults) (ids : List Nat) (hnd : ids.Nodup)
    (hlt : ∀ i ∈ ids, i < 2 ^ 64) (fs : FS) (sched : List {i // i ∈ ids})
    (hdone : ∀ i, (cfg.downloadPool response faults ids fs sched).states i = .done (.ok ())) :
    (∀ i ∈ ids, ∃ x, (cfg.downloadPool response faults ids fs sched).fs (cfg.bundlePath i) = some (.file x)) ∧
    (∀ q b, fs q = some (.file b) → (cfg.downloadPool response faults ids fs sched).fs q = some (.file b)) ∧
    (cfg.downloadPool response faults ids fs sched).fs = downloads cfg.base fs (ids.map (bundleCall response faults)) := by
  obtain ⟨h1, h2⟩ := C06_schedule_independent (ι := {i // i ∈ ids}) cfg.base (fun i => bundleRel i.1) (fun i => response i.1) (fun i => faults i.1) fs
    (bundles_separate cfg response faults ids hlt) ids.attach (fun i => List.mem_attach ids i) (List.nodup_attach.2 hnd) sched
    (fun i => ⟨_, hdone i⟩)
  have hforce : ∀ c ∈ ids.attach.map (taskCall (ι := {i // i ∈ ids}) cfg.base (fun i => bundleRel i.1) (fun i => response i.1) (fun i => faults i.1)), c.force = false := by
    intro c hc
    obtain ⟨i, _, rfl⟩ := List.mem_map.1 hc
    rfl
  have hfs : (cfg.downloadPool response faults ids fs sched).fs = downloads cfg.base fs (ids.map (bundleCall response faults)) := by
    refine Eq.trans h1 ?_
    congr 1
    conv_rhs => rw [← List.attach_map_subtype_val ids, List.map_map]
    rfl
  refine ⟨?_, ?_, hfs⟩
  · intro i hi
    obtain ⟨pre, post, hsplit⟩ := List.append_of_mem (List.mem_attach ids ⟨i, hi⟩)
    have hd := h2 pre ⟨i, hi⟩ post hsplit
    have hd' : TState.done (.ok ()) = _ := (hdone ⟨i, hi⟩).symm.trans hd
    simp only [TState.done.injEq] at hd'
    obtain ⟨b, hb⟩ := download_ok_file hd'.symm
    refine ⟨b, ?_⟩
    have h1' := h1
    rw [hsplit, List.map_append, List.map_cons] at h1'
    have e : (cfg.downloadPool response faults ids fs sched).fs = _ := h1'
    rw [e]
    unfold downloads at hb ⊢
    rw [List.foldl_append, List.foldl_cons]
    exact downloads_keep (fun c hc => hforce c (by rw [hsplit]; simp only [List.map_append, List.map_cons, List.mem_append, List.mem_cons]; exact Or.inr (Or.inr hc))) hb
  · intro q b hq
    have e : (cfg.downloadPool response faults ids fs sched).fs = _ := h1
    rw [e]
    exact downloads_keep hforce hq

/-! ### Extracting a file does not undo the extraction of the others -/

/-- Links at outputs go to the shared store. -/
def StoreLinks (cfg : PCfg) (d : Disk) : Prop :=
  ∀ v f t, d.links (cfg.extractPath v f) = some t → ∃ x, t = cfg.storePath x

theorem ensureFile_keep (cfg : PCfg) (fs : FS) (real : Str) (cs : List PChunk) (f : WriteFaults) {q : Str} {b : Bytes}
    (h : fs q = some (.file b)) : (cfg.ensureFile fs real cs f).1 q = some (.file b) := by
  by_cases hq : q = real
  · subst hq; rw [ensureFile_present cs f h]; exact h
  · exact ((ensureFile_frame cfg fs real cs f hq).file b).2 h

theorem elemExtractFile_keep {cfg : PCfg} {d : Disk} {v : Int} {o : Bool} {g : PFile} {flt : ExtractFaults} {q : Str} {b : Bytes}
    (hq : q ≠ cfg.extractPath v g) (h : d.fs q = some (.file b)) :
    (cfg.elemExtractFile v o d g flt).1.fs q = some (.file b) := by
  unfold PCfg.elemExtractFile
  split
  · exact h
  · unfold PCfg.extractFile
    split
    · cases digestInput g.chunks with
      | error e => exact h
      | ok x =>
        simp only
        have hk := ensureFile_keep cfg d.fs (cfg.storePath (cfg.sha1 x)) g.chunks flt.write h
        rcases he : cfg.ensureFile d.fs (cfg.storePath (cfg.sha1 x)) g.chunks flt.write with ⟨fs1, r⟩
        rw [he] at hk
        cases r with
        | error e => exact hk
        | ok u => exact ((relink_fs { d with fs := fs1 } _ _ flt hq).file b).2 hk
    · exact ensureFile_keep cfg d.fs _ g.chunks flt.write h

theorem elemExtractFile_links {cfg : PCfg} {d : Disk} {v : Int} {o : Bool} {g : PFile} {flt : ExtractFaults} {q : Str}
    (hq : q ≠ cfg.extractPath v g) : (cfg.elemExtractFile v o d g flt).1.links q = d.links q := by
  unfold PCfg.elemExtractFile
  split
  · rfl
  · unfold PCfg.extractFile
    split
    · cases digestInput g.chunks with
      | error e => rfl
      | ok x =>
        simp only
        rcases cfg.ensureFile d.fs (cfg.storePath (cfg.sha1 x)) g.chunks flt.write with ⟨fs1, r⟩
        cases r with
        | error e => rfl
        | ok u => exact relink_links { d with fs := fs1 } _ _ flt hq
    · rfl

theorem elemExtractFile_storeLinks {cfg : PCfg} {d : Disk} {v : Int} {o : Bool} {g : PFile} {flt : ExtractFaults}
    (hl : StoreLinks cfg d) : StoreLinks cfg (cfg.elemExtractFile v o d g flt).1 := by
  intro v' f' t ht
  by_cases hq : cfg.extractPath v' f' = cfg.extractPath v g
  · unfold PCfg.elemExtractFile at ht
    split at ht
    · exact hl v' f' t ht
    · unfold PCfg.extractFile at ht
      split at ht
      · cases hx : digestInput g.chunks with
        | error e => rw [hx] at ht; exact hl v' f' t ht
        | ok x =>
          rw [hx] at ht
          simp only at ht
          rcases he : cfg.ensureFile d.fs (cfg.storePath (cfg.sha1 x)) g.chunks flt.write with ⟨fs1, r⟩
          rw [he] at ht
          cases r with
          | error e => exact hl v' f' t ht
          | ok u =>
            rw [hq] at ht
            rcases relink_links_self _ _ _ _ ht with h | h
            · exact hl v g t h
            · exact ⟨_, h⟩
      · exact hl v' f' t ht
  · rw [elemExtractFile_links hq] at ht
    exact hl v' f' t ht

theorem elemExtractFile_content {cfg : PCfg} {d : Disk} (hl : StoreLinks cfg d) {v : Int} {o : Bool} {f g : PFile} {flt : ExtractFaults}
    (hne : fmtOpt f.name ≠ fmtOpt g.name) {b : Bytes} (h : d.content (cfg.extractPath v f) = some b) :
    (cfg.elemExtractFile v o d g flt).1.content (cfg.extractPath v f) = some b := by
  have hq : cfg.extractPath v f ≠ cfg.extractPath v g := fun h => hne (extractPath_inj h).2
  rw [content_eq_some] at h ⊢
  unfold Disk.resolve at h ⊢
  rw [elemExtractFile_links hq]
  apply elemExtractFile_keep _ h
  cases hx : d.links (cfg.extractPath v f) with
  | none => exact hq
  | some t =>
    obtain ⟨x, rfl⟩ := hl v f t hx
    exact store_ne_extract cfg x v g

theorem extractAll_keep {cfg : PCfg} {v : Int} {o : Bool} {flts : Nat → ExtractFaults} (l : List PFile) (i : Nat) (d : Disk)
    (hl : StoreLinks cfg d) :
    StoreLinks cfg (cfg.extractAll v o flts i d l).1 ∧
    (∀ f b, (∀ g ∈ l, fmtOpt f.name ≠ fmtOpt g.name) → d.content (cfg.extractPath v f) = some b →
      (cfg.extractAll v o flts i d l).1.content (cfg.extractPath v f) = some b) ∧
    (∀ q b, (∀ f, q ≠ cfg.extractPath v f) → d.fs q = some (.file b) → (cfg.extractAll v o flts i d l).1.fs q = some (.file b)) := by
  induction l generalizing i d with
  | nil => exact ⟨hl, fun f b _ h => h, fun q b _ h => h⟩
  | cons g l ih =>
    simp only [PCfg.extractAll]
    have h1 : StoreLinks cfg (cfg.elemExtractFile v o d g (flts i)).1 := elemExtractFile_storeLinks hl
    have h2 : ∀ f b, fmtOpt f.name ≠ fmtOpt g.name → d.content (cfg.extractPath v f) = some b →
      (cfg.elemExtractFile v o d g (flts i)).1.content (cfg.extractPath v f) = some b := fun f b hn h => elemExtractFile_content hl hn h
    have h3 : ∀ q b, (∀ f, q ≠ cfg.extractPath v f) → d.fs q = some (.file b) →
      (cfg.elemExtractFile v o d g (flts i)).1.fs q = some (.file b) := fun q b hq h => elemExtractFile_keep (hq g) h
    rcases he : cfg.elemExtractFile v o d g (flts i) with ⟨d', r⟩
    rw [he] at h1 h2 h3
    cases r with
    | error e => exact ⟨h1, fun f b hn => h2 f b (hn g (by simp)), h3⟩
    | ok u =>
      obtain ⟨g1, g2, g3⟩ := ih (i + 1) d' h1
      refine ⟨g1, fun f b hn h => g2 f b (fun x hx => hn x (by simp [hx])) (h2 f b (hn g (by simp)) h), fun q b hq h => g3 q b hq (h3 q b hq h)⟩

/-! ### The bundles needed are there -/

theorem sortIds_mem {l : List (Option Nat)} {ids : List Nat} (h : sortIds l = .ok ids) :
    (∀ i, i ∈ ids ↔ some i ∈ l) ∧ none ∉ l ∧ (l.Nodup → ids.Nodup) := by
  unfold sortIds at h
  have key : ∀ (l : List (Option Nat)) (r : List Nat), l.mapM bundleIdRes = .ok r → l = r.map some := by
    intro l
    induction l with
    | nil => intro r h; cases h; rfl
    | cons x l ih =>
      intro r h
      rw [List.mapM_cons] at h
      cases x with
      | none => simp [bundleIdRes, bind, Except.bind] at h
      | some i =>
        cases hm : l.mapM bundleIdRes with
        | error e => rw [hm] at h; simp [bundleIdRes, bind, Except.bind] at h
        | ok r' =>
          rw [hm] at h
          simp only [bundleIdRes, bind, Except.bind, pure, Except.pure, Except.ok.injEq] at h
          rw [← h, ih r' hm]; rfl
  cases hm : l.mapM bundleIdRes with
  | error e => rw [hm] at h; simp [bind, Except.bind] at h
  | ok r =>
    rw [hm] at h
    simp only [bind, Except.bind, pure, Except.pure, Except.ok.injEq] at h
    have hl := key l r hm
    subst hl
    have hp := List.perm_insertionSort (· ≤ ·) r
    rw [h] at hp
    refine ⟨fun i => by rw [hp.mem_iff]; simp, by simp, ?_⟩
    intro hn
    exact hp.nodup_iff.2 (List.Nodup.of_map _ hn)

theorem sortFiles_perm {l r : List PFile} (h : sortFiles l = .ok r) : r.Perm l := by
  unfold sortFiles at h
  split at h
  · simp at h
  · cases h; exact List.perm_insertionSort _ _

/-- The bundles of an element are downloaded (all tasks of the pool succeed, in any interleaving),
skipping files already extracted. Then, when extracting the files of the element for the same
languages, in the order of extraction: whenever a file is about to be extracted (all the previous
ones having been extracted or skipped, and this one not being skipped), all its bundles are there. -/
theorem C35_bundles (cfg : PCfg) (version : Int) (m : Manifest) (langs : Langs) (d : Disk) (hl : StoreLinks cfg d)
    (need : List (Option Nat)) (hneed : cfg.bundleIds version m langs true d = .ok need)
    (ids : List Nat) (hids : sortIds need = .ok ids) (hlt : ∀ i ∈ ids, i < 2 ^ 64)
    (response : Nat → Res Bytes) (faults : Nat → WriteFaults) (sched : List {i // i ∈ ids})
    (hdone : ∀ i, (cfg.downloadPool response faults ids d.fs sched).states i = .done (.ok ()))
    (sel files : List PFile) (hsel : m.realFiles langs = .ok sel) (hfiles : sortFiles sel = .ok files)
    (hnames : (files.map fun f => fmtOpt f.name).Nodup)
    (flts : Nat → ExtractFaults) (pre : List PFile) (f : PFile) (post : List PFile) (hsplit : files = pre ++ f :: post)
    (d' : Disk)
    (hpre : cfg.extractAll version false flts 0 { d with fs := (cfg.downloadPool response faults ids d.fs sched).fs } pre = (d', .ok ()))
    (hnot : cfg.isExtracted version d' f = false) :
    ∀ c ∈ f.chunks, ∃ b x, c.bundle = some b ∧ d'.fs (cfg.bundlePath b) = some (.file x) := by
  simp only [PCfg.bundleIds, hsel, bind, Except.bind, pure, Except.pure, Except.ok.injEq] at hneed
  obtain ⟨hmem, hnone, hnd⟩ := sortIds_mem hids
  obtain ⟨p1, p2, -⟩ := pool_done cfg response faults ids (hnd (by rw [← hneed]; exact List.nodup_dedup _)) hlt d.fs sched hdone
  obtain ⟨-, k2, k3⟩ := extractAll_keep (cfg := cfg) (v := version) (o := false) (flts := flts) pre 0
    { d with fs := (cfg.downloadPool response faults ids d.fs sched).fs } hl
  rw [hpre] at k2 k3
  -- the file was not extracted when computing the bundles
  have hne : cfg.isExtracted version d f = false := by
    by_contra hc
    rw [Bool.not_eq_false] at hc
    have hx := hc
    unfold PCfg.isExtracted at hc hnot
    cases hco : d.content (cfg.extractPath version f) with
    | none => rw [hco] at hc; simp at hc
    | some b =>
      rw [hco] at hc
      have h1 : ({ d with fs := (cfg.downloadPool response faults ids d.fs sched).fs } : Disk).content (cfg.extractPath version f) = some b := by
        rw [content_eq_some] at hco ⊢
        exact p2 _ _ hco
      have h2 := k2 f b (by
        intro g hg he
        rw [hsplit, List.map_append, List.map_cons, List.nodup_append] at hnames
        exact hnames.2.2 (fmtOpt g.name) (List.mem_map.2 ⟨g, hg, rfl⟩) (fmtOpt f.name) (by simp) he.symm) h1
      simp only at h2
      rw [h2] at hnot
      rw [hnot] at hc
      simp at hc
  intro c hc
  have hin : c.bundle ∈ need := by
    rw [← hneed]
    unfold fileBundles
    rw [List.mem_dedup, List.mem_flatMap]
    refine ⟨f, List.mem_filter.2 ⟨(sortFiles_perm hfiles).mem_iff.1 (by rw [hsplit]; simp), by simp [hne]⟩, List.mem_map.2 ⟨c, hc, rfl⟩⟩
  cases hb : c.bundle with
  | none => rw [hb] at hin; exact absurd hin hnone
  | some b =>
    rw [hb] at hin
    obtain ⟨x, hx⟩ := p1 b ((hmem b).2 hin)
    exact ⟨b, x, rfl, k3 _ _ (fun g => bundle_ne_extract cfg b version g) hx⟩

/-! ### Without faults everything is extracted -/

theorem remove_dir {fs : FS} {p q : Str} {b : Bool} (h : fs.remove p b q = some .dir) : fs q = some .dir := by
  by_cases hq : q = p
  · subst hq
    unfold FS.remove at h
    split at h
    · exact h
    · cases hp : fs q with
      | none => rw [hp] at h; simp [hp] at h
      | some n =>
        cases n with
        | file x => rw [hp] at h; simp at h
        | dir => rfl
  · rwa [remove_other fs hq b] at h

theorem writeFileOrRemove_dir {fs : FS} {path : Str} {body f} {q : Str} (h : (writeFileOrRemove fs path body f).1 q = some .dir) :
    fs q = some .dir ∨ q ∈ dirPrefixes (dirname path) := by
  have h1 : (writeTry fs path body f).1 q = some .dir := by
    unfold writeFileOrRemove at h
    rcases hw : writeTry fs path body f with ⟨fs1, r⟩
    rw [hw] at h
    cases r with
    | error e => exact remove_dir h
    | ok u => exact h
  have h2 : (fs.makedirs (dirname path) f.makedirs).1 q = some .dir := by
    unfold writeTry at h1
    rcases hm : fs.makedirs (dirname path) f.makedirs with ⟨fs1, r⟩
    rw [hm] at h1
    cases r with
    | error e => exact h1
    | ok u =>
      simp only at h1
      cases ho : f.open_ with
      | some e => rw [ho] at h1; exact h1
      | none =>
        rw [ho] at h1
        simp only at h1
        split at h1
        · exact h1
        · by_cases hq : q = path
          · subst hq; simp at h1
          · simp only [FS.set_other _ hq] at h1; exact h1
  rcases makedirs_dirsAdded fs (dirname path) f.makedirs q with h | ⟨h, _⟩
  · rw [h] at h2; exact Or.inl h2
  · exact Or.inr h

theorem ensureFile_dir {cfg : PCfg} {fs : FS} {real : Str} {cs f} {q : Str} (h : (cfg.ensureFile fs real cs f).1 q = some .dir) :
    fs q = some .dir ∨ q ∈ dirPrefixes (dirname real) := by
  unfold PCfg.ensureFile at h
  split at h
  · exact Or.inl h
  · exact writeFileOrRemove_dir h

theorem relink_dir {d : Disk} {real out : Str} {f} {q : Str} (h : (d.relink real out f).1.fs q = some .dir) :
    d.fs q = some .dir ∨ q ∈ dirPrefixes (dirname out) := by
  have h1 : ((d.unlink out f.remove).makedirs (dirname out) f.makedirs).1.fs q = some .dir := by
    unfold Disk.relink at h
    rcases hm : (d.unlink out f.remove).makedirs (dirname out) f.makedirs with ⟨d', r⟩
    rw [hm] at h
    cases r with
    | error e => exact h
    | ok u => simp only [symlink_fs] at h; exact h
  have h2 : (d.unlink out f.remove).fs q = some .dir ∨ q ∈ dirPrefixes (dirname out) := by
    unfold Disk.makedirs at h1
    split at h1
    · exact Or.inl h1
    · rcases makedirs_dirsAdded (d.unlink out f.remove).fs (dirname out) f.makedirs q with h | ⟨h, _⟩
      · left; simp only [h] at h1; exact h1
      · exact Or.inr h
  rcases h2 with h2 | h2
  · left
    unfold Disk.unlink at h2
    split at h2
    · exact h2
    · split at h2
      · exact h2
      · exact remove_dir (fs := d.fs) (p := out) (b := false) h2
  · exact Or.inr h2

theorem elemExtractFile_file {cfg : PCfg} {d : Disk} {v : Int} {o : Bool} {g : PFile} {flt : ExtractFaults} {q : Str} {b : Bytes}
    (h : (cfg.elemExtractFile v o d g flt).1.fs q = some (.file b)) :
    d.fs q = some (.file b) ∨ (∃ x, q = cfg.storePath (cfg.sha1 x)) ∨ q = cfg.extractPath v g := by
  by_cases hq : q = cfg.extractPath v g
  · exact Or.inr (Or.inr hq)
  by_cases hx : ∃ x, q = cfg.storePath (cfg.sha1 x)
  · exact Or.inr (Or.inl hx)
  left
  unfold PCfg.elemExtractFile at h
  split at h
  · exact h
  · unfold PCfg.extractFile at h
    split at h
    · cases hd : digestInput g.chunks with
      | error e => rw [hd] at h; exact h
      | ok x =>
        rw [hd] at h
        simp only at h
        have hf := ensureFile_frame cfg d.fs (cfg.storePath (cfg.sha1 x)) g.chunks flt.write (q := q) (fun e => hx ⟨x, e⟩)
        rcases he : cfg.ensureFile d.fs (cfg.storePath (cfg.sha1 x)) g.chunks flt.write with ⟨fs1, r⟩
        rw [he] at h hf
        cases r with
        | error e => exact (hf.file b).1 h
        | ok u => exact (hf.file b).1 (((relink_fs { d with fs := fs1 } _ _ flt hq).file b).1 h)
    · exact ((ensureFile_frame cfg d.fs _ g.chunks flt.write hq).file b).1 h

theorem elemExtractFile_dir {cfg : PCfg} {d : Disk} {v : Int} {o : Bool} {g : PFile} {flt : ExtractFaults} {q : Str}
    (h : (cfg.elemExtractFile v o d g flt).1.fs q = some .dir) :
    d.fs q = some .dir ∨ (∃ x, q ∈ dirPrefixes (dirname (cfg.storePath (cfg.sha1 x)))) ∨ q ∈ dirPrefixes (dirname (cfg.extractPath v g)) := by
  unfold PCfg.elemExtractFile at h
  split at h
  · exact Or.inl h
  · unfold PCfg.extractFile at h
    split at h
    · cases hd : digestInput g.chunks with
      | error e => rw [hd] at h; exact Or.inl h
      | ok x =>
        rw [hd] at h
        simp only at h
        have hf := fun h' => ensureFile_dir (cfg := cfg) (fs := d.fs) (real := cfg.storePath (cfg.sha1 x)) (cs := g.chunks) (f := flt.write) (q := q) h'
        rcases he : cfg.ensureFile d.fs (cfg.storePath (cfg.sha1 x)) g.chunks flt.write with ⟨fs1, r⟩
        rw [he] at h hf
        cases r with
        | error e =>
          rcases hf h with h | h
          · exact Or.inl h
          · exact Or.inr (Or.inl ⟨x, h⟩)
        | ok u =>
          rcases relink_dir h with h | h
          · rcases hf h with h | h
            · exact Or.inl h
            · exact Or.inr (Or.inl ⟨x, h⟩)
          · exact Or.inr (Or.inr h)
    · rcases ensureFile_dir h with h | h
      · exact Or.inl h
      · exact Or.inr (Or.inr h)

/-- No object of the disk is in the way of outputs and of the store: parents of paths are not files,
paths are not directories. -/
structure Unobstructed (cfg : PCfg) (v : Int) (files : List PFile) (d : Disk) : Prop where
  outDirs : ∀ f ∈ files, ∀ q ∈ dirPrefixes (dirname (cfg.extractPath v f)), (∀ b, d.fs q ≠ some (.file b)) ∧ d.links q = none
  outs : ∀ f ∈ files, d.fs (cfg.extractPath v f) ≠ some .dir
  storeDirs : ∀ x, ∀ q ∈ dirPrefixes (dirname (cfg.storePath (cfg.sha1 x))), ∀ b, d.fs q ≠ some (.file b)
  stores : ∀ x, d.fs (cfg.storePath (cfg.sha1 x)) ≠ some .dir

/-- Names of files are not empty, and none is the name of a parent directory of another; digests are all
of the same size, without slash. -/
structure GoodNames (cfg : PCfg) (v : Int) (files : List PFile) : Prop where
  base : ∀ f ∈ files, basename (cfg.extractPath v f) ≠ []
  parents : ∀ f ∈ files, ∀ g ∈ files, cfg.extractPath v f ∉ dirPrefixes (dirname (cfg.extractPath v g))
  distinct : (files.map fun f => fmtOpt f.name).Nodup
  digest : ∃ n, ∀ x, (cfg.sha1 x).length = n + 1
  noslash : ∀ x, '/' ∉ cfg.sha1 x

theorem GoodNames.storeParents {cfg : PCfg} {v : Int} {files : List PFile} (h : GoodNames cfg v files) (x y : Str) :
    cfg.storePath (cfg.sha1 x) ∉ dirPrefixes (dirname (cfg.storePath (cfg.sha1 y))) := by
  intro hm
  obtain ⟨n, hn⟩ := h.digest
  have h1 := mem_dirPrefixes_length hm
  have hb : basename (cfg.storePath (cfg.sha1 y)) ≠ [] := by
    rw [store_basename cfg (h.noslash y)]
    intro he
    have := hn y
    rw [he] at this
    simp at this
  have h2 := dirname_length hb
  rw [storePath_eq, storePath_eq] at h1
  rw [storePath_eq] at h2
  simp only [List.length_append, hn] at h1 h2
  omega

theorem unobstructed_step {cfg : PCfg} {v : Int} {files : List PFile} (hn : GoodNames cfg v files) {d : Disk}
    (hu : Unobstructed cfg v files d) {o : Bool} {g : PFile} (hg : g ∈ files) {flt : ExtractFaults} :
    Unobstructed cfg v files (cfg.elemExtractFile v o d g flt).1 := by
  refine ⟨?_, ?_, ?_, ?_⟩
  · intro f hf q hq
    refine ⟨?_, ?_⟩
    · intro b hb
      rcases elemExtractFile_file hb with h | ⟨x, rfl⟩ | rfl
      · exact (hu.outDirs f hf q hq).1 b h
      · exact store_not_prefix_extract cfg _ v f (dirPrefixes_dirname_prefix hq)
      · exact hn.parents g hg f hf hq
    · rw [elemExtractFile_links (by rintro rfl; exact hn.parents g hg f hf hq)]
      exact (hu.outDirs f hf q hq).2
  · intro f hf hd
    rcases elemExtractFile_dir hd with h | ⟨x, h⟩ | h
    · exact hu.outs f hf h
    · exact extract_not_prefix_store cfg _ v f (dirPrefixes_dirname_prefix h)
    · exact hn.parents f hf g hg h
  · intro x q hq b hb
    rcases elemExtractFile_file hb with h | ⟨y, rfl⟩ | rfl
    · exact hu.storeDirs x q hq b h
    · exact hn.storeParents y x hq
    · exact extract_not_prefix_store cfg _ v g (dirPrefixes_dirname_prefix hq)
  · intro x hd
    rcases elemExtractFile_dir hd with h | ⟨y, h⟩ | h
    · exact hu.stores x h
    · exact hn.storeParents x y h
    · exact store_not_prefix_extract cfg _ v g (dirPrefixes_dirname_prefix h)

/-- When the bundles are there, the steps writing the chunks of a file succeed. -/
theorem genuine_steps {cfg : PCfg} {w : Cdn} {f : PFile} {ids : List Nat} (h : Genuine cfg w f ids) {fs : FS}
    (hb : ∀ b x, fs (cfg.bundlePath b) = some (.file x) → x = w.bundle b)
    (hp : ∀ c ∈ f.chunks, ∃ b x, c.bundle = some b ∧ fs (cfg.bundlePath b) = some (.file x)) :
    f.chunks.map (cfg.chunkStep fs) = (ids.map w.chunk).map .write := by
  unfold Genuine at h
  generalize f.chunks = cs at h hp
  induction h with
  | nil => rfl
  | @cons c i cs ids hc _ ih =>
    rw [List.map_cons, List.map_cons, List.map_cons, ih (fun c hc => hp c (by simp [hc]))]
    congr 1
    obtain ⟨-, -, b, n, h1, h2, h3⟩ := hc
    obtain ⟨b', x, h4, h5⟩ := hp c (by simp)
    rw [h1] at h4
    cases h4
    have := hb b x h5
    subst this
    simp only [PCfg.chunkStep, PCfg.loadChunk, h1, h5, h2, readOpt, h3]

theorem ensureFile_succeeds {cfg : PCfg} {w : Cdn} {f : PFile} {ids : List Nat} (h : Genuine cfg w f ids) {fs : FS}
    (hb : ∀ b x, fs (cfg.bundlePath b) = some (.file x) → x = w.bundle b)
    (hp : ∀ c ∈ f.chunks, ∃ b x, c.bundle = some b ∧ fs (cfg.bundlePath b) = some (.file x)) {real : Str}
    (h1 : dirname real ≠ []) (h2 : ∀ q ∈ dirPrefixes (dirname real), ∀ b, fs q ≠ some (.file b)) (h3 : fs real ≠ some .dir)
    (h4 : basename real ≠ []) : (cfg.ensureFile fs real f.chunks {}).2 = .ok () := by
  unfold PCfg.ensureFile
  split
  · rfl
  · rw [genuine_steps h hb hp]
    exact C04_no_fault fs real _ h1 h2 h3 h4

/-- An extraction without faults succeeds when the bundles are there. -/
theorem elemExtractFile_succeeds {cfg : PCfg} {w : Cdn} {catalog : Int → Str → List Nat} {v : Int} {files : List PFile}
    (hn : GoodNames cfg v files) {d : Disk} (hg : GoodDisk cfg w catalog d) (hu : Unobstructed cfg v files d) {f : PFile} (hf : f ∈ files)
    (hgen : Genuine cfg w f (catalog v (fmtOpt f.name)))
    (hp : cfg.isExtracted v d f = false → ∀ c ∈ f.chunks, ∃ b x, c.bundle = some b ∧ d.fs (cfg.bundlePath b) = some (.file x)) :
    (cfg.elemExtractFile v false d f {}).2 = .ok () := by
  unfold PCfg.elemExtractFile
  cases he : cfg.isExtracted v d f with
  | true => rfl
  | false =>
    simp only [Bool.not_false, Bool.and_false, Bool.false_eq_true, if_false]
    have hp := hp he
    unfold PCfg.extractFile
    split
    · rename_i hs
      obtain ⟨x, hx, htx⟩ := genuine_digest hgen
      rw [hx]
      simp only
      obtain ⟨n, hlen⟩ := hn.digest
      have h1 := ensureFile_succeeds hgen hg.bundles hp (store_dirname_ne_nil cfg (cfg.sha1 x)) (hu.storeDirs x) (hu.stores x) (by
        rw [store_basename cfg (hn.noslash x)]
        intro he
        have := hlen x
        rw [he] at this
        simp at this)
      have hfile := fun q b => (fun h => ensureFile_frame cfg d.fs (cfg.storePath (cfg.sha1 x)) f.chunks {} (q := q) h |>.file b)
      have hdir := fun q => ensureFile_dir (cfg := cfg) (fs := d.fs) (real := cfg.storePath (cfg.sha1 x)) (cs := f.chunks) (f := {}) (q := q)
      rcases hE : cfg.ensureFile d.fs (cfg.storePath (cfg.sha1 x)) f.chunks {} with ⟨fs1, r⟩
      rw [hE] at h1 hfile hdir
      simp only at h1 hfile hdir
      subst h1
      simp only
      -- the disk before the link is created
      have hlink : ∀ q ∈ dirPrefixes (dirname (cfg.extractPath v f)), ((Disk.mk fs1 d.links).unlink (cfg.extractPath v f) false).links q = none := by
        intro q hq
        rw [unlink_links _ _ _ (by rintro rfl; exact hn.parents f hf f hf hq)]
        exact (hu.outDirs f hf q hq).2
      have hnf : ∀ q ∈ dirPrefixes (dirname (cfg.extractPath v f)), ∀ b, ((Disk.mk fs1 d.links).unlink (cfg.extractPath v f) false).fs q ≠ some (.file b) := by
        intro q hq b hb
        rw [unlink_fs _ _ _ (by rintro rfl; exact hn.parents f hf f hf hq)] at hb
        exact (hu.outDirs f hf q hq).1 b ((hfile q b (by
          rintro rfl
          exact store_not_prefix_extract cfg _ v f (dirPrefixes_dirname_prefix hq))).1 hb)
      have hout : ((Disk.mk fs1 d.links).unlink (cfg.extractPath v f) false).fs (cfg.extractPath v f) = none := by
        cases hc : ((Disk.mk fs1 d.links).unlink (cfg.extractPath v f) false).fs (cfg.extractPath v f) with
        | none => rfl
        | some nd =>
          exfalso
          cases nd with
          | file b =>
            have := unlink_fs_self _ _ _ hc
            exact (hg.links hs v f).1 b ((hfile _ b (store_ne_extract cfg _ v f).symm).1 this)
          | dir =>
            have : fs1 (cfg.extractPath v f) = some .dir := by
              unfold Disk.unlink at hc
              simp only [Bool.false_eq_true, if_false] at hc
              split at hc
              · exact hc
              · exact remove_dir (fs := fs1) (p := cfg.extractPath v f) (b := false) hc
            rcases hdir _ this with h | h
            · exact hu.outs f hf h
            · exact extract_not_prefix_store cfg _ v f (dirPrefixes_dirname_prefix h)
      have hol : ((Disk.mk fs1 d.links).unlink (cfg.extractPath v f) false).links (cfg.extractPath v f) = none := by
        unfold Disk.unlink
        simp only [Bool.false_eq_true, if_false]
        split
        · simp
        · rename_i h; exact h
      unfold Disk.relink
      simp only
      generalize (Disk.mk fs1 d.links).unlink (cfg.extractPath v f) false = du at hlink hnf hout hol
      have hmk : ∃ fs2, du.makedirs (dirname (cfg.extractPath v f)) none = (⟨fs2, du.links⟩, .ok ()) ∧ fs2 (cfg.extractPath v f) = none := by
        unfold Disk.makedirs
        rw [if_neg (by
          simp only [List.any_eq_true, not_exists, not_and]
          intro q hq h
          rw [hlink q hq] at h
          simp at h)]
        have h1 : (du.fs.makedirs (dirname (cfg.extractPath v f)) none).2 = .ok () := by
          simp only [FS.makedirs, List.isEmpty_iff, extract_dirname_ne_nil, if_false]
          exact makedirsGo_succeeds _ _ hnf
        have h2 : (du.fs.makedirs (dirname (cfg.extractPath v f)) none).1 (cfg.extractPath v f) = none := by
          rcases makedirs_dirsAdded du.fs (dirname (cfg.extractPath v f)) none (cfg.extractPath v f) with h | ⟨h, _⟩
          · rw [h, hout]
          · exact absurd h (hn.parents f hf f hf)
        rcases hm : du.fs.makedirs (dirname (cfg.extractPath v f)) none with ⟨fs2, r⟩
        rw [hm] at h1 h2
        simp only at h1 h2
        subst h1
        exact ⟨fs2, rfl, h2⟩
      obtain ⟨fs2, hm, h2⟩ := hmk
      rw [hm]
      simp only [Disk.symlink, hol, h2, Option.isSome_none, Bool.or_self, Bool.false_eq_true, if_false]
    · rename_i hs
      exact ensureFile_succeeds hgen hg.bundles hp (extract_dirname_ne_nil cfg v f) (fun q hq => (hu.outDirs f hf q hq).1) (hu.outs f hf) (hn.base f hf)

theorem extractAll_append {cfg : PCfg} {v : Int} {o : Bool} {flts : Nat → ExtractFaults} (l : List PFile) (f : PFile) (i : Nat) (d d' : Disk)
    (h : cfg.extractAll v o flts i d l = (d', .ok ())) :
    cfg.extractAll v o flts i d (l ++ [f]) = cfg.elemExtractFile v o d' f (flts (i + l.length)) := by
  induction l generalizing i d with
  | nil =>
    simp only [PCfg.extractAll, Prod.mk.injEq, and_true] at h
    subst h
    simp only [List.nil_append, PCfg.extractAll, List.length_nil, Nat.add_zero]
    rcases cfg.elemExtractFile v o d f (flts i) with ⟨d', r⟩
    cases r <;> rfl
  | cons g l ih =>
    simp only [List.cons_append, PCfg.extractAll] at h ⊢
    rcases he : cfg.elemExtractFile v o d g (flts i) with ⟨d1, r⟩
    rw [he] at h
    cases r with
    | error e => simp at h
    | ok u =>
      simp only at h ⊢
      rw [ih (i + 1) d1 h, List.length_cons]
      congr 2; omega

theorem good_storeLinks {cfg : PCfg} {w : Cdn} {catalog : Int → Str → List Nat} {d : Disk} (hg : GoodDisk cfg w catalog d) : StoreLinks cfg d := by
  intro v f t ht
  cases hs : cfg.symlinks with
  | true => obtain ⟨x, -, h⟩ := (hg.links hs v f).2 t ht; exact ⟨_, h⟩
  | false => rw [(hg.files hs v f).1] at ht; simp at ht

theorem downloads_afterOps (cfg : PCfg) (response : Nat → Res Bytes) (faults : Nat → WriteFaults) (ids : List Nat) (d : Disk) :
    afterOps cfg d (ids.map fun i => .download i (response i) (faults i))
      = { d with fs := downloads cfg.base d.fs (ids.map (bundleCall response faults)) } := by
  induction ids generalizing d with
  | nil => rfl
  | cons i ids ih => exact ih _

/-- Downloading bundles does not obstruct. -/
theorem unobstructed_downloads {cfg : PCfg} {v : Int} {files : List PFile} (response : Nat → Res Bytes) (faults : Nat → WriteFaults)
    (ids : List Nat) (d : Disk) (hu : Unobstructed cfg v files d) :
    Unobstructed cfg v files { d with fs := downloads cfg.base d.fs (ids.map (bundleCall response faults)) } := by
  have frame : ∀ (ids : List Nat) (fs : FS) q, (∀ b, q ≠ cfg.bundlePath b) →
      downloads cfg.base fs (ids.map (bundleCall response faults)) q = fs q ∨
      (fs q = none ∧ downloads cfg.base fs (ids.map (bundleCall response faults)) q = some .dir ∧ ∃ b, q <+: cfg.bundlePath b) := by
    intro ids
    induction ids with
    | nil => intro fs q _; exact Or.inl rfl
    | cons i ids ih =>
      intro fs q hq
      have h1 : (download cfg.base fs (bundleCall response faults i)).1 q = fs q ∨
          (fs q = none ∧ (download cfg.base fs (bundleCall response faults i)).1 q = some .dir ∧ ∃ b, q <+: cfg.bundlePath b) := by
        unfold download
        split
        · exact Or.inl rfl
        · cases (bundleCall response faults i).response with
          | error e => exact Or.inl rfl
          | ok c =>
            simp only
            rcases writeFileOrRemove_touches fs (cfg.bundlePath i) [.write c] (bundleCall response faults i).faults q (hq i) with h | ⟨h1, h2, h3⟩
            · exact Or.inl h
            · exact Or.inr ⟨h2, h3, i, dirPrefixes_dirname_prefix h1⟩
      have h2 := ih (download cfg.base fs (bundleCall response faults i)).1 q hq
      simp only [List.map_cons]
      have e : downloads cfg.base fs (bundleCall response faults i :: ids.map (bundleCall response faults)) =
        downloads cfg.base (download cfg.base fs (bundleCall response faults i)).1 (ids.map (bundleCall response faults)) := rfl
      rw [e]
      rcases h1 with h1 | ⟨h1, h3, h4⟩ <;> rcases h2 with h2 | ⟨h2, h5, h6⟩
      · exact Or.inl (by rw [h2, h1])
      · exact Or.inr ⟨by rw [← h1]; exact h2, h5, h6⟩
      · exact Or.inr ⟨h1, by rw [h2, h3], h4⟩
      · rw [h3] at h2; simp at h2
  refine ⟨?_, ?_, ?_, ?_⟩
  · intro f hf q hq
    refine ⟨?_, (hu.outDirs f hf q hq).2⟩
    intro b hb
    simp only at hb
    rcases frame ids d.fs q (by rintro b rfl; exact bundle_not_prefix_extract cfg b v f (dirPrefixes_dirname_prefix hq)) with h | ⟨_, h, _⟩
    · rw [h] at hb; exact (hu.outDirs f hf q hq).1 b hb
    · rw [h] at hb; simp at hb
  · intro f hf hd
    simp only at hd
    rcases frame ids d.fs (cfg.extractPath v f) (fun b => (bundle_ne_extract cfg b v f).symm) with h | ⟨_, _, b, h⟩
    · rw [h] at hd; exact hu.outs f hf hd
    · exact extract_not_prefix_bundle cfg b v f h
  · intro x q hq b hb
    simp only at hb
    rcases frame ids d.fs q (by rintro b rfl; exact bundle_not_prefix_store cfg b _ (dirPrefixes_dirname_prefix hq)) with h | ⟨_, h, _⟩
    · rw [h] at hb; exact hu.storeDirs x q hq b hb
    · rw [h] at hb; simp at hb
  · intro x hd
    simp only at hd
    rcases frame ids d.fs (cfg.storePath (cfg.sha1 x)) (fun b => (bundle_ne_store cfg b _).symm) with h | ⟨_, _, b, h⟩
    · rw [h] at hd; exact hu.stores x hd
    · exact store_not_prefix_bundle cfg b _ h

/-- Downloading the bundles of an element, skipping files already extracted, then extracting the element for the
same languages: without fault when extracting, it succeeds; afterwards every selected file is
extracted and has its content. Any good disk, any set of bundles already downloaded and of files already extracted,
any interleaving of downloads. -/
theorem C35_complete (cfg : PCfg) (w : Cdn) (catalog : Int → Str → List Nat) (hsha : NoCollision cfg.sha1 catalog)
    (version : Int) (m : Manifest) (langs : Langs) (d : Disk) (hg : GoodDisk cfg w catalog d)
    (need : List (Option Nat)) (hneed : cfg.bundleIds version m langs true d = .ok need)
    (ids : List Nat) (hids : sortIds need = .ok ids) (hlt : ∀ i ∈ ids, i < 2 ^ 64)
    (response : Nat → Res Bytes) (faults : Nat → WriteFaults) (hresp : ∀ i x, response i = .ok x → x = w.bundle i)
    (hrm : ∀ i, (faults i).remove = false) (sched : List {i // i ∈ ids})
    (hdone : ∀ i, (cfg.downloadPool response faults ids d.fs sched).states i = .done (.ok ()))
    (sel files : List PFile) (hsel : m.realFiles langs = .ok sel) (hfiles : sortFiles sel = .ok files)
    (hn : GoodNames cfg version files) (hu : Unobstructed cfg version files d)
    (hgen : ∀ f ∈ files, Genuine cfg w f (catalog version (fmtOpt f.name)) ∧
      f.size = some (w.file (catalog version (fmtOpt f.name))).length) :
    ∃ d', cfg.extract version m langs false (fun _ => {}) { d with fs := (cfg.downloadPool response faults ids d.fs sched).fs } = (d', .ok ()) ∧
      ∀ f ∈ sel, cfg.isExtracted version d' f = true ∧
        d'.content (cfg.extractPath version f) = some ((catalog version (fmtOpt f.name)).map w.chunk).flatten := by
  have hnd : ids.Nodup := (sortIds_mem hids).2.2 (by
    simp only [PCfg.bundleIds, hsel, bind, Except.bind, pure, Except.pure, Except.ok.injEq] at hneed
    rw [← hneed]; exact List.nodup_dedup _)
  have hfs := (pool_done cfg response faults ids hnd hlt d.fs sched hdone).2.2
  have hu1 := unobstructed_downloads response faults ids d hu
  have hg1 : GoodDisk cfg w catalog { d with fs := (cfg.downloadPool response faults ids d.fs sched).fs } := by
    rw [hfs, ← downloads_afterOps]
    apply good_history hsha hg
    intro op hop
    obtain ⟨i, _, rfl⟩ := List.mem_map.1 hop
    exact ⟨fun x hx => hresp i x hx, hrm i⟩
  rw [← hfs] at hu1
  have main : ∀ pre post, files = pre ++ post → ∃ d', cfg.extractAll version false (fun _ => {}) 0
      { d with fs := (cfg.downloadPool response faults ids d.fs sched).fs } pre = (d', .ok ()) ∧ GoodDisk cfg w catalog d' ∧
      Unobstructed cfg version files d' ∧ ∀ f ∈ pre, ∃ b, d'.content (cfg.extractPath version f) = some b := by
    intro pre
    induction pre using List.reverseRecOn with
    | nil => intro _ _; exact ⟨_, rfl, hg1, hu1, by simp⟩
    | append_singleton pre f ih =>
      intro post hsplit
      rw [List.append_assoc] at hsplit
      obtain ⟨d', h1, h2, h3, h4⟩ := ih ([f] ++ post) hsplit
      have hf : f ∈ files := by rw [hsplit]; simp
      have hok : (cfg.elemExtractFile version false d' f {}).2 = .ok () := by
        apply elemExtractFile_succeeds hn h2 h3 hf (hgen f hf).1
        intro hnot
        exact C35_bundles cfg version m langs d (good_storeLinks hg) need hneed ids hids hlt response faults sched hdone sel files hsel hfiles
          hn.distinct (fun _ => {}) pre f post hsplit d' h1 hnot
      obtain ⟨s1, s2⟩ := good_step hsha h2 (op := .extract version false f {}) ⟨(hgen f hf).1, rfl⟩
      have s2 := s2 version false f {} rfl hok
      rw [extractAll_append pre f 0 _ d' h1]
      rcases he : cfg.elemExtractFile version false d' f {} with ⟨d2, r⟩
      have s3 := unobstructed_step (o := false) hn h3 hf (flt := {})
      simp only [POp.run, he] at s1 s2
      rw [he] at hok s3
      simp only at hok s3
      subst hok
      refine ⟨d2, rfl, s1, s3, ?_⟩
      intro g hgm
      rcases List.mem_append.1 hgm with hgm | hgm
      · obtain ⟨b, hb⟩ := h4 g hgm
        refine ⟨b, ?_⟩
        have := elemExtractFile_content (o := false) (g := f) (flt := {}) (good_storeLinks h2) (f := g) (by
          intro hee
          have hdist := hn.distinct
          rw [hsplit, List.map_append, List.nodup_append] at hdist
          exact hdist.2.2 (fmtOpt g.name) (List.mem_map.2 ⟨g, hgm, rfl⟩) (fmtOpt f.name) (by simp) hee) hb
        rw [he] at this
        exact this
      · rw [List.mem_singleton] at hgm
        subst hgm
        exact ⟨_, s2⟩
  obtain ⟨d', h1, h2, -, h4⟩ := main files [] (by simp)
  refine ⟨d', ?_, ?_⟩
  · simp only [PCfg.extract, hsel, hfiles]; exact h1
  · intro f hf
    have hf := (sortFiles_perm hfiles).mem_iff.2 hf
    obtain ⟨b, hb⟩ := h4 f hf
    have hb' := good_content h2 hb
    subst hb'
    refine ⟨?_, hb⟩
    unfold PCfg.isExtracted
    rw [hb, (hgen f hf).2]
    simp

/-! ### Names of a parsed manifest -/

theorem Rd.bind_inv {α β : Type} {p : Rd α} {f : α → Rd β} {data : Bytes} {pos : Nat} {r : β × Nat}
    (h : (p >>= f) data pos = .ok r) : ∃ a pos', p data pos = .ok (a, pos') ∧ f a data pos' = .ok r := by
  cases hp : p data pos with
  | error e => rw [Rd.bind_error hp] at h; simp at h
  | ok x =>
    obtain ⟨a, pos'⟩ := x
    rw [Rd.bind_ok hp] at h
    exact ⟨a, pos', rfl, h⟩

theorem mapM_forall {α β : Type} {f : α → Res β} {P : β → Prop} (hf : ∀ x y, f x = .ok y → P y) :
    ∀ (l : List α) (r : List β), l.mapM f = .ok r → ∀ y ∈ r, P y
  | [], r, h => by cases h; simp
  | x :: l, r, h => by
    rw [List.mapM_cons] at h
    cases hx : f x with
    | error e => rw [hx] at h; simp [bind, Except.bind] at h
    | ok y =>
      cases hm : l.mapM f with
      | error e => rw [hx, hm] at h; simp [bind, Except.bind] at h
      | ok r' =>
        rw [hx, hm] at h
        simp only [bind, Except.bind, pure, Except.pure, Except.ok.injEq] at h
        subst h
        intro z hz
        rcases List.mem_cons.1 hz with rfl | hz
        · exact hf x _ hx
        · exact mapM_forall hf l r' hm z hz

theorem mergeFile_name {c fl dirs e} {x : Option Str × PFile} (h : mergeFile c fl dirs e = .ok x) : x.2.name = x.1 := by
  unfold mergeFile at h
  cases h1 : fullNameLoop dirs e.dir e.name with
  | error e => rw [h1] at h; simp [bind, Except.bind] at h
  | ok a =>
    rw [h1] at h
    cases h2 : fileFlags fl e.flagIds with
    | error e => rw [h2] at h; simp [bind, Except.bind] at h
    | ok b =>
      rw [h2] at h
      simp only [bind, Except.bind] at h
      revert h
      generalize List.mapM (m := Except Err) _ e.chunkIds = r
      cases r with
      | error e => intro h; simp at h
      | ok b => intro h; simp only [pure, Except.pure, Except.ok.injEq] at h; rw [← h]

/-- The files of a parsed manifest have distinct names, so that the files to extract have too. -/
theorem C35_names (data : Bytes) (m : Manifest) (h : parseBody.run data = .ok m) (langs : Langs) (sel files : List PFile)
    (hsel : m.realFiles langs = .ok sel) (hfiles : sortFiles sel = .ok files) : (files.map fun f => fmtOpt f.name).Nodup := by
  have hkeys : (m.files.values.map (·.name)).Nodup := by
    unfold Rd.run at h
    cases hp : parseBody data 0 with
    | error e => rw [hp] at h; simp at h
    | ok x =>
      obtain ⟨m', pos⟩ := x
      rw [hp] at h
      simp only [Except.ok.injEq] at h
      subst h
      unfold parseBody at hp
      obtain ⟨_, _, -, hp⟩ := Rd.bind_inv hp
      obtain ⟨_, _, -, hp⟩ := Rd.bind_inv hp
      obtain ⟨_, _, -, hp⟩ := Rd.bind_inv hp
      obtain ⟨_, _, -, hp⟩ := Rd.bind_inv hp
      obtain ⟨_, _, -, hp⟩ := Rd.bind_inv hp
      obtain ⟨_, _, -, hp⟩ := Rd.bind_inv hp
      obtain ⟨_, _, -, hp⟩ := Rd.bind_inv hp
      obtain ⟨_, _, -, hp⟩ := Rd.bind_inv hp
      obtain ⟨_, _, -, hp⟩ := Rd.bind_inv hp
      obtain ⟨_, _, -, hp⟩ := Rd.bind_inv hp
      obtain ⟨_, _, -, hp⟩ := Rd.bind_inv hp
      obtain ⟨_, _, -, hp⟩ := Rd.bind_inv hp
      obtain ⟨l, _, hl, hp⟩ := Rd.bind_inv hp
      simp only [pure, Except.ok.injEq, Prod.mk.injEq] at hp
      rw [← hp.1]
      simp only
      have hall : ∀ x ∈ l, x.2.name = x.1 := by
        unfold Rd.lift at hl
        split at hl
        · rename_i r hr
          simp only [Except.ok.injEq, Prod.mk.injEq] at hl
          rw [← hl.1]
          exact mapM_forall (P := fun x => x.2.name = x.1) (fun _ _ hx => mergeFile_name hx) _ _ hr
        · simp at hl
      have hwf := Dict.WF.ofList l
      have hmem : ∀ x ∈ Dict.ofList l, x.2.name = x.1 := by
        intro x hx
        have := Dict.get?_of_mem hwf (k := x.1) (v := x.2) hx
        rw [Dict.get?_ofList] at this
        cases hfi : l.reverse.find? (fun kv => kv.1 = x.1) with
        | none => rw [hfi] at this; simp at this
        | some y =>
          rw [hfi] at this
          simp only [Option.map_some, Option.some.injEq] at this
          have h1 := List.mem_of_find?_eq_some hfi
          have h2 := List.find?_some hfi
          simp only [decide_eq_true_eq] at h2
          rw [← this, ← h2]
          exact hall y (by simpa using h1)
      have : (Dict.ofList l).values.map (·.name) = (Dict.ofList l).keys := by
        unfold Dict.values Dict.keys
        rw [List.map_map]
        exact List.map_congr_left hmem
      rw [this]; exact hwf
  have hsub : (sel.map (·.name)).Nodup := by
    unfold Manifest.realFiles Manifest.filterFiles at hsel
    cases hp : langsPredicate langs with
    | error e => rw [hp] at hsel; simp [bind, Except.bind] at hsel
    | ok p =>
      rw [hp] at hsel
      simp only [bind, Except.bind, pure, Except.pure, Except.ok.injEq] at hsel
      rw [← hsel]
      exact hkeys.sublist ((List.filter_sublist.trans List.filter_sublist).map _)
  have hfn : (files.map (·.name)).Nodup := ((sortFiles_perm hfiles).map _).nodup_iff.2 hsub
  unfold sortFiles at hfiles
  split at hfiles
  · simp at hfiles
  · rename_i hc
    have hlen := (sortFiles_perm (l := sel) (r := files) (by unfold sortFiles; rw [if_neg hc]; exact hfiles))
    by_cases h2 : 2 ≤ sel.length
    · have hsome : ∀ f ∈ files, f.name.isSome := by
        intro f hf
        have hf := hlen.mem_iff.1 hf
        rw [not_and] at hc
        have := hc h2
        simp only [List.any_eq_true, not_exists, not_and] at this
        have := this f hf
        cases hx : f.name with
        | none => rw [hx] at this; simp at this
        | some s => rfl
      have e : files.map (fun f => some (fmtOpt f.name)) = files.map (·.name) := by
        apply List.map_congr_left
        intro f hf
        have := hsome f hf
        cases hx : f.name with
        | none => rw [hx] at this; simp at this
        | some s => rfl
      rw [← e] at hfn
      have : files.map (fun f => some (fmtOpt f.name)) = (files.map (fun f => fmtOpt f.name)).map some := by rw [List.map_map]; rfl
      rw [this] at hfn
      exact List.Nodup.of_map _ hfn
    · have := hlen.length_eq
      rcases files with _ | ⟨f, _ | ⟨g, l⟩⟩
      · simp
      · simp
      · simp at this; omega

/-! Non-vacuity: an element with two files; one is already extracted, the bundle of the other is not there. -/
def demoCdn2 : Cdn := ⟨fun i => if i = 5 then [1, 2] else if i = 6 then [9] else [3], fun b => if b = 11 then [0, 9] else [0, 1, 2, 0, 3]⟩
def demoFile2 : PFile := ⟨some "c.txt".toList, some 1, none, none, [⟨some 6, some 11, 0, some 2, some 1⟩]⟩
def demoCatalog2 : Int → Str → List Nat := fun _ n => if n = "c.txt".toList then [6] else [7, 5, 7]
def demoManifest : Manifest := ⟨[], [], [], [(some "c.txt".toList, demoFile2), (some "a/b.txt".toList, demoFile)]⟩
def shaCfg : PCfg := { demoCfg true with sha1 := fun x => if x = "0000000000000006".toList then "x".toList else "y".toList }
/-- "a/b.txt" is extracted -/
def demoDisk2 : Disk := (shaCfg.elemExtractFile 12 false demoDisk demoFile {}).1

example : (shaCfg.bundleIds 12 demoManifest .all true demoDisk2) = .ok [some 11] ∧ sortIds [some 11] = .ok [11] ∧
    demoManifest.realFiles .all = .ok [demoFile2, demoFile] ∧ sortFiles [demoFile2, demoFile] = .ok [demoFile, demoFile2] := by
  decide +kernel
example : ∀ i, (shaCfg.downloadPool (fun _ => .ok [0, 9]) (fun _ => {}) [11] demoDisk2.fs (List.replicate 20 ⟨11, by simp⟩)).states i
    = .done (.ok ()) := by
  rintro ⟨i, hi⟩
  simp only [List.mem_singleton] at hi
  subst hi
  decide +kernel +revert
example : NoCollision shaCfg.sha1 demoCatalog2 := by
  intro v n v' n' t t' h h' he
  have key : ∀ v n t, IdsText (demoCatalog2 v n) t → (t = "0000000000000006".toList ∨ t = "000000000000000700000000000000050000000000000007".toList) := by
    intro v n t h
    unfold demoCatalog2 at h
    split at h
    · left; exact IdsText_unique h (idsText_map [6] (by decide))
    · right; exact IdsText_unique h (idsText_map [7, 5, 7] (by decide))
  rcases key v n t h with rfl | rfl <;> rcases key v' n' t' h' with rfl | rfl
  · rfl
  · exact absurd he (by decide +kernel)
  · exact absurd he (by decide +kernel)
  · rfl
example : GoodNames shaCfg 12 [demoFile, demoFile2] where
  base := by decide +kernel
  parents := by decide +kernel
  distinct := by decide +kernel
  digest := ⟨0, fun x => by unfold shaCfg; simp only; split <;> rfl⟩
  noslash := fun x => by unfold shaCfg; simp only; split <;> decide
example : Genuine shaCfg demoCdn2 demoFile (demoCatalog2 12 "a/b.txt".toList) ∧ Genuine shaCfg demoCdn2 demoFile2 (demoCatalog2 12 "c.txt".toList) :=
  ⟨.cons ⟨rfl, by decide, 10, 2, rfl, rfl, by decide +kernel⟩ (.cons ⟨rfl, by decide, 10, 3, rfl, rfl, by decide +kernel⟩
      (.cons ⟨rfl, by decide, 10, 2, rfl, rfl, by decide +kernel⟩ .nil)),
   .cons ⟨rfl, by decide, 11, 2, rfl, rfl, by decide +kernel⟩ .nil⟩

end Cdtb
