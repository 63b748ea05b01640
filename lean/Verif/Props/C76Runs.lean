import Verif.Props.C76rads
/-!
# C76, continued: when nothing fails the command succeeds, whatever happened before
-/
namespace Cdtb
set_option autoImplicit false
open Py Spec

section
variable {cfg : PCfg} {w : Cdn} {catalog : Int → Str → List Nat} {elems : PElem → Prop}

theorem Spec.PerfectRun.fair {r : PRun} (h : PerfectRun cfg w r) : FairRun cfg w r where
  served i x hx := by rw [h.served i] at hx; cases hx; rfl
  remove i := by rw [h.faults i]
  removeOut i := by rw [h.flts i]
  turns := h.turns

theorem bundlePath_dirname_basename (cfg : PCfg) (i : Nat) : dirname (cfg.bundlePath i) ≠ [] ∧ basename (cfg.bundlePath i) ≠ [] ∧
    ∀ j, cfg.bundlePath j ∉ dirPrefixes (dirname (cfg.bundlePath i)) := by
  have hs : '/' ∉ hexWU 16 i ++ ".bundle".toList := by
    intro h
    rcases List.mem_append.1 h with h | h
    · exact hexWU_noslash _ h
    · exact absurd h (by decide +kernel)
  have hd : dirname (cfg.bundlePath i) ≠ [] := by
    have : cfg.bundlePath i = (rootPre cfg.base ++ "channels".toList) ++ '/' :: ("public/bundles/".toList ++ hexWU 16 i ++ ".bundle".toList) := by
      rw [bundlePath_eq]; simp
    rw [this]
    exact dirname_ne_nil ⟨'c', by simp, by decide⟩
  have hsplit : psplit (cfg.bundlePath i) = psplit ((rootPre cfg.base ++ "channels/public/bundles/".toList) ++ (hexWU 16 i ++ ".bundle".toList)) := by
    rw [bundlePath_eq]; simp
  have hb : basename (cfg.bundlePath i) = hexWU 16 i ++ ".bundle".toList := by
    unfold basename
    rw [hsplit, psplit_dir (Or.inr ⟨rootPre cfg.base ++ "channels/public/bundles".toList, by simp⟩) hs]
  refine ⟨hd, by rw [hb]; simp, fun j hm => ?_⟩
  have h1 := mem_dirPrefixes_length hm
  have h2 : (dirname (cfg.bundlePath i)).length ≤ (rootPre cfg.base ++ "channels/public/bundles/".toList).length := by
    unfold dirname
    rw [hsplit, psplit_dir (Or.inr ⟨rootPre cfg.base ++ "channels/public/bundles".toList, by simp⟩) hs]
    unfold Py.dirOf
    split
    · exact Nat.le_refl _
    · exact rstripChar_length_le _ _
  rw [bundlePath_eq] at h1
  simp only [List.length_append] at h1 h2
  have : ".bundle".toList.length = 7 := rfl
  omega

theorem Spec.GoodOutputs.storeParents (h : GoodOutputs cfg elems) (x y : Str) :
    cfg.storePath (cfg.sha1 x) ∉ dirPrefixes (dirname (cfg.storePath (cfg.sha1 y))) :=
  GoodNames.storeParents (v := 0) (files := []) ⟨by simp, by simp, by simp, h.digest, h.noslash⟩ x y

theorem clear_step (hn : GoodOutputs cfg elems) {d : Disk} (hu : ClearWay cfg (IsOutput elems) d) {o : Bool} {v : Int} {g : PFile}
    (hg : IsOutput elems v g) {flt : ExtractFaults} : ClearWay cfg (IsOutput elems) (cfg.elemExtractFile v o d g flt).1 := by
  refine ⟨?_, ?_, ?_, ?_, ?_, ?_⟩
  · intro v' f hf q hq
    refine ⟨?_, ?_⟩
    · intro b hb
      rcases elemExtractFile_file hb with h | ⟨x, rfl⟩ | rfl
      · exact (hu.outDirs v' f hf q hq).1 b h
      · exact store_not_prefix_extract cfg _ v' f (dirPrefixes_dirname_prefix hq)
      · exact hn.parents v g v' f hg hf hq
    · rw [elemExtractFile_links (by rintro rfl; exact hn.parents v g v' f hg hf hq)]
      exact (hu.outDirs v' f hf q hq).2
  · intro v' f hf hd
    rcases elemExtractFile_dir hd with h | ⟨x, h⟩ | h
    · exact hu.outs v' f hf h
    · exact extract_not_prefix_store cfg _ v' f (dirPrefixes_dirname_prefix h)
    · exact hn.parents v' f v g hf hg h
  · intro x q hq b hb
    rcases elemExtractFile_file hb with h | ⟨y, rfl⟩ | rfl
    · exact hu.storeDirs x q hq b h
    · exact hn.storeParents y x hq
    · exact extract_not_prefix_store cfg _ v g (dirPrefixes_dirname_prefix hq)
  · intro x hd
    rcases elemExtractFile_dir hd with h | ⟨y, h⟩ | h
    · exact hu.stores x h
    · exact hn.storeParents x y h
    · exact store_not_prefix_extract cfg _ v g (dirPrefixes_dirname_prefix h)
  · intro i q hq b hb
    rcases elemExtractFile_file hb with h | ⟨y, rfl⟩ | rfl
    · exact hu.bundleDirs i q hq b h
    · exact store_not_prefix_bundle cfg i _ (dirPrefixes_dirname_prefix hq)
    · exact extract_not_prefix_bundle cfg i v g (dirPrefixes_dirname_prefix hq)
  · intro i hd
    rcases elemExtractFile_dir hd with h | ⟨y, h⟩ | h
    · exact hu.bundles i h
    · exact bundle_not_prefix_store cfg i _ (dirPrefixes_dirname_prefix h)
    · exact bundle_not_prefix_extract cfg i v g (dirPrefixes_dirname_prefix h)

theorem clear_extractAll (hn : GoodOutputs cfg elems) {v : Int} {flts : Nat → ExtractFaults} (l : List PFile) (hl : ∀ f ∈ l, IsOutput elems v f) (i : Nat) (d : Disk)
    (hu : ClearWay cfg (IsOutput elems) d) : ClearWay cfg (IsOutput elems) (cfg.extractAll v false flts i d l).1 := by
  induction l generalizing i d with
  | nil => exact hu
  | cons f l ih =>
    simp only [PCfg.extractAll]
    have h := clear_step hn hu (o := false) (hl f (by simp)) (flt := flts i)
    rcases hE : cfg.elemExtractFile v false d f (flts i) with ⟨d', r⟩
    rw [hE] at h
    cases r with
    | error e => exact h
    | ok u => exact ih (fun g hg => hl g (by simp [hg])) _ d' h

theorem clear_extract (hn : GoodOutputs cfg elems) {e : PElem} (he : elems e) (langs : Langs) {flts : Nat → ExtractFaults} (d : Disk)
    (hu : ClearWay cfg (IsOutput elems) d) : ClearWay cfg (IsOutput elems) (cfg.extract e.release e.manif langs false flts d).1 := by
  unfold PCfg.extract
  cases hs : e.manif.realFiles langs with
  | error x => exact hu
  | ok sel =>
    simp only
    cases hf : sortFiles sel with
    | error x => exact hu
    | ok files =>
      simp only
      apply clear_extractAll hn _ _ 0 d hu
      intro f h
      obtain ⟨h1, -, h3⟩ := (realFiles_mem hs f).1 ((sortFiles_perm hf).mem_iff.1 h)
      exact ⟨e, he, rfl, h1, h3⟩

theorem clear_download {response : Nat → Res Bytes} {faults : Nat → WriteFaults} {output : Int → PFile → Prop} (i : Nat) (d : Disk) (hu : ClearWay cfg output d) :
    ClearWay cfg output { d with fs := (download cfg.base d.fs (bundleCall response faults i)).1 } := by
  have frame : ∀ q, (∀ b, q ≠ cfg.bundlePath b) → (download cfg.base d.fs (bundleCall response faults i)).1 q = d.fs q ∨
      (d.fs q = none ∧ (download cfg.base d.fs (bundleCall response faults i)).1 q = some .dir ∧ q <+: cfg.bundlePath i) := by
    intro q hq
    unfold download
    split
    · exact Or.inl rfl
    · cases (bundleCall response faults i).response with
      | error e => exact Or.inl rfl
      | ok c =>
        simp only
        rcases writeFileOrRemove_touches d.fs (cfg.bundlePath i) [.write c] (bundleCall response faults i).faults q (hq i) with h | ⟨h1, h2, h3⟩
        · exact Or.inl h
        · exact Or.inr ⟨h2, h3, dirPrefixes_dirname_prefix h1⟩
  refine ⟨?_, ?_, ?_, ?_, ?_, ?_⟩
  · intro v f hf q hq
    refine ⟨?_, (hu.outDirs v f hf q hq).2⟩
    intro b hb
    simp only at hb
    rcases frame q (by rintro b rfl; exact bundle_not_prefix_extract cfg b v f (dirPrefixes_dirname_prefix hq)) with h | ⟨_, h, _⟩
    · rw [h] at hb; exact (hu.outDirs v f hf q hq).1 b hb
    · rw [h] at hb; simp at hb
  · intro v f hf hd
    simp only at hd
    rcases frame (cfg.extractPath v f) (fun b => (bundle_ne_extract cfg b v f).symm) with h | ⟨_, _, h⟩
    · rw [h] at hd; exact hu.outs v f hf hd
    · exact extract_not_prefix_bundle cfg i v f h
  · intro x q hq b hb
    simp only at hb
    rcases frame q (by rintro b rfl; exact bundle_not_prefix_store cfg b _ (dirPrefixes_dirname_prefix hq)) with h | ⟨_, h, _⟩
    · rw [h] at hb; exact hu.storeDirs x q hq b hb
    · rw [h] at hb; simp at hb
  · intro x hd
    simp only at hd
    rcases frame (cfg.storePath (cfg.sha1 x)) (fun b => (bundle_ne_store cfg b _).symm) with h | ⟨_, _, h⟩
    · rw [h] at hd; exact hu.stores x hd
    · exact store_not_prefix_bundle cfg i _ h
  · intro j q hq b hb
    simp only at hb
    rcases frame q (by rintro b rfl; exact (bundlePath_dirname_basename cfg j).2.2 b hq) with h | ⟨_, h, _⟩
    · rw [h] at hb; exact hu.bundleDirs j q hq b hb
    · rw [h] at hb; simp at hb
  · intro j hd
    simp only at hd
    unfold download at hd
    split at hd
    · exact hu.bundles j hd
    · cases hr : (bundleCall response faults i).response with
      | error e => rw [hr] at hd; exact hu.bundles j hd
      | ok c =>
        rw [hr] at hd
        simp only at hd
        rcases writeFileOrRemove_dir hd with h | h
        · exact hu.bundles j h
        · exact (bundlePath_dirname_basename cfg i).2.2 j h

theorem clear_downloads {response : Nat → Res Bytes} {faults : Nat → WriteFaults} {output : Int → PFile → Prop} (ids : List Nat) (d : Disk) (hu : ClearWay cfg output d) :
    ClearWay cfg output { d with fs := downloads cfg.base d.fs (ids.map (bundleCall response faults)) } := by
  induction ids generalizing d with
  | nil => exact hu
  | cons i ids ih => exact ih { d with fs := (download cfg.base d.fs (bundleCall response faults i)).1 } (clear_download i d hu)

theorem bundleIds_ok {e : PElem} (hm : TrueManifest cfg w catalog e) {langs : Langs} {skip : Bool} {d : Disk} {need : List (Option Nat)}
    (hb : cfg.bundleIds e.release e.manif langs skip d = .ok need) : need.Nodup ∧ ∀ x ∈ need, ∃ i, x = some i ∧ i < 2 ^ 64 := by
  unfold PCfg.bundleIds at hb
  simp only [bind, Except.bind] at hb
  split at hb
  · simp at hb
  rename_i files hfiles
  cases hb
  refine ⟨List.nodup_dedup _, fun x hx => ?_⟩
  unfold fileBundles at hx
  rw [List.mem_dedup, List.mem_flatMap] at hx
  obtain ⟨f, hf, hc⟩ := hx
  obtain ⟨ch, hch, rfl⟩ := List.mem_map.1 hc
  have hv := ((realFiles_mem hfiles f).1 (List.mem_of_mem_filter hf)).1
  obtain ⟨i, -, h⟩ := forall₂_mem_left (hm.chunks f hv) hch
  obtain ⟨-, -, b, n, h1, -⟩ := h
  exact ⟨b, h1, hm.bundles f hv ch hch b h1⟩

theorem pool_fs {r : PRun} (hr : FairRun cfg w r) {ids : List Nat} (hnd : ids.Nodup) (hlt : ∀ i ∈ ids, i < 2 ^ 64) (fs : FS) :
    (cfg.downloadPool r.response r.faults ids fs (r.sched ids)).fs = downloads cfg.base fs (ids.map (bundleCall r.response r.faults)) := by
  have hsep := bundles_separate cfg r.response r.faults ids hlt
  obtain ⟨h1, -⟩ := C06_schedule_independent (ι := {i // i ∈ ids}) cfg.base (fun i => bundleRel i.1) (fun i => r.response i.1) (fun i => r.faults i.1) fs
    hsep ids.attach (fun i => List.mem_attach ids i) (List.nodup_attach.2 hnd) (r.sched ids)
    (fun i => C06_no_blocking _ hsep fs (r.sched ids) i (hr.turns ids i))
  refine Eq.trans h1 ?_
  congr 1
  conv_rhs => rw [← List.attach_map_subtype_val ids, List.map_map]
  rfl

theorem clear_bundles {r : PRun} (hr : FairRun cfg w r) {e : PElem} (hm : TrueManifest cfg w catalog e) {output : Int → PFile → Prop} (skip : Bool) (langs : Langs)
    (d : Disk) (hu : ClearWay cfg output d) : ClearWay cfg output (cfg.downloadBundles skip langs r d e).1 := by
  unfold PCfg.downloadBundles
  cases hb : cfg.bundleIds e.release e.manif langs skip d with
  | error x => exact hu
  | ok need =>
    simp only
    cases hi : sortIds need with
    | error x => exact hu
    | ok ids =>
      simp only
      obtain ⟨h1, h2⟩ := bundleIds_ok hm hb
      obtain ⟨a, -, c⟩ := sortIds_mem hi
      rw [pool_fs hr (c h1) (fun i hi => by obtain ⟨j, hj, hlt⟩ := h2 _ ((a i).1 hi); cases hj; exact hlt)]
      exact clear_downloads ids d hu

theorem clear_elem (hn : GoodOutputs cfg elems) {r : PRun} (hr : FairRun cfg w r) {e : PElem} (he : elems e) (hm : TrueManifest cfg w catalog e) (langs : Langs)
    (d : Disk) (hu : ClearWay cfg (IsOutput elems) d) : ClearWay cfg (IsOutput elems) (cfg.downloadElem langs r d e).1 := by
  have h1 := clear_bundles hr hm true langs d hu
  unfold PCfg.downloadElem
  rcases hb : cfg.downloadBundles true langs r d e with ⟨d', x⟩
  rw [hb] at h1
  cases x with
  | error x => exact h1
  | ok u => exact clear_extract hn he langs d' h1

/-- The tasks succeed when nothing fails. -/
theorem pool_succeeds {r : PRun} (hr : PerfectRun cfg w r) {ids : List Nat} (hlt : ∀ i ∈ ids, i < 2 ^ 64) (d : Disk) {output : Int → PFile → Prop}
    (hu : ClearWay cfg output d) (i : {i // i ∈ ids}) :
    (cfg.downloadPool r.response r.faults ids d.fs (r.sched ids)).states i = .done (.ok ()) := by
  have hsep := bundles_separate cfg r.response r.faults ids hlt
  obtain ⟨k, hk, hst, -⟩ := poolRun_view _ hsep d.fs (r.sched ids)
  refine (hst i).trans ?_
  rw [Task.solo_complete _ _ _ (by rw [hk i]; exact hr.turns ids i)]
  have h := final_start_eq_download (ι := {i // i ∈ ids}) cfg.base (fun i => bundleRel i.1) (fun i => r.response i.1) (fun i => r.faults i.1) i d.fs
  have h2 := congrArg Prod.snd h
  refine congrArg TState.done (Eq.trans h2 ?_)
  obtain ⟨b1, b2, -⟩ := bundlePath_dirname_basename cfg i.1
  simp only [download, taskCall, hr.served, hr.faults]
  split
  · rfl
  · exact C04_no_fault d.fs (cfg.bundlePath i.1) [w.bundle i.1] b1 (hu.bundleDirs i.1) (hu.bundles i.1) b2

theorem sortIds_ok {l : List (Option Nat)} (h : ∀ x ∈ l, ∃ i, x = some i) : ∃ ids, sortIds l = .ok ids := by
  have : ∃ r, l.mapM bundleIdRes = .ok r := by
    induction l with
    | nil => exact ⟨[], rfl⟩
    | cons x l ih =>
      obtain ⟨i, rfl⟩ := h x (by simp)
      obtain ⟨r, hr⟩ := ih (fun x hx => h x (by simp [hx]))
      exact ⟨i :: r, by rw [List.mapM_cons, hr]; rfl⟩
  obtain ⟨r, hr⟩ := this
  exact ⟨r.insertionSort (· ≤ ·), by simp [sortIds, hr, bind, Except.bind, pure, Except.pure]⟩

theorem poolOutcome_done {l : List TState} (h : ∀ x ∈ l, x = .done (.ok ())) : poolOutcome l = .ok () := by
  induction l with
  | nil => rfl
  | cons x l ih =>
    rw [h x (by simp)]
    exact ih fun x hx => h x (by simp [hx])

theorem downloadElem_succeeds (hsha : NoCollision cfg.sha1 catalog) (hn : GoodOutputs cfg elems) {r : PRun} (hr : PerfectRun cfg w r) {e : PElem} (he : elems e)
    (hm : TrueManifest cfg w catalog e) {langs : Langs} (hl : langs ≠ .other) (d : Disk) (hg : GoodDisk cfg w catalog d)
    (hu : ClearWay cfg (IsOutput elems) d) : (cfg.downloadElem langs r d e).2 = .ok () := by
  obtain ⟨p, -, hff⟩ := (C39_select e.manif langs).1 hl
  have hsel : e.manif.realFiles langs = .ok ((e.manif.files.values.filter p).filter (fun f => !f.isLink)) := by
    simp [Manifest.realFiles, hff, bind, Except.bind, pure, Except.pure]
  generalize hsl : (e.manif.files.values.filter p).filter (fun f => !f.isLink) = sel at hsel
  have hsub : sel.Sublist e.manif.files.values := by rw [← hsl]; exact List.filter_sublist.trans List.filter_sublist
  have hout : ∀ f ∈ sel, IsOutput elems e.release f := fun f hf => by
    obtain ⟨h1, -, h3⟩ := (realFiles_mem hsel f).1 hf
    exact ⟨e, he, rfl, h1, h3⟩
  have hfiles : sortFiles sel = .ok (sel.insertionSort (fun a b => fmtOpt a.name ≤ fmtOpt b.name)) := by
    unfold sortFiles
    rw [if_neg]
    rintro ⟨-, h⟩
    rw [List.any_eq_true] at h
    obtain ⟨f, hf, h⟩ := h
    exact (hn.named _ f (hout f hf)).1 (by simpa using h)
  generalize sel.insertionSort (fun a b => fmtOpt a.name ≤ fmtOpt b.name) = files at hfiles
  have hperm := sortFiles_perm hfiles
  have hfo : ∀ f ∈ files, IsOutput elems e.release f := fun f hf => hout f (hperm.mem_iff.1 hf)
  have hneed : ∃ need, cfg.bundleIds e.release e.manif langs true d = .ok need := by
    simp [PCfg.bundleIds, hsel, bind, Except.bind, pure, Except.pure]
  obtain ⟨need, hneed⟩ := hneed
  obtain ⟨h1, h2⟩ := bundleIds_ok hm hneed
  obtain ⟨ids, hids⟩ := sortIds_ok (l := need) (fun x hx => by obtain ⟨i, h, -⟩ := h2 x hx; exact ⟨i, h⟩)
  obtain ⟨a, -, -⟩ := sortIds_mem hids
  have hlt : ∀ i ∈ ids, i < 2 ^ 64 := fun i hi => by obtain ⟨j, hj, hlt⟩ := h2 _ ((a i).1 hi); cases hj; exact hlt
  have hdone := pool_succeeds hr hlt d hu
  obtain ⟨d', hd', -⟩ := C35_complete cfg w catalog hsha e.release e.manif langs d hg need hneed ids hids hlt r.response r.faults hr.fair.served hr.fair.remove
    (r.sched ids) hdone sel files hsel hfiles
    ⟨fun f hf => (hn.named _ f (hfo f hf)).2, fun f hf g hg => hn.parents _ f _ g (hfo f hf) (hfo g hg),
      (hperm.map _).nodup_iff.2 ((hn.distinct e he).sublist (hsub.map _)), hn.digest, hn.noslash⟩
    ⟨fun f hf => hu.outDirs _ f (hfo f hf), fun f hf => hu.outs _ f (hfo f hf), hu.storeDirs, hu.stores⟩
    (fun f hf => by
      have := hsub.subset (hperm.mem_iff.1 hf)
      exact ⟨hm.chunks f this, hm.size f this⟩)
  have hflts : r.flts = fun _ => {} := funext hr.flts
  unfold PCfg.downloadElem PCfg.downloadBundles
  simp only [hneed, hids]
  rw [poolOutcome_done (fun x hx => by obtain ⟨i, -, rfl⟩ := List.mem_map.1 hx; exact hdone i)]
  simp only
  rw [hflts, hd']

theorem parseComponentArgs_succeeds {parse : Str → Res Component} {components : List Str}
    (h : ∀ c ∈ components, (∃ p, parse c = .ok (.patch p)) ∨ ∃ e, parse c = .ok (.element e)) :
    ∃ es, parseComponentArgs parse components = .ok es ∧ ∀ e ∈ es, ∃ c ∈ components, ArgDesignates parse c e := by
  unfold parseComponentArgs
  have : ∃ l, components.mapM (parseComponentArg parse) = .ok l ∧ ∀ es ∈ l, ∃ c ∈ components, ∀ e ∈ es, ArgDesignates parse c e := by
    induction components with
    | nil => exact ⟨[], rfl, by simp⟩
    | cons c cs ih =>
      obtain ⟨l, hl, hd⟩ := ih (fun c hc => h c (by simp [hc]))
      have : ∃ x, parseComponentArg parse c = .ok x := by
        unfold parseComponentArg
        rcases h c (by simp) with ⟨p, hp⟩ | ⟨e, he⟩
        · exact ⟨_, by rw [hp]⟩
        · exact ⟨_, by rw [he]⟩
      obtain ⟨x, hx⟩ := this
      refine ⟨x :: l, by rw [List.mapM_cons, hx, hl]; rfl, ?_⟩
      intro es hes
      rcases List.mem_cons.1 hes with rfl | hes
      · exact ⟨c, by simp, fun e he => (parseComponentArg_ok hx e).1 he⟩
      · obtain ⟨c', hc', h'⟩ := hd es hes
        exact ⟨c', by simp [hc'], h'⟩
  obtain ⟨l, hl, hd⟩ := this
  refine ⟨l.flatten, by simp [hl, bind, Except.bind], ?_⟩
  intro e he
  obtain ⟨es, hes, he⟩ := List.mem_flatten.1 he
  obtain ⟨c, hc, h⟩ := hd es hes
  exact ⟨c, hc, h e he⟩

theorem downloadElems_clear (hsha : NoCollision cfg.sha1 catalog) (hn : GoodOutputs cfg elems) (hm : ∀ e, elems e → TrueManifest cfg w catalog e) (langs : Langs)
    (ws : Nat → PRun) (hws : ∀ i, FairRun cfg w (ws i)) (es : List PElem) (he : ∀ e ∈ es, elems e) (i : Nat) (d : Disk) (hg : GoodDisk cfg w catalog d)
    (hu : ClearWay cfg (IsOutput elems) d) :
    GoodDisk cfg w catalog (forElems (fun i d e => cfg.downloadElem langs (ws i) d e) i d es).1 ∧
    ClearWay cfg (IsOutput elems) (forElems (fun i d e => cfg.downloadElem langs (ws i) d e) i d es).1 ∧
    ((∀ i, PerfectRun cfg w (ws i)) → langs ≠ .other → (forElems (fun i d e => cfg.downloadElem langs (ws i) d e) i d es).2 = .ok ()) := by
  induction es generalizing i d with
  | nil => exact ⟨hg, hu, fun _ _ => rfl⟩
  | cons e es ih =>
    have hee := he e (by simp)
    have h1 := (downloadElem_held hsha (hws i) (hm e hee) langs d hg).1
    have h2 := clear_elem hn (hws i) hee (hm e hee) langs d hu
    have h3 := fun hp : ∀ i, PerfectRun cfg w (ws i) => fun hl => downloadElem_succeeds hsha hn (hp i) hee (hm e hee) (langs := langs) hl d hg hu
    simp only [forElems]
    rcases hE : cfg.downloadElem langs (ws i) d e with ⟨d', r⟩
    rw [hE] at h1 h2 h3
    cases r with
    | error x => exact ⟨h1, h2, fun hp hl => by have := h3 hp hl; simp at this⟩
    | ok u => exact ih (fun e h => he e (by simp [h])) (i + 1) d' h1 h2

/-- **C76, retrying.** The command has been run any number of times on the storage, with any components and languages; requests and the disk failed in any way, threads were
interleaved in any way. When it is run again and nothing fails, it succeeds, and the files it has to store are in the storage with their content. -/
theorem C76_retry (hsha : NoCollision cfg.sha1 catalog) (parse : Str → Res Component) (src : Elem → PElem) (hn : GoodOutputs cfg elems)
    (hm : ∀ e, elems e → TrueManifest cfg w catalog e) (d d1 : Disk) (hg : GoodDisk cfg w catalog d) (hu : ClearWay cfg (IsOutput elems) d)
    (ha : Attempted cfg w parse src elems d d1) (components : List Str)
    (hc : ∀ c ∈ components, ((∃ p, parse c = .ok (.patch p)) ∨ ∃ e, parse c = .ok (.element e)) ∧ ∀ e, ArgDesignates parse c e → elems (src e))
    (langs : LangArg) (hl : ∀ l, langs ≠ .given l) (ws : Nat → PRun) (hws : ∀ i, PerfectRun cfg w (ws i)) :
    ∃ d2, cfg.commandDownload parse src components langs ws d1 = (d2, .ok ()) ∧
      ∀ c ∈ components, ∀ e, ArgDesignates parse c e → ElemStored cfg w catalog (argLangs langs) d2 (src e) := by
  have hinv : GoodDisk cfg w catalog d1 ∧ ClearWay cfg (IsOutput elems) d1 := by
    induction ha with
    | never => exact ⟨hg, hu⟩
    | @again d1 d2 r cs ls ws _ h1 h2 h3 ih =>
      obtain ⟨g1, g2⟩ := ih
      unfold PCfg.commandDownload at h3
      cases hp : parseComponentArgs parse cs with
      | error x => rw [hp] at h3; cases h3; exact ⟨g1, g2⟩
      | ok es =>
        rw [hp] at h3
        simp only [PCfg.downloadElems] at h3
        have hes : ∀ e ∈ es.map src, elems e := by
          intro e he
          obtain ⟨x, hx, rfl⟩ := List.mem_map.1 he
          unfold parseComponentArgs at hp
          simp only [bind, Except.bind] at hp
          split at hp
          · simp at hp
          rename_i l hl
          cases hp
          obtain ⟨y, hy, hxy⟩ := List.mem_flatten.1 hx
          rw [mapM_eq_ok] at hl
          obtain ⟨c, hc, hcy⟩ := forall₂_mem_right hl hy
          exact h1 c hc x ((parseComponentArg_ok hcy x).1 hxy)
        obtain ⟨a, b, -⟩ := downloadElems_clear hsha hn hm ls.patcher ws h2 (es.map src) hes 0 d1 g1 g2
        rw [h3] at a b
        exact ⟨a, b⟩
  obtain ⟨g1, g2⟩ := hinv
  obtain ⟨es, hp, hes⟩ := parseComponentArgs_succeeds (fun c h => (hc c h).1)
  have hes' : ∀ e ∈ es.map src, elems e := by
    intro e he
    obtain ⟨x, hx, rfl⟩ := List.mem_map.1 he
    obtain ⟨c, hcc, hd⟩ := hes x hx
    exact (hc c hcc).2 x hd
  have ho : langs.patcher ≠ .other := by
    cases langs with
    | given l => exact absurd rfl (hl l)
    | all => nofun
    | noLang => nofun
  obtain ⟨-, -, h⟩ := downloadElems_clear hsha hn hm langs.patcher ws (fun i => (hws i).fair) (es.map src) hes' 0 d1 g1 g2
  have h := h hws ho
  have hrun : cfg.commandDownload parse src components langs ws d1 =
      forElems (fun i d e => cfg.downloadElem langs.patcher (ws i) d e) 0 d1 (es.map src) := by
    unfold PCfg.commandDownload; rw [hp]; rfl
  rcases hr : forElems (fun i d e => cfg.downloadElem langs.patcher (ws i) d e) 0 d1 (es.map src) with ⟨d2, r⟩
  rw [hr] at h hrun
  simp only at h
  subst h
  refine ⟨d2, hrun, fun c hcc e he => ?_⟩
  rw [← patcher_eq]
  obtain ⟨-, -, done, rest, h1, h2, h3, -⟩ := downloadElems_spec hsha langs.patcher ws (fun i => (hws i).fair) (es.map src) (fun e he => hm e (hes' e he)) d1 g1
  have hr' : cfg.downloadElems langs.patcher ws d1 (es.map src) = (d2, .ok ()) := hr
  rw [hr'] at h2 h3
  rw [h3 rfl, List.append_nil] at h1
  subst h1
  exact h2 (src e) (List.mem_map.2 ⟨e, parseComponentArgs_mem hp c hcc e he, rfl⟩)

/-- **C76, success.** On a storage where nothing is in the way, when nothing fails, the command succeeds. -/
theorem C76_succeeds (hsha : NoCollision cfg.sha1 catalog) (parse : Str → Res Component) (src : Elem → PElem) (hn : GoodOutputs cfg elems)
    (hm : ∀ e, elems e → TrueManifest cfg w catalog e) (d : Disk) (hg : GoodDisk cfg w catalog d) (hu : ClearWay cfg (IsOutput elems) d) (components : List Str)
    (hc : ∀ c ∈ components, ((∃ p, parse c = .ok (.patch p)) ∨ ∃ e, parse c = .ok (.element e)) ∧ ∀ e, ArgDesignates parse c e → elems (src e))
    (langs : LangArg) (hl : ∀ l, langs ≠ .given l) (ws : Nat → PRun) (hws : ∀ i, PerfectRun cfg w (ws i)) :
    ∃ d2, cfg.commandDownload parse src components langs ws d = (d2, .ok ()) ∧
      ∀ c ∈ components, ∀ e, ArgDesignates parse c e → ElemStored cfg w catalog (argLangs langs) d2 (src e) :=
  C76_retry hsha parse src hn hm d d hg hu .never components hc langs hl ws hws

end

/-! Non-vacuity: on an empty storage, a first attempt fails as a bundle cannot be downloaded. -/

def badRun : PRun := { shaRun with response := fun i => if i = 11 then .error (.http 404) else .ok (demoCdn2.bundle i) }
def emptyDisk : Disk := ⟨fun _ => none, fun _ => none⟩
def patchElem : Elem := ⟨"client".toList, ⟨"8.1".toList, .nums [8, 1]⟩, 0⟩
def oneParse (c : Str) : Res Component := if c = "patch".toList then .ok (.patch ⟨⟨"8.1".toList, .nums [8, 1]⟩, [patchElem]⟩) else .error .value

theorem shaRun_perfect : PerfectRun shaCfg demoCdn2 shaRun := ⟨fun _ => rfl, fun _ => rfl, fun _ => rfl, C76_met.1.turns⟩
theorem badRun_fair : FairRun shaCfg demoCdn2 badRun where
  served i x h := by
    simp only [badRun] at h
    split at h
    · simp at h
    · cases h; rfl
  remove _ := rfl
  removeOut _ := rfl
  turns := C76_met.1.turns

theorem sha_outputs {v : Int} {f : PFile} (h : IsOutput (· = shaElem) v f) : v = 12 ∧ (f = demoFile ∨ f = demoFile2) := by
  obtain ⟨e, rfl, rfl, h, -⟩ := h
  refine ⟨rfl, ?_⟩
  have : f = demoFile2 ∨ f = demoFile := by simpa [shaElem, demoManifest, Dict.values] using h
  exact this.symm

theorem sha_good : GoodOutputs shaCfg (· = shaElem) where
  named v f h := by
    obtain ⟨rfl, rfl | rfl⟩ := sha_outputs h <;> exact ⟨by decide +kernel, by decide +kernel⟩
  parents v f v' f' h h' := by
    obtain ⟨rfl, rfl | rfl⟩ := sha_outputs h <;> obtain ⟨rfl, rfl | rfl⟩ := sha_outputs h' <;> decide +kernel
  distinct e h := by subst h; decide +kernel
  digest := ⟨0, fun x => by unfold shaCfg; simp only; split <;> rfl⟩
  noslash := fun x => by unfold shaCfg; simp only; split <;> decide

theorem sha_noCollision : NoCollision shaCfg.sha1 demoCatalog2 := by
  intro v n v' n' t t' h h' he
  have key : ∀ v n t, IdsText (demoCatalog2 v n) t → (t = "0000000000000006".toList ∨ t = "000000000000000700000000000000050000000000000007".toList) := by
    intro v n t h
    unfold demoCatalog2 at h
    split at h
    · left; exact IdsText_unique h (idsText_map [6] (by decide))
    · right; exact IdsText_unique h (idsText_map [7, 5, 7] (by decide))
  rcases key v n t h with rfl | rfl <;> rcases key v' n' t' h' with rfl | rfl
  · rfl
  · exact absurd he (by decide +kernel)
  · exact absurd he (by decide +kernel)
  · rfl

theorem one_designates {c : Str} {e : Elem} (_ : ArgDesignates oneParse c e) : (fun _ => shaElem) e = shaElem := rfl

example : (shaCfg.commandDownload oneParse (fun _ => shaElem) ["patch".toList] .all (fun _ => badRun) emptyDisk).2 = .error (.http 404) ∧
    ∃ d, shaCfg.commandDownload oneParse (fun _ => shaElem) ["patch".toList] .all (fun _ => shaRun)
        (shaCfg.commandDownload oneParse (fun _ => shaElem) ["patch".toList] .all (fun _ => badRun) emptyDisk).1 = (d, .ok ()) ∧
      ElemStored shaCfg demoCdn2 demoCatalog2 .all d shaElem := by
  refine ⟨by decide +kernel, ?_⟩
  obtain ⟨d, h, hs⟩ := C76_retry sha_noCollision oneParse (fun _ => shaElem) sha_good (fun e he => by subst he; exact C76_met.2.1) emptyDisk _ C76_met.2.2
    ⟨by simp [emptyDisk], by simp [emptyDisk], by simp [emptyDisk], by simp [emptyDisk], by simp [emptyDisk], by simp [emptyDisk]⟩
    (.again .never (components := ["patch".toList]) (langs := .all) (ws := fun _ => badRun) (fun c _ e h => one_designates h) (fun _ => badRun_fair) Prod.mk.eta.symm) ["patch".toList]
    (fun c hc => by
      rw [List.mem_singleton] at hc
      subst hc
      exact ⟨.inl ⟨_, rfl⟩, fun e h => one_designates h⟩) .all (by simp) (fun _ => shaRun) (fun _ => shaRun_perfect)
  exact ⟨d, h, hs "patch".toList (List.mem_singleton.2 rfl) patchElem (.patch (p := ⟨⟨"8.1".toList, .nums [8, 1]⟩, [patchElem]⟩) rfl (List.mem_singleton.2 rfl))⟩

end Cdtb
