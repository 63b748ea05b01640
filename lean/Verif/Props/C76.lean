import Verif.Lemmas.Commands
/-!
# C76: the commands `download` and `files`, on patcher and RADS storages
-/
namespace Cdtb
set_option autoImplicit false
open Py Spec

/-! ## Patcher storages -/

section
variable {cfg : PCfg} {w : Cdn} {catalog : Int → Str → List Nat}

theorem downloadElems_spec (hsha : NoCollision cfg.sha1 catalog) (langs : Langs) (ws : Nat → PRun) (hws : ∀ i, FairRun cfg w (ws i))
    (es : List PElem) (hm : ∀ e ∈ es, TrueManifest cfg w catalog e) (d : Disk) (hg : GoodDisk cfg w catalog d) :
    GoodDisk cfg w catalog (cfg.downloadElems langs ws d es).1 ∧
    (∀ x, Held cfg w catalog d x → Held cfg w catalog (cfg.downloadElems langs ws d es).1 x) ∧
    ∃ done rest, es = done ++ rest ∧ (∀ e ∈ done, ElemStored cfg w catalog langs (cfg.downloadElems langs ws d es).1 e) ∧
      ((cfg.downloadElems langs ws d es).2 = .ok () → rest = []) ∧ (∀ x, (cfg.downloadElems langs ws d es).2 = .error x → rest ≠ []) := by
  unfold PCfg.downloadElems
  have hk : ∀ i s (e : PElem), TrueManifest cfg w catalog e → GoodDisk cfg w catalog s →
      ∀ x, Held cfg w catalog s x → Held cfg w catalog (cfg.downloadElem langs (ws i) s e).1 x :=
    fun i s e he hs => (downloadElem_held hsha (hws i) he langs s hs).2.1
  obtain ⟨⟨h1, h2⟩, -, h3⟩ := forElems_spec (fun i d e => cfg.downloadElem langs (ws i) d e)
    (fun s => GoodDisk cfg w catalog s ∧ ∀ x, Held cfg w catalog d x → Held cfg w catalog s x) (ElemStored cfg w catalog langs)
    (TrueManifest cfg w catalog)
    (fun i s e he hs => ⟨(downloadElem_held hsha (hws i) he langs s hs.1).1, fun x hx => hk i s e he hs.1 x (hs.2 x hx)⟩)
    (fun i s e e' he hs h f a b c => hk i s e he hs.1 (e'.release, f) (h f a b c))
    (fun i s e he hs h => (downloadElem_held hsha (hws i) he langs s hs.1).2.2 h) es hm 0 d ⟨hg, fun _ h => h⟩
  exact ⟨h1, h2, h3⟩

theorem patcher_eq (langs : LangArg) : langs.patcher = argLangs langs := by cases langs <;> rfl

/-- **C76, download.** When the command succeeds, whatever failed or was already there before, and whatever the interleavings of threads: every file of every
element of every component, in the selected languages and except links, is in the storage with its content. -/
theorem C76_download (hsha : NoCollision cfg.sha1 catalog) (parse : Str → Res Component) (src : Elem → PElem)
    (hm : ∀ e, TrueManifest cfg w catalog (src e)) (components : List Str) (langs : LangArg) (ws : Nat → PRun) (hws : ∀ i, FairRun cfg w (ws i))
    (d d' : Disk) (hg : GoodDisk cfg w catalog d) (h : cfg.commandDownload parse src components langs ws d = (d', .ok ())) :
    ∀ c ∈ components, ((∃ p, parse c = .ok (.patch p)) ∨ ∃ e, parse c = .ok (.element e)) ∧
      ∀ e, ArgDesignates parse c e → ElemStored cfg w catalog (argLangs langs) d' (src e) := by
  simp only [← patcher_eq]
  unfold PCfg.commandDownload at h
  cases hp : parseComponentArgs parse components with
  | error x => rw [hp] at h; simp at h
  | ok es =>
    rw [hp] at h
    simp only at h
    obtain ⟨-, -, done, rest, h1, h2, h3, -⟩ := downloadElems_spec hsha langs.patcher ws hws (es.map src)
      (fun e he => by obtain ⟨x, _, rfl⟩ := List.mem_map.1 he; exact hm x) d hg
    rw [h] at h2 h3
    have hr := h3 rfl
    subst hr
    rw [List.append_nil] at h1
    subst h1
    intro c hc
    constructor
    · unfold parseComponentArgs at hp
      simp only [bind, Except.bind] at hp
      split at hp
      · simp at hp
      rename_i l hl
      rw [mapM_eq_ok] at hl
      obtain ⟨x, -, hxl⟩ := forall₂_mem_left hl hc
      unfold parseComponentArg at hxl
      split at hxl <;> try simp at hxl
      · rename_i p hpp; exact .inl ⟨p, hpp⟩
      · rename_i e hpe; exact .inr ⟨e, hpe⟩
    · intro e he
      exact h2 (src e) (List.mem_map.2 ⟨e, parseComponentArgs_mem hp c hc e he, rfl⟩)

/-- **C76, any outcome.** Whatever fails, the storage stays in order (so that the previous theorem applies to the next attempt), files that were right still are, and the elements
processed before the failure are complete. -/
theorem C76_outcome (hsha : NoCollision cfg.sha1 catalog) (parse : Str → Res Component) (src : Elem → PElem)
    (hm : ∀ e, TrueManifest cfg w catalog (src e)) (components : List Str) (langs : LangArg) (ws : Nat → PRun) (hws : ∀ i, FairRun cfg w (ws i))
    (d d' : Disk) (r : Res Unit) (hg : GoodDisk cfg w catalog d) (h : cfg.commandDownload parse src components langs ws d = (d', r)) :
    GoodDisk cfg w catalog d' ∧
    (∀ v f, d.content (cfg.extractPath v f) = some (rightContent w catalog v f) → d'.content (cfg.extractPath v f) = some (rightContent w catalog v f)) ∧
    ∀ es, parseComponentArgs parse components = .ok es →
      ∃ done rest, es = done ++ rest ∧ (∀ e ∈ done, ElemStored cfg w catalog (argLangs langs) d' (src e)) ∧ ((∃ x, r = .error x) ↔ rest ≠ []) := by
  simp only [← patcher_eq]
  unfold PCfg.commandDownload at h
  cases hp : parseComponentArgs parse components with
  | error x => rw [hp] at h; cases h; exact ⟨hg, fun _ _ h => h, by simp⟩
  | ok es =>
    rw [hp] at h
    simp only at h
    obtain ⟨g1, g2, done, rest, h1, h2, h3, h4⟩ := downloadElems_spec hsha langs.patcher ws hws (es.map src)
      (fun e he => by obtain ⟨x, _, rfl⟩ := List.mem_map.1 he; exact hm x) d hg
    rw [h] at g1 g2 h2 h3 h4
    refine ⟨g1, fun v f hv => g2 (v, f) hv, ?_⟩
    intro es' he
    cases he
    obtain ⟨a, b, rfl, rfl, rfl⟩ := List.map_eq_append_iff.1 h1
    refine ⟨a, b, rfl, fun e he => h2 (src e) (List.mem_map.2 ⟨e, he, rfl⟩), ?_, ?_⟩
    · rintro ⟨x, rfl⟩ hb
      subst hb
      exact h4 x rfl rfl
    · intro hb
      cases r with
      | error x => exact ⟨x, rfl⟩
      | ok u => exact absurd (List.map_eq_nil_iff.1 (h3 rfl)) hb

/-- **C76, refused components.** All the components are checked before anything is downloaded: if one is refused, nothing changes. -/
theorem C76_refused (parse : Str → Res Component) (src : Elem → PElem) (components : List Str) (langs : LangArg) (ws : Nat → PRun) (d : Disk)
    (c : Str) (hc : c ∈ components) (hbad : (∃ e, parse c = .error e) ∨ parse c = .ok .none) :
    ∃ x, cfg.commandDownload parse src components langs ws d = (d, .error x) := by
  unfold PCfg.commandDownload
  cases hp : parseComponentArgs parse components with
  | error x => exact ⟨x, rfl⟩
  | ok es =>
    exfalso
    unfold parseComponentArgs at hp
    simp only [bind, Except.bind] at hp
    split at hp
    · simp at hp
    rename_i l hl
    rw [mapM_eq_ok] at hl
    obtain ⟨x, -, hxl⟩ := forall₂_mem_left hl hc
    unfold parseComponentArg at hxl
    rcases hbad with ⟨e, he⟩ | he
    · rw [he] at hxl; cases e <;> simp at hxl
    · rw [he] at hxl; simp at hxl

/-- **C76, languages (finding).** With the option `--lang`, whatever the languages, nothing is downloaded from a patcher storage: the command fails with `AttributeError` on the first
element. -/
theorem C76_lang_option (parse : Str → Res Component) (src : Elem → PElem) (components : List Str) (l : List Str) (ws : Nat → PRun) (d : Disk)
    (e : Elem) (es : List Elem) (hp : parseComponentArgs parse components = .ok (e :: es)) :
    cfg.commandDownload parse src components (.given l) ws d = (d, .error .attribute) := by
  simp [PCfg.commandDownload, hp, PCfg.downloadElems, forElems, PCfg.downloadElem, PCfg.downloadBundles, PCfg.bundleIds, Manifest.realFiles,
    Manifest.filterFiles, langsPredicate, LangArg.patcher, bind, Except.bind]

theorem poolOutcome_ok {l : List TState} (h : poolOutcome l = .ok ()) : ∀ x ∈ l, x = .done (.ok ()) := by
  induction l with
  | nil => simp
  | cons y l ih =>
    unfold poolOutcome at h
    split at h
    · simp_all
    · rename_i he; cases he; intro x hx; rcases List.mem_cons.1 hx with rfl | hx
      · rfl
      · exact ih h x hx
    · simp at h
    · simp at h

/-- **C76, bundles.** When the download of the bundles of an element succeeds, every bundle of every selected file is in the storage with its content; bundles of
files that were already extracted may be skipped. So when a request fails and a bundle is missing, this is reported. -/
theorem C76_bundles (hsha : NoCollision cfg.sha1 catalog) {r : PRun} (hr : FairRun cfg w r) {e : PElem} (hm : TrueManifest cfg w catalog e)
    (skip : Bool) (langs : Langs) (d d' : Disk) (hg : GoodDisk cfg w catalog d) (h : cfg.downloadBundles skip langs r d e = (d', .ok ())) :
    ∀ f ∈ e.manif.files.values, Selected langs f → f.isLink = false →
      (skip = true ∧ d'.content (cfg.extractPath e.release f) = some (rightContent w catalog e.release f)) ∨
      ∀ c ∈ f.chunks, ∃ i, c.bundle = some i ∧ d'.fs (cfg.bundlePath i) = some (.file (w.bundle i)) := by
  have hh := downloadBundles_held hsha hr hm skip langs d hg
  rw [h] at hh
  intro f hf hsel hlink
  unfold PCfg.downloadBundles at h
  cases hb : cfg.bundleIds e.release e.manif langs skip d with
  | error x => rw [hb] at h; simp at h
  | ok need =>
    rw [hb] at h
    simp only at h
    cases hi : sortIds need with
    | error x => rw [hi] at h; simp at h
    | ok ids =>
      rw [hi] at h
      simp only [Prod.mk.injEq] at h
      obtain ⟨rfl, hout⟩ := h
      unfold PCfg.bundleIds at hb
      simp only [bind, Except.bind] at hb
      split at hb
      · simp at hb
      rename_i files hfiles
      cases hb
      obtain ⟨a, a', c⟩ := sortIds_mem hi
      have hmem := (realFiles_mem hfiles f).2 ⟨hf, hsel, hlink⟩
      by_cases hex : (skip && cfg.isExtracted e.release d f) = true
      · left
        rw [Bool.and_eq_true] at hex
        refine ⟨hex.1, hh.2 (e.release, f) ?_⟩
        obtain ⟨-, s2⟩ := good_step hsha hg (op := .extract e.release false f {}) ⟨hm.chunks f hf, rfl⟩
        have s2 := s2 e.release false f {} rfl
        have : cfg.elemExtractFile e.release false d f {} = (d, .ok ()) := by unfold PCfg.elemExtractFile; simp [hex.2]
        simp only [POp.run, this] at s2
        exact s2 trivial
      · right
        intro ch hch
        have hin : ch.bundle ∈ fileBundles (files.filter fun f => !(skip && cfg.isExtracted e.release d f)) := by
          unfold fileBundles
          rw [List.mem_dedup, List.mem_flatMap]
          exact ⟨f, List.mem_filter.2 ⟨hmem, by simp only [Bool.not_eq_true] at hex; rw [hex]; rfl⟩, List.mem_map.2 ⟨ch, hch, rfl⟩⟩
        cases hcb : ch.bundle with
        | none => rw [hcb] at hin; exact absurd hin a'
        | some i =>
          rw [hcb] at hin
          refine ⟨i, rfl, ?_⟩
          have hlt : ∀ i ∈ ids, i < 2 ^ 64 := by
            intro i hmi
            have := (a i).1 hmi
            unfold fileBundles at this
            rw [List.mem_dedup, List.mem_flatMap] at this
            obtain ⟨f, hf, hc⟩ := this
            obtain ⟨ch, hch, hcb⟩ := List.mem_map.1 hc
            exact hm.bundles f ((realFiles_mem hfiles f).1 (List.mem_of_mem_filter hf)).1 ch hch i hcb
          obtain ⟨p1, -, -⟩ := pool_done cfg r.response r.faults ids (c (List.nodup_dedup _)) hlt d.fs (r.sched ids)
            (fun i => poolOutcome_ok hout _ (List.mem_map.2 ⟨i, List.mem_attach _ _, rfl⟩))
          obtain ⟨x, hx⟩ := p1 i ((a i).2 hin)
          have := hh.1.bundles i x hx
          rw [← this]
          exact hx

/-- **C76, releases.** Extracting a release (after its bundles have been downloaded, or not): when it succeeds, the files of all its elements are in the storage with
their content; whatever fails, the storage stays in order. -/
theorem C76_release (hsha : NoCollision cfg.sha1 catalog) (langs : Langs) (ws ws' : Nat → PRun) (hws : ∀ i, FairRun cfg w (ws i))
    (hws' : ∀ i, FairRun cfg w (ws' i)) (es : List PElem) (hm : ∀ e ∈ es, TrueManifest cfg w catalog e) (skip : Bool) (d d1 d2 : Disk) (r r' : Res Unit)
    (hg : GoodDisk cfg w catalog d) (h1 : cfg.releaseBundles skip langs ws d es = (d1, r)) (h2 : cfg.releaseExtract false langs ws' d1 es = (d2, r')) :
    GoodDisk cfg w catalog d1 ∧ GoodDisk cfg w catalog d2 ∧ (r' = .ok () → ∀ e ∈ es, ElemStored cfg w catalog langs d2 e) := by
  obtain ⟨a1, -, -⟩ := forElems_spec (fun i d e => cfg.downloadBundles skip langs (ws i) d e) (GoodDisk cfg w catalog) (fun _ _ => True)
    (TrueManifest cfg w catalog) (fun i s e he hs => (downloadBundles_held hsha (hws i) he skip langs s hs).1) (fun _ _ _ _ _ _ _ => trivial)
    (fun _ _ _ _ _ _ => trivial) es hm 0 d hg
  unfold PCfg.releaseBundles at h1
  rw [h1] at a1
  obtain ⟨b1, -, done, rest, b2, b3, b4, -⟩ := forElems_spec (fun i d (e : PElem) => cfg.extract e.release e.manif langs false (ws' i).flts d)
    (GoodDisk cfg w catalog) (ElemStored cfg w catalog langs) (TrueManifest cfg w catalog)
    (fun i s e he hs => (extract_held hsha he langs (hws' i).removeOut s hs).1)
    (fun i s e e' he hs h f a b c => (extract_held hsha he langs (hws' i).removeOut s hs).2.1 (e'.release, f) (h f a b c))
    (fun i s e he hs h => (extract_held hsha he langs (hws' i).removeOut s hs).2.2 h) es hm 0 d1 a1
  unfold PCfg.releaseExtract at h2
  rw [h2] at b1 b3 b4
  refine ⟨a1, b1, ?_⟩
  rintro rfl e he
  rw [b4 rfl, List.append_nil] at b2
  subst b2
  exact b3 e he

end

theorem printAll_ok (l : List Str) : printAll (l.map .ok) = (l, .ok ()) := by
  induction l with
  | nil => rfl
  | cons a l ih => simp [printAll, ih]

theorem printElems_ok {E : Type} (f : E → List Str × Res Unit) (g : E → List Str) (es : List E) (h : ∀ e ∈ es, f e = (g e, .ok ())) :
    printElems f es = (es.flatMap g, .ok ()) := by
  induction es with
  | nil => rfl
  | cons e es ih =>
    simp only [printElems, h e (by simp), ih (fun e he => h e (by simp [he])), List.flatMap_cons]

/-- The elements a component designates, in order -/
theorem parseComponentArg_ok {parse : Str → Res Component} {c : Str} {es : List Elem} (h : parseComponentArg parse c = .ok es) (e : Elem) :
    e ∈ es ↔ ArgDesignates parse c e := by
  unfold parseComponentArg at h
  split at h <;> try simp at h
  · rename_i p hp
    subst h
    constructor
    · exact .patch hp
    · intro hd
      cases hd with
      | patch h1 h2 => rw [hp] at h1; cases h1; exact h2
      | element h1 => rw [hp] at h1; cases h1
  · rename_i x hp
    subst h
    rw [List.mem_singleton]
    constructor
    · rintro rfl; exact .element hp
    · intro hd
      cases hd with
      | patch h1 h2 => rw [hp] at h1; cases h1
      | element h1 => rw [hp] at h1; cases h1; rfl

theorem filterFiles_all (langs : LangArg) (hl : ∀ l, langs ≠ .given l) :
    ∃ p : PFile → Bool, (∀ f, p f = true ↔ Selected langs.patcher f) ∧ ∀ m : Manifest, m.filterFiles langs.patcher = .ok (m.files.values.filter p) := by
  have ho : langs.patcher ≠ .other := by
    cases langs with
    | given l => exact absurd rfl (hl l)
    | all => nofun
    | noLang => nofun
  cases hlp : langsPredicate langs.patcher with
  | error x =>
    obtain ⟨p, -, h⟩ := (C39_select ⟨[], [], [], []⟩ langs.patcher).1 ho
    simp [Manifest.filterFiles, hlp, bind, Except.bind] at h
  | ok p =>
    have hm : ∀ m : Manifest, m.filterFiles langs.patcher = .ok (m.files.values.filter p) := by
      intro m; simp [Manifest.filterFiles, hlp, bind, Except.bind, pure, Except.pure]
    refine ⟨p, fun f => ?_, hm⟩
    obtain ⟨q, hq, h⟩ := (C39_select ⟨[], [], [], [(none, f)]⟩ langs.patcher).1 ho
    rw [hm] at h
    have e : Dict.values [((none : Option Str), f)] = [f] := rfl
    simp only [e, Except.ok.injEq] at h
    rw [← hq f]
    cases hpf : p f <;> cases hqf : q f <;> simp_all [List.filter]

/-- **C76, files.** What is printed: for each element the component designates, in order, the path of each file of the manifest in the selected languages (links included), in
order. -/
theorem C76_files (cfg : PCfg) (parse : Str → Res Component) (src : Elem → PElem) (c : Str) (es : List Elem) (hc : parseComponentArg parse c = .ok es)
    (langs : LangArg) (hl : ∀ l, langs ≠ .given l) :
    (∀ e, e ∈ es ↔ ArgDesignates parse c e) ∧ ∃ p : PFile → Bool, (∀ f, p f = true ↔ Selected (argLangs langs) f) ∧
      cfg.commandFiles parse src c langs false =
        (es.flatMap fun e => ((src e).manif.files.values.filter p).map fun f => cfg.storageDir (src e).release ++ "/files/".toList ++ fmtOpt f.name, .ok ()) := by
  simp only [← patcher_eq]
  refine ⟨parseComponentArg_ok hc, ?_⟩
  obtain ⟨p, hp, hm⟩ := filterFiles_all langs hl
  refine ⟨p, hp, ?_⟩
  unfold PCfg.commandFiles
  rw [hc]
  simp only
  have hprint : ∀ e ∈ es.map src, cfg.printPaths langs.patcher false e = ((e.manif.files.values.filter p).map fun f => cfg.extractPath e.release f, .ok ()) := by
    intro e _
    unfold PCfg.printPaths
    rw [hm]
    simp only [Bool.false_eq_true, if_false]
    have := printAll_ok ((e.manif.files.values.filter p).map fun f => cfg.extractPath e.release f)
    rw [List.map_map] at this
    exact this
  rw [printElems_ok _ (fun e => (e.manif.files.values.filter p).map fun f => cfg.extractPath e.release f) _ hprint, List.flatMap_map]
  rfl

/-- **C76, relative paths.** With `--relative`, the names of the same files in lowercase are printed, in the same order, if they all have a name. -/
theorem C76_files_relative (cfg : PCfg) (parse : Str → Res Component) (src : Elem → PElem) (c : Str) (es : List Elem) (hc : parseComponentArg parse c = .ok es)
    (langs : LangArg) (hl : ∀ l, langs ≠ .given l) (hn : ∀ e ∈ es, ∀ f ∈ (src e).manif.files.values, f.name ≠ none) :
    ∃ p : PFile → Bool, (∀ f, p f = true ↔ Selected (argLangs langs) f) ∧
      cfg.commandFiles parse src c langs true =
        (es.flatMap fun e => ((src e).manif.files.values.filter p).map fun f => lower (fmtOpt f.name), .ok ()) := by
  simp only [← patcher_eq]
  obtain ⟨p, hp, hm⟩ := filterFiles_all langs hl
  refine ⟨p, hp, ?_⟩
  unfold PCfg.commandFiles
  rw [hc]
  simp only
  have hprint : ∀ e ∈ es.map src, cfg.printPaths langs.patcher true e = ((e.manif.files.values.filter p).map fun f => lower (fmtOpt f.name), .ok ()) := by
    intro e he
    obtain ⟨x, hx, rfl⟩ := List.mem_map.1 he
    unfold PCfg.printPaths
    rw [hm]
    simp only [if_true]
    have := printAll_ok (((src x).manif.files.values.filter p).map fun f => lower (fmtOpt f.name))
    rw [List.map_map] at this
    rw [← this]
    congr 1
    apply List.map_congr_left
    intro f hf
    have := hn x hx f (List.mem_filter.1 hf).1
    cases hfn : f.name with
    | none => exact absurd hfn this
    | some n => simp only [relName, hfn, Function.comp]; rfl
  rw [printElems_ok _ (fun e => (e.manif.files.values.filter p).map fun f => lower (fmtOpt f.name)) _ hprint, List.flatMap_map]

/-- With `--lang`, nothing is printed (finding). -/
theorem C76_files_lang_option (cfg : PCfg) (parse : Str → Res Component) (src : Elem → PElem) (c : Str) (e : Elem) (es : List Elem)
    (hc : parseComponentArg parse c = .ok (e :: es)) (l : List Str) (relative : Bool) :
    cfg.commandFiles parse src c (.given l) relative = ([], .error .attribute) := by
  simp [PCfg.commandFiles, hc, printElems, PCfg.printPaths, Manifest.filterFiles, langsPredicate, LangArg.patcher, bind, Except.bind]

/-- **C76, both commands.** After a successful download, each path printed for a component that has been downloaded, with the same languages, is either the path of a file with its content,
or the path of a link, for which nothing has been written. -/
theorem C76_files_exist {cfg : PCfg} {w : Cdn} {catalog : Int → Str → List Nat} (hsha : NoCollision cfg.sha1 catalog) (parse : Str → Res Component)
    (src : Elem → PElem) (hm : ∀ e, TrueManifest cfg w catalog (src e)) (components : List Str) (langs : LangArg) (ws : Nat → PRun)
    (hws : ∀ i, FairRun cfg w (ws i)) (d d' : Disk) (hg : GoodDisk cfg w catalog d) (h : cfg.commandDownload parse src components langs ws d = (d', .ok ()))
    (c : Str) (hc : c ∈ components) (p : Str) (hp : p ∈ (cfg.commandFiles parse src c langs false).1) :
    ∃ e f, ArgDesignates parse c e ∧ f ∈ (src e).manif.files.values ∧ p = cfg.extractPath (src e).release f ∧
      (f.isLink = true ∨ d'.content p = some (rightContent w catalog (src e).release f)) := by
  cases hca : parseComponentArg parse c with
  | error x => simp [PCfg.commandFiles, hca] at hp
  | ok es =>
    rcases es with _ | ⟨e0, es⟩
    · simp [PCfg.commandFiles, hca, printElems] at hp
    · have hl : ∀ l, langs ≠ .given l := by
        rintro l rfl
        rw [C76_files_lang_option cfg parse src c e0 es hca] at hp
        simp at hp
      obtain ⟨hdes, q, hq, hf⟩ := C76_files cfg parse src c _ hca langs hl
      rw [hf] at hp
      obtain ⟨e, he, hp⟩ := List.mem_flatMap.1 hp
      obtain ⟨f, hf, rfl⟩ := List.mem_map.1 hp
      obtain ⟨hf1, hf2⟩ := List.mem_filter.1 hf
      refine ⟨e, f, (hdes e).1 he, hf1, rfl, ?_⟩
      cases hlk : f.isLink with
      | true => exact .inl rfl
      | false =>
        exact .inr ((C76_download hsha parse src hm components langs ws hws d d' hg h c hc).2 e ((hdes e).1 he) f hf1 ((hq f).1 hf2) hlk)

end Cdtb
