import Verif.Props.C76
import Verif.Props.C35
import Verif.Props.C43
import Verif.Props.C63ex
/-!
# C76: the commands `download` and `files`, on RADS storages, and examples
-/
namespace Cdtb
set_option autoImplicit false
open Py Spec

section
variable {cfg : RadsCfg} {site : RadsSite} {served : Str → Option Bytes} {inflate : Bytes → Res Bytes}

/-- **C76, RADS download.** When the command succeeds, without option or with `--no-lang`: every file which the site lists for each element of each component is in the
storage with its content. Whatever the outcome, files of the storage are right, none is removed or changed, and elements processed before a failure are complete. -/
theorem C76_rads_download (hon : cfg.On site served inflate) (parse : Str → Res Component) (src : Elem → SolVer) (hsv : ∀ e, (src e).Plain)
    (components : List Str) (langs : LangArg) (rl : RadsLangs) (hl : langs = .all ∧ rl = .all ∨ langs = .noLang ∧ rl = .none_)
    (ws : Nat → RadsWorld) (hws : ∀ i, RadsWorldOk served (ws i)) (fs fs' : FS) (hg : GoodRads cfg.base site served cfg.exe fs) (r : Res Unit)
    (h : cfg.commandDownload parse src components langs ws fs = (fs', r)) :
    Adds (RadsFile cfg.base site served cfg.exe) fs fs' ∧ GoodRads cfg.base site served cfg.exe fs' ∧
    (r = .ok () → ∀ c ∈ components, ∀ e, ArgDesignates parse c e → ∀ p, site.Lists (src e).name (src e).version.s rl p →
      fs' (storageFspath cfg.base p) = some (.file (site.file p))) ∧
    ∀ es, parseComponentArgs parse components = .ok es → ∃ done rest, es = done ++ rest ∧ (r = .ok () ↔ rest = []) ∧
      ∀ e ∈ done, ∀ p, site.Lists (src e).name (src e).version.s rl p → fs' (storageFspath cfg.base p) = some (.file (site.file p)) := by
  have harg : ∀ w fs sv, cfg.argDownload langs w fs sv = cfg.downloadSolution w fs sv rl := by
    intro w fs sv
    rcases hl with ⟨rfl, rfl⟩ | ⟨rfl, rfl⟩ <;> rfl
  unfold RadsCfg.commandDownload at h
  cases hp : parseComponentArgs parse components with
  | error x =>
    rw [hp] at h
    cases h
    exact ⟨.refl _ _, hg, by simp, by simp⟩
  | ok es =>
    rw [hp] at h
    simp only [harg] at h
    have hstep : ∀ i s (sv : SolVer), sv.Plain → GoodRads cfg.base site served cfg.exe s →
        Adds (RadsFile cfg.base site served cfg.exe) s (cfg.downloadSolution (ws i) s sv rl).1 :=
      fun i s sv hsv hs => (downloadSolution_spec hon (hws i) hs hsv rl).1
    obtain ⟨⟨h1, h2⟩, -, done, rest, h3, h4, h5, h6⟩ := forElems_spec (fun i fs sv => cfg.downloadSolution (ws i) fs sv rl)
      (fun s => Adds (RadsFile cfg.base site served cfg.exe) fs s ∧ GoodRads cfg.base site served cfg.exe s)
      (fun s sv => ∀ p, site.Lists sv.name sv.version.s rl p → s (storageFspath cfg.base p) = some (.file (site.file p)))
      SolVer.Plain
      (fun i s sv hsv hs => ⟨hs.1.trans (hstep i s sv hsv hs.2), adds_good hs.2 (hstep i s sv hsv hs.2)⟩)
      (fun i s sv sv' hsv hs h p hp => (hstep i s sv hsv hs.2).1 _ _ (h p hp))
      (fun i s sv hsv hs h p hp => (C63_download hon s hs.2 [] (by simp) (ws i) (hws i) sv hsv rl (cfg.downloadSolution (ws i) s sv rl).1
        (Prod.ext rfl h)).2 p hp)
      (es.map src) (by intro sv h; obtain ⟨e, -, rfl⟩ := List.mem_map.1 h; exact hsv e) 0 fs ⟨.refl _ _, hg⟩
    rw [h] at h1 h2 h4 h5 h6
    obtain ⟨a, b, rfl, rfl, rfl⟩ := List.map_eq_append_iff.1 h3
    have hdone : ∀ e ∈ a, ∀ p, site.Lists (src e).name (src e).version.s rl p → fs' (storageFspath cfg.base p) = some (.file (site.file p)) :=
      fun e he => h4 (src e) (List.mem_map.2 ⟨e, he, rfl⟩)
    refine ⟨h1, h2, ?_, ?_⟩
    · rintro rfl c hc e he
      have hb := List.map_eq_nil_iff.1 (h5 rfl)
      subst hb
      have := parseComponentArgs_mem hp c hc e he
      rw [List.append_nil] at this
      exact hdone e this
    · intro es' he
      cases he
      refine ⟨a, b, rfl, ⟨fun hr => List.map_eq_nil_iff.1 (h5 hr), ?_⟩, hdone⟩
      rintro rfl
      cases r with
      | error x => exact absurd rfl (h6 x rfl)
      | ok u => rfl

/-- **C76, RADS refused components.** -/
theorem C76_rads_refused (parse : Str → Res Component) (src : Elem → SolVer) (components : List Str) (langs : LangArg) (ws : Nat → RadsWorld) (fs : FS)
    (x : Err) (hp : parseComponentArgs parse components = .error x) : cfg.commandDownload parse src components langs ws fs = (fs, .error x) := by
  simp [RadsCfg.commandDownload, hp]

/-- **C76, RADS languages (finding).** With `--lang` and languages, no file of any project is downloaded: the command fails on the first element; only
its solution manifest may have been added. With `--lang` and no language, it succeeds on an element without any file of its projects. -/
theorem C76_rads_lang_option (hon : cfg.On site served inflate) (w : RadsWorld) (hw : RadsWorldOk served w) (fs fs' : FS)
    (hg : GoodRads cfg.base site served cfg.exe fs) (sv : SolVer) (hsv : sv.Plain) (l : List Str) (r : Res Unit)
    (h : cfg.argDownload (.given l) w fs sv = (fs', r)) :
    (l ≠ [] → ∃ x, r = .error x) ∧ (∀ p, FilePath p → ∀ b, fs' (storageFspath cfg.base p) = some (.file b) → fs (storageFspath cfg.base p) = some (.file b)) := by
  have hd := (radsDownload_spec (cfg := cfg) hw fs sv.manifest sv.manifest).1
  have hdep : (cfg.dependencies w fs sv).1 = (cfg.download w fs sv.manifest sv.manifest).1 := by
    unfold RadsCfg.dependencies
    split <;> rename_i hq <;> rw [hq]
  have hfs : fs' = (cfg.dependencies w fs sv).1 := by
    unfold RadsCfg.argDownload RadsCfg.argProjects at h
    rcases hq : cfg.dependencies w fs sv with ⟨a, _ | d⟩ <;> rw [hq] at h <;> simp only at h
    · cases h; rfl
    · split at h
      · rename_i h'; cases h; exact (Prod.mk.inj h').1.symm
      · rename_i h'
        obtain ⟨rfl, h'⟩ := Prod.mk.inj h'
        split at h'
        · cases h'; simp only [RadsCfg.downloadProjects] at h; cases h; rfl
        · simp at h'
  constructor
  · intro hne
    unfold RadsCfg.argDownload RadsCfg.argProjects at h
    rcases hq : cfg.dependencies w fs sv with ⟨a, _ | d⟩ <;> rw [hq] at h <;> simp only at h
    · cases h; exact ⟨_, rfl⟩
    · have : l.isEmpty = false := by cases l <;> simp_all
      rw [this] at h
      simp only [Bool.false_eq_true, if_false] at h
      cases h; exact ⟨_, rfl⟩
  · intro p hp b hb
    rw [hfs, hdep] at hb
    rcases hd.2 _ _ hb with h | ⟨h, -⟩
    · exact h
    · rw [manifest_path, filePath_root hp, rooted_solution] at h
      obtain ⟨n, v, rest, hn, hv, rfl⟩ := filePath_eq.1 hp
      exact absurd (root_inj h).symm (solution_ne_project _ _ _ _ _ _)

/-- **C76, RADS files.** The paths which are printed for an element: those of the files which the site lists; with `--relative`, the part after `files/`, in lowercase. -/
theorem C76_rads_files (hon : cfg.On site served inflate) (fs fs' : FS) (hg : GoodRads cfg.base site served cfg.exe fs)
    (w : RadsWorld) (hw : RadsWorldOk served w) (sv : SolVer) (hsv : sv.Plain) (langs : LangArg) (rl : RadsLangs)
    (hl : langs = .all ∧ rl = .all ∨ langs = .noLang ∧ rl = .none_) (relative : Bool) (out : List Str) (r : Res Unit)
    (h : cfg.printPaths langs relative w fs sv = (fs', out, r)) :
    (∀ o ∈ out, ∃ p, site.Lists sv.name sv.version.s rl p ∧ RadsPrinted cfg.base relative p o) ∧
    (r = .ok () → ∀ p, site.Lists sv.name sv.version.s rl p → ∃ o ∈ out, RadsPrinted cfg.base relative p o) := by
  have harg : cfg.argFilepaths langs w fs sv = cfg.filepaths w fs sv rl := by
    rcases hl with ⟨rfl, rfl⟩ | ⟨rfl, rfl⟩ <;> rfl
  obtain ⟨-, h1, h2⟩ := filepaths_spec hon hw hg hsv rl
  unfold RadsCfg.printPaths at h
  rw [harg] at h
  rcases hf : cfg.filepaths w fs sv rl with ⟨fs1, l, r1⟩
  rw [hf] at h h1 h2
  simp only at h h1 h2
  have hprint : ∀ p ∈ l, ∃ o, (if relative then radsRelpath p else .ok (storageFspath cfg.base p)) = .ok o ∧ RadsPrinted cfg.base relative p o := by
    intro p hp
    cases relative with
    | false => exact ⟨_, rfl, .full⟩
    | true =>
      obtain ⟨m, n, v, es, -, -, -, hes, e, he, rfl⟩ := h1 p hp
      obtain ⟨a, b, c, ha, hb, he'⟩ := (hon.ok.entry _ _ _ hes e he).2
      refine ⟨lower c, ?_, .relative ha hb he'⟩
      simp only [if_true]
      rw [he']
      have := C43_relpath "projects".toList a "releases".toList b "files".toList c (by decide) ha (by decide) hb (by decide)
      rw [← this]
      congr 1
      simp
  have key : ∀ l : List Str, (∀ p ∈ l, ∃ o, (if relative then radsRelpath p else .ok (storageFspath cfg.base p)) = .ok o ∧ RadsPrinted cfg.base relative p o) →
      ∃ os, List.Forall₂ (RadsPrinted cfg.base relative) l os ∧
        printAll (l.map fun p => if relative then radsRelpath p else .ok (storageFspath cfg.base p)) = (os, .ok ()) := by
    intro l
    induction l with
    | nil => intro _; exact ⟨[], .nil, rfl⟩
    | cons p l ih =>
      intro h
      obtain ⟨o, ho1, ho2⟩ := h p (by simp)
      obtain ⟨os, hos1, hos2⟩ := ih (fun p hp => h p (by simp [hp]))
      exact ⟨o :: os, .cons ho2 hos1, by rw [List.map_cons, ho1]; simp only [printAll, hos2]⟩
  obtain ⟨os, hos1, hos2⟩ := key l hprint
  rw [hos2] at h
  cases h
  constructor
  · intro o ho
    obtain ⟨p, hp, hpo⟩ := forall₂_mem_right hos1 ho
    exact ⟨p, h1 p hp, hpo⟩
  · intro hr p hp
    obtain ⟨o, ho, hpo⟩ := forall₂_mem_left hos1 (h2 hr p hp)
    exact ⟨o, ho, hpo⟩

end

/-! Non-vacuity -/

def shaRun : PRun := ⟨fun i => .ok (demoCdn2.bundle i), fun _ => {}, fun ids =>
  (List.replicate (7 + (ids.map fun i => (dirPrefixes (dirname (shaCfg.bundlePath i))).length).sum) ids.attach).flatten, fun _ => {}⟩
def shaElem : PElem := ⟨12, demoManifest⟩

theorem count_attach (ids : List Nat) (i : {i // i ∈ ids}) (n : Nat) : n ≤ ((List.replicate n ids.attach).flatten).countP (fun j => decide (j = i)) := by
  induction n with
  | zero => simp
  | succ n ih =>
    rw [List.replicate_succ, List.flatten_cons, List.countP_append]
    have : 0 < ids.attach.countP (fun j => decide (j = i)) := List.countP_pos_iff.2 ⟨i, List.mem_attach _ _, by simp⟩
    omega

theorem le_sum_mem (l : List Nat) (x : Nat) (h : x ∈ l) : x ≤ l.sum := by
  induction l with
  | nil => simp at h
  | cons a l ih =>
    rw [List.sum_cons]
    rcases List.mem_cons.1 h with rfl | h
    · omega
    · have := ih h; omega

theorem C76_met : FairRun shaCfg demoCdn2 shaRun ∧ TrueManifest shaCfg demoCdn2 demoCatalog2 shaElem ∧
    GoodDisk shaCfg demoCdn2 demoCatalog2 ⟨fun _ => none, fun _ => none⟩ := by
  have hv : ∀ f ∈ shaElem.manif.files.values, f = demoFile2 ∨ f = demoFile := by
    intro f hf
    simpa [shaElem, demoManifest, Dict.values] using hf
  refine ⟨⟨?_, fun _ => rfl, fun _ => rfl, ?_⟩, ⟨?_, ?_, ?_⟩, ?_⟩
  · intro i x h; cases h; rfl
  · intro ids i
    refine le_trans ?_ (count_attach ids i _)
    have := le_sum_mem (ids.map fun i => (dirPrefixes (dirname (shaCfg.bundlePath i))).length) _ (List.mem_map.2 ⟨i.1, i.2, rfl⟩)
    omega
  · intro f hf
    rcases hv f hf with rfl | rfl
    · exact .cons ⟨rfl, by decide, 11, 2, rfl, rfl, by decide +kernel⟩ .nil
    · exact .cons ⟨rfl, by decide, 10, 2, rfl, rfl, by decide +kernel⟩ (.cons ⟨rfl, by decide, 10, 3, rfl, rfl, by decide +kernel⟩
        (.cons ⟨rfl, by decide, 10, 2, rfl, rfl, by decide +kernel⟩ .nil))
  · intro f hf; rcases hv f hf with rfl | rfl <;> decide +kernel
  · intro f hf; rcases hv f hf with rfl | rfl
    · intro c hc b hb; simp only [demoFile2, List.mem_singleton] at hc; subst hc; cases hb; decide
    · intro c hc b hb
      simp only [demoFile, List.mem_cons, List.not_mem_nil, or_false] at hc
      rcases hc with rfl | rfl | rfl <;> cases hb <;> decide
  · constructor <;> simp

/-- Both files are downloaded and extracted from nothing. -/
example : let r := shaCfg.downloadElems .all (fun _ => shaRun) ⟨fun _ => none, fun _ => none⟩ [shaElem]
    r.2 = .ok () ∧ r.1.content "/s/cdtb/releases/live/12/files/c.txt".toList = some [9] ∧
    r.1.content "/s/cdtb/releases/live/12/files/a/b.txt".toList = some [3, 1, 2, 3] := by decide +kernel

/-- `C76_bundles`: the bundles are downloaded; when a request fails, this is reported. -/
example : let r := shaCfg.downloadBundles true .all shaRun ⟨fun _ => none, fun _ => none⟩ shaElem
    r.2 = .ok () ∧ r.1.fs (shaCfg.bundlePath 11) = some (.file (demoCdn2.bundle 11)) := by decide +kernel
example : (shaCfg.downloadBundles true .all { shaRun with response := fun i => if i = 11 then .error (.http 404) else .ok (demoCdn2.bundle i) }
    ⟨fun _ => none, fun _ => none⟩ shaElem).2 = .error (.http 404) := by decide +kernel

/-- A manifest with a link, which is listed but not extracted -/
def linkFile : PFile := ⟨some "l.txt".toList, some 0, some "c.txt".toList, none, []⟩
def linkElem : PElem := ⟨12, ⟨[], [], [], [(some "c.txt".toList, demoFile2), (some "l.txt".toList, linkFile)]⟩⟩
example : let r := shaCfg.downloadElems .all (fun _ => shaRun) ⟨fun _ => none, fun _ => none⟩ [linkElem]
    r.2 = .ok () ∧ r.1.content "/s/cdtb/releases/live/12/files/c.txt".toList = some [9] ∧
    r.1.content "/s/cdtb/releases/live/12/files/l.txt".toList = none ∧
    (shaCfg.printPaths .all false linkElem).1 = ["/s/cdtb/releases/live/12/files/c.txt".toList, "/s/cdtb/releases/live/12/files/l.txt".toList] ∧
    (shaCfg.printPaths .all true linkElem).1 = ["c.txt".toList, "l.txt".toList] := by decide +kernel

def radsElem (e : Elem) : SolVer := if e.name = "client".toList then radsClient else radsGame
def radsParse (c : Str) : Res Component := if c = "patch".toList
  then .ok (.patch ⟨⟨"8.1".toList, .nums [8, 1]⟩, [⟨"client".toList, ⟨"8.1".toList, .nums [8, 1]⟩, 0⟩, ⟨"game".toList, ⟨"8.1".toList, .nums [8, 1]⟩, 1⟩]⟩)
  else .error .value
example : let r := radsCfg.commandDownload radsParse radsElem ["patch".toList] .noLang (fun _ => radsWorld) radsDisk
    r.2 = .ok () ∧ r.1.readFile "/rads/projects/lol_game_client/releases/0.0.1.5/files/League of Legends.exe".toList = .ok [77, 90, 8, 2] := by decide +kernel
example : (radsCfg.commandDownload radsParse radsElem ["patch".toList] (.given ["fr_fr".toList]) (fun _ => radsWorld) radsDisk).2 = .error .key := by decide +kernel

end Cdtb
