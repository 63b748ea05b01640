import Verif.Props.C84Ends
import Verif.Props.C80radsRuns
import Verif.Props.C53
/-!
# C84: `download`, from the command line to the storage
-/
namespace Cdtb
set_option autoImplicit false
open Py Spec

theorem langsGiven_unique {gs : List GivenOpt} {l l' : LangArg} (h : LangsGiven gs l) (h' : LangsGiven gs l') : l = l' := by
  have := C81_unique h h'
  cases l <;> cases l' <;> simp_all

section
variable (T : ToolLib) (conf : ConfLib) (env dir : Option Str) (fs : FS)

/-- `download` from the command line, on a storage of the patcher: if the storage given is the one of `cfg`, the components designate elements of the
CDN, nothing is in the way and nothing fails, the run succeeds and the files of the elements, in the languages given, are in the storage with their
contents. -/
theorem C84_downloads {p : ParserDef} (hc : ("download".toList, p) ∈ commandParsers dir) {gs : List GivenOpt} {c : Str} {cs : List Str} {argv : List Str}
    (hline : LineOf "download" p.opts gs (c :: cs) argv) {path patchline : Option Str} (hpath : TextGiven gs "storage" path)
    (hpatchline : TextGiven gs "patchline" patchline) {langs : LangArg} (hlangs : LangsGiven gs langs) {cfg : PCfg} {client : CVal}
    (hst : parseStorageArgs fs conf env path patchline = .ok (.patcher (.str cfg.base) (.str cfg.patchline) cfg.symlinks client))
    {parse : Str → Res Component} {src : Elem → PElem} {ws : Nat → PRun} {links : Str → Option Str}
    (hT : ∀ components langs, T.download (.patcher (.str cfg.base) (.str cfg.patchline) cfg.symlinks client) components langs fs =
      ((cfg.commandDownload parse src components langs ws ⟨fs, links⟩).1.fs, (cfg.commandDownload parse src components langs ws ⟨fs, links⟩).2))
    {w : Cdn} {catalog : Int → Str → List Nat} {elems : PElem → Prop} (hsha : NoCollision cfg.sha1 catalog) (hn : GoodOutputs cfg elems)
    (hm : ∀ e, elems e → TrueManifest cfg w catalog e) (hg : GoodDisk cfg w catalog ⟨fs, links⟩) (hu : ClearWay cfg (IsOutput elems) ⟨fs, links⟩)
    (hcs : ∀ c' ∈ c :: cs, ((∃ p, parse c' = .ok (.patch p)) ∨ ∃ e, parse c' = .ok (.element e)) ∧ ∀ e, ArgDesignates parse c' e → elems (src e))
    (hl : ∀ l, langs ≠ .given l) (hws : ∀ i, PerfectRun cfg w (ws i)) :
    ∃ d : Disk, T.main conf env dir fs argv = ⟨d.fs, [], .ok ()⟩ ∧
      ∀ c' ∈ c :: cs, ∀ e, ArgDesignates parse c' e → ElemStored cfg w catalog (argLangs langs) d (src e) := by
  obtain ⟨path', patchline', langs', h1, h2, h3, h4⟩ := C84_download T conf env dir fs hc hline
  obtain ⟨d, k1, k2⟩ := C76_succeeds hsha parse src hn hm ⟨fs, links⟩ hg hu (c :: cs) hcs langs hl ws hws
  refine ⟨d, ?_, k2⟩
  rw [h4, textGiven_unique h1 hpath, textGiven_unique h2 hpatchline, langsGiven_unique h3 hlangs]
  simp only [withStorage, hst, hT, k1, changesFiles]

/-- `download` from the command line, on a RADS storage -/
theorem C84_rads_downloads {p : ParserDef} (hc : ("download".toList, p) ∈ commandParsers dir) {gs : List GivenOpt} {c : Str} {cs : List Str} {argv : List Str}
    (hline : LineOf "download" p.opts gs (c :: cs) argv) {path patchline : Option Str} (hpath : TextGiven gs "storage" path)
    (hpatchline : TextGiven gs "patchline" patchline) {langs : LangArg} (hlangs : LangsGiven gs langs) {cfg : RadsCfg}
    (hst : parseStorageArgs fs conf env path patchline = .ok (.rads (.str cfg.base) (.str cfg.url)))
    {parse : Str → Res Component} {src : Elem → SolVer} {ws : Nat → RadsWorld}
    (hT : ∀ components langs, T.download (.rads (.str cfg.base) (.str cfg.url)) components langs fs = cfg.commandDownload parse src components langs ws fs)
    {site : RadsSite} {served : Str → Option Bytes} {inflate : Bytes → Res Bytes} (hon : cfg.On site served inflate) (hap : site.Apart)
    (hg : GoodRads cfg.base site served cfg.exe fs) (hu : ClearRads cfg.base site served fs) {rl : RadsLangs}
    (hl : langs = .all ∧ rl = .all ∨ langs = .noLang ∧ rl = .none_)
    (hcs : ∀ c' ∈ c :: cs, ((∃ p, parse c' = .ok (.patch p)) ∨ ∃ e, parse c' = .ok (.element e)) ∧
      ∀ e, ArgDesignates parse c' e → (src e).Plain ∧ site.Offers served rl (src e))
    (hws : ∀ i, PerfectRads served (ws i)) :
    ∃ fs', T.main conf env dir fs argv = ⟨fs', [], .ok ()⟩ ∧
      ∀ c' ∈ c :: cs, ∀ e, ArgDesignates parse c' e → ∀ q, site.Lists (src e).name (src e).version.s rl q →
        fs' (storageFspath cfg.base q) = some (.file (site.file q)) := by
  obtain ⟨path', patchline', langs', h1, h2, h3, h4⟩ := C84_download T conf env dir fs hc hline
  obtain ⟨fs', k1, k2⟩ := C76_rads_succeeds hon hap fs hg hu [] (by simp) parse src (c :: cs) langs rl hl hcs ws hws
  refine ⟨fs', ?_, k2⟩
  rw [h4, textGiven_unique h1 hpath, textGiven_unique h2 hpatchline, langsGiven_unique h3 hlangs]
  simp only [List.foldl_nil] at k1
  simp only [withStorage, hst, hT, k1, changesFiles]

end

/-! ## Cases -/

namespace C84download

theorem line : LineOf "download" (optHelp :: componentOpts) [] ["patch".toList] ["download".toList, "patch".toList] :=
  LineOf.plain (opts := optHelp :: componentOpts) 0 [] [] ["patch".toList] (by simp) (by simp [PlainWord]) (by rintro - ⟨g, hg, -⟩; simp at hg)

/-- `CDTB_STORAGE=/s cdtb download patch`, on an empty disk -/
example (T0 : ToolLib) (conf : ConfLib) : ∃ d : Disk,
    ({ T0 with download := fun _ cs langs fs =>
        ((shaCfg.commandDownload oneParse (fun _ => shaElem) cs langs (fun _ => shaRun) ⟨fs, fun _ => none⟩).1.fs,
          (shaCfg.commandDownload oneParse (fun _ => shaElem) cs langs (fun _ => shaRun) ⟨fs, fun _ => none⟩).2) } : ToolLib).main conf (some "/s".toList) none
      emptyDisk.fs ["download".toList, "patch".toList] = ⟨d.fs, [], .ok ()⟩ ∧ ElemStored shaCfg demoCdn2 demoCatalog2 .all d shaElem := by
  obtain ⟨d, h, hs⟩ := C84_downloads { T0 with download := fun _ cs langs fs =>
        ((shaCfg.commandDownload oneParse (fun _ => shaElem) cs langs (fun _ => shaRun) ⟨fs, fun _ => none⟩).1.fs,
          (shaCfg.commandDownload oneParse (fun _ => shaElem) cs langs (fun _ => shaRun) ⟨fs, fun _ => none⟩).2) } conf (some "/s".toList) none emptyDisk.fs
    (by unfold commandParsers; exact List.mem_of_getElem? (i := 0) rfl) line (path := none) (patchline := none) (langs := .all)
    (.default (by simp)) (.default (by simp)) (.default (by simp)) (cfg := shaCfg) (client := .null) rfl (parse := oneParse) (src := fun _ => shaElem)
    (ws := fun _ => shaRun) (links := fun _ => none) (fun _ _ => rfl) (w := demoCdn2) (catalog := demoCatalog2) (elems := (· = shaElem)) sha_noCollision sha_good
    (fun e he => by subst he; exact C76_met.2.1) C76_met.2.2
    ⟨by simp [emptyDisk], by simp [emptyDisk], by simp [emptyDisk], by simp [emptyDisk], by simp [emptyDisk], by simp [emptyDisk]⟩
    (fun c hc => by
      rw [List.mem_singleton] at hc
      subst hc
      exact ⟨.inl ⟨_, rfl⟩, fun e h => one_designates h⟩) (by simp) (fun _ => shaRun_perfect)
  exact ⟨d, h, hs "patch".toList (List.mem_singleton.2 rfl) patchElem (.patch (p := ⟨⟨"8.1".toList, .nums [8, 1]⟩, [patchElem]⟩) rfl (List.mem_singleton.2 rfl))⟩

/-- `CDTB_STORAGE=rads:/rads cdtb download patch` -/
example (T0 : ToolLib) (conf : ConfLib) : ∃ fs',
    ({ T0 with download := fun _ cs langs fs => radsCfg.commandDownload oneParse (fun _ => radsGame) cs langs (fun _ => radsWorld) fs } : ToolLib).main conf
      (some "rads:/rads".toList) none C80ex.radsHashes ["download".toList, "patch".toList] = ⟨fs', [], .ok ()⟩ := by
  obtain ⟨fs', h, -⟩ := C84_rads_downloads { T0 with download := fun _ cs langs fs => (radsCfg.commandDownload oneParse (fun _ => radsGame) cs langs
      (fun _ => radsWorld) fs) } conf (some "rads:/rads".toList) none C80ex.radsHashes
    (by unfold commandParsers; exact List.mem_of_getElem? (i := 0) rfl) line (path := none) (patchline := none) (langs := .all)
    (.default (by simp)) (.default (by simp)) (.default (by simp)) (cfg := radsCfg) (by
      rw [C53_path _ _ _ _ "rads:/rads".toList (Or.inr ⟨rfl, rfl⟩)]
      have := (C53_missing_path C80ex.radsHashes conf "rads:/rads".toList (by decide +kernel)).1 "rads".toList "/rads".toList (by decide +kernel) (by decide +kernel)
      unfold storageFromPath
      rw [this]
      rfl)
    (parse := oneParse) (src := fun _ => radsGame) (ws := fun _ => radsWorld) (fun _ _ => rfl) radsOn radsApart C80ex.radsGood radsHashes_clear (rl := .all)
    (Or.inl ⟨rfl, rfl⟩) (fun c hc => by
      rw [List.mem_singleton] at hc
      subst hc
      exact ⟨.inl ⟨_, rfl⟩, fun e _ => radsGame_offered⟩) (fun _ => radsPerfect)
  exact ⟨fs', h⟩

end C84download

end Cdtb
