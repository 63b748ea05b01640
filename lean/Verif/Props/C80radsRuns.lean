import Verif.Props.C80rads
import Verif.Props.C76Runs
import Verif.Props.C63Runs
/-!
# C76 and C80, continued: RADS storages, when nothing fails
-/
namespace Cdtb
set_option autoImplicit false
open Py Spec

/-- A solution version can be downloaded: the site has it, with the languages and the project versions which are used. -/
def Spec.RadsSite.Offers (site : RadsSite) (served : Str → Option Bytes) (langs : RadsLangs) (sv : SolVer) : Prop :=
  ∃ m, site.solution sv.name sv.version.s = some m ∧ KnownLangs m langs ∧ ∀ p v, UsedBy m langs p → m.versionOf p = some v → site.Complete served p v

section
variable {cfg : RadsCfg} {site : RadsSite} {served : Str → Option Bytes} {inflate : Bytes → Res Bytes}

theorem filepathsLoop_succeeds (hon : cfg.On site served inflate) (hap : site.Apart) {w : RadsWorld} (hp : PerfectRads served w) (pvs : List ProjVer)
    (hpvs : ∀ pv ∈ pvs, pv.Plain ∧ site.Complete served pv.name pv.version.s) {fs : FS}
    (hg : GoodRads cfg.base site served cfg.exe fs) (hc : ClearRads cfg.base site served fs) : (cfg.filepathsLoop w fs pvs).2.2 = .ok () := by
  induction pvs generalizing fs with
  | nil => rfl
  | cons pv pvs ih =>
    obtain ⟨hpl, hco⟩ := hpvs pv (by simp)
    obtain ⟨es, hes⟩ := hco.entries
    have h1 := entries_succeeds hon hap hp hg hc hpl hes
    have h2 := (entries_spec hon hp.ok hg hpl).1
    have h3 := grows_entries hon hp.ok fs hpl
    unfold RadsCfg.filepathsLoop
    rcases hd : cfg.entries w fs pv with ⟨fs1, r⟩
    rw [hd] at h1 h2 h3
    simp only at h1 h2 h3
    subst h1
    exact ih (fun p hp => hpvs p (by simp [hp])) (adds_good hg h2) (clear_grows hon.ok hap hc h3)

theorem filepaths_succeeds (hon : cfg.On site served inflate) (hap : site.Apart) {w : RadsWorld} (hp : PerfectRads served w) {fs : FS}
    (hg : GoodRads cfg.base site served cfg.exe fs) (hc : ClearRads cfg.base site served fs) {sv : SolVer} (hsv : sv.Plain) {langs : RadsLangs}
    (ho : site.Offers served langs sv) : (cfg.filepaths w fs sv langs).2.2 = .ok () := by
  obtain ⟨m, hm, hl, hav⟩ := ho
  obtain ⟨pvs, h1⟩ := projects_succeeds hon hap hp hg hc hsv hm hl
  obtain ⟨h2, h3⟩ := projects_spec hon hp.ok hg hsv langs
  have h4 := grows_projects hon hp.ok fs hsv langs
  unfold RadsCfg.filepaths
  rcases hd : cfg.projects w fs sv langs with ⟨fs1, r⟩
  rw [hd] at h1 h2 h3 h4
  simp only at h1 h2 h3 h4
  subst h1
  obtain ⟨m', hm', h5, -⟩ := h3 pvs rfl
  rw [hm] at hm'
  cases hm'
  exact filepathsLoop_succeeds hon hap hp pvs (fun pv hpv => ⟨(h5 pv hpv).1, hav _ _ (h5 pv hpv).2.1 (h5 pv hpv).2.2.1⟩)
    (adds_good hg h2) (clear_grows hon.ok hap hc h4)

theorem radsElemPaths_succeeds (hon : cfg.On site served inflate) (hap : site.Apart) {w : RadsWorld} (hp : PerfectRads served w) {fs : FS}
    (hg : GoodRads cfg.base site served cfg.exe fs) (hc : ClearRads cfg.base site served fs) {sv : SolVer} (hsv : sv.Plain)
    (ho : site.Offers served .all sv) :
    ∃ fs' l, cfg.elemPaths w fs sv = (fs', .ok l) ∧ ClearRads cfg.base site served fs' := by
  have h0 := filepaths_succeeds hon hap hp hg hc hsv ho
  have h1 := grows_filepaths hon hp.ok hg hsv .all
  have h2 := (filepaths_spec hon hp.ok hg hsv .all).2.1
  unfold RadsCfg.elemPaths
  rcases hf : cfg.filepaths w fs sv .all with ⟨fs1, ps, r⟩
  rw [hf] at h0 h1 h2
  simp only at h0 h1 h2
  subst h0
  obtain ⟨xs, h4, -⟩ := pairs_eq hon ps h2
  exact ⟨fs1, xs, by simp only [h4]; rfl, clear_grows hon.ok hap hc h1⟩

theorem downloadSolutions_succeeds (hon : cfg.On site served inflate) (hap : site.Apart) (langs : RadsLangs) (ws : Nat → RadsWorld)
    (hws : ∀ i, PerfectRads served (ws i)) (es : List SolVer) (hes : ∀ sv ∈ es, sv.Plain ∧ site.Offers served langs sv) (i : Nat) {fs : FS}
    (hg : GoodRads cfg.base site served cfg.exe fs) (hc : ClearRads cfg.base site served fs) :
    ∃ fs', forElems (fun i fs sv => cfg.downloadSolution (ws i) fs sv langs) i fs es = (fs', .ok ()) ∧
      Adds (RadsFile cfg.base site served cfg.exe) fs fs' ∧ ClearRads cfg.base site served fs' ∧
      ∀ sv ∈ es, ∀ p, site.Lists sv.name sv.version.s langs p → fs' (storageFspath cfg.base p) = some (.file (site.file p)) := by
  induction es generalizing i fs with
  | nil => exact ⟨fs, rfl, .refl _ _, hc, by simp⟩
  | cons sv es ih =>
    obtain ⟨hpl, m, hm, hl, hav⟩ := hes sv (by simp)
    obtain ⟨fs1, h1, h2⟩ := C63_succeeds hon hap fs hg hc [] (by simp) (ws i) (hws i) sv hpl langs m hm hl hav
    simp only [List.foldl_nil] at h1
    have h3 := (downloadSolution_spec hon (hws i).ok hg hpl langs).1
    have h4 := grows_downloadSolution hon (hws i).ok hg hpl langs
    rw [h1] at h3 h4
    obtain ⟨fs', h5, h6, h7, h8⟩ := ih (fun s hs => hes s (by simp [hs])) (i + 1) (adds_good hg h3) (clear_grows hon.ok hap hc h4)
    refine ⟨fs', ?_, h3.trans h6, h7, ?_⟩
    · simp only [forElems, h1]
      exact h5
    · intro s hs p hp
      rcases List.mem_cons.1 hs with rfl | hs
      · exact h6.1 _ _ (h2 p hp)
      · exact h8 s hs p hp

/-- **C76, RADS, success.** After any operations, whether they failed or not: when nothing fails, and the site has what is asked, the command `download` succeeds,
without option or with `--no-lang`, and the files are in the storage with their content. -/
theorem C76_rads_succeeds (hon : cfg.On site served inflate) (hap : site.Apart) (fs : FS) (hg : GoodRads cfg.base site served cfg.exe fs)
    (hc : ClearRads cfg.base site served fs) (ops : List RadsOp) (hops : ∀ op ∈ ops, op.Legit served) (parse : Str → Res Component) (src : Elem → SolVer)
    (components : List Str) (langs : LangArg) (rl : RadsLangs) (hl : langs = .all ∧ rl = .all ∨ langs = .noLang ∧ rl = .none_)
    (hcs : ∀ c ∈ components, ((∃ p, parse c = .ok (.patch p)) ∨ ∃ e, parse c = .ok (.element e)) ∧
      ∀ e, ArgDesignates parse c e → (src e).Plain ∧ site.Offers served rl (src e))
    (ws : Nat → RadsWorld) (hws : ∀ i, PerfectRads served (ws i)) :
    ∃ fs', cfg.commandDownload parse src components langs ws (ops.foldl (RadsOp.run cfg) fs) = (fs', .ok ()) ∧
      ∀ c ∈ components, ∀ e, ArgDesignates parse c e → ∀ p, site.Lists (src e).name (src e).version.s rl p →
        fs' (storageFspath cfg.base p) = some (.file (site.file p)) := by
  have harg : ∀ w fs sv, cfg.argDownload langs w fs sv = cfg.downloadSolution w fs sv rl := by
    intro w fs sv
    rcases hl with ⟨rfl, rfl⟩ | ⟨rfl, rfl⟩ <;> rfl
  obtain ⟨es, hp, hes⟩ := parseComponentArgs_succeeds (fun c h => (hcs c h).1)
  obtain ⟨fs', h1, -, -, h2⟩ := downloadSolutions_succeeds hon hap rl ws hws (es.map src) (by
    intro sv hsv
    obtain ⟨e, he, rfl⟩ := List.mem_map.1 hsv
    obtain ⟨c, hc, hd⟩ := hes e he
    exact (hcs c hc).2 e hd) 0 (C63_history hon fs hg ops hops).2 (clear_grows hon.ok hap hc (grows_ops hon ops hops hg))
  refine ⟨fs', ?_, fun c hc e he p hpl => h2 (src e) (List.mem_map.2 ⟨e, parseComponentArgs_mem hp c hc e he, rfl⟩) p hpl⟩
  unfold RadsCfg.commandDownload
  rw [hp]
  simp only [harg]
  exact h1

theorem radsAddElems_succeeds (hon : cfg.On site served inflate) (hap : site.Apart) (cx : Codecs) (dir : Str) (ext : Nat → Option Str) {w : RadsWorld}
    (hp : PerfectRads served w) (ideal : FS) : ∀ (es : List SolVer) (fs : FS) (cache : Dict Nat (Option Str)) (x : Exporter), RightCache ext cache →
      (∀ sv ∈ es, sv.Plain ∧ site.Offers served .all sv) → GoodRads cfg.base site served cfg.exe fs → ClearRads cfg.base site served fs →
      SiteFiles cfg.base site es fs → SiteFiles cfg.base site es ideal →
      (∀ fs', Adds (RadsFile cfg.base site served cfg.exe) fs fs' → SameHashFiles dir fs' ideal) →
      (∀ x, RadsPair cfg.base site es x → IsWadFile x.1 → ReadableWad cx dir ideal ext x.1) →
      ∃ fs' c raw, cfg.addElems cx dir w fs cache x es = (fs', .ok (c, raw)) ∧ RightCache ext c
  | [], fs, cache, x, hca, _, _, _, _, _, _, _ => ⟨fs, cache, x, rfl, hca⟩
  | sv :: es, fs, cache, x, hca, hes, hg, hc, hs, hi, hh, hr => by
    obtain ⟨hpl, hof⟩ := hes sv (by simp)
    obtain ⟨fs1, l, h0, hc1⟩ := radsElemPaths_succeeds hon hap hp hg hc hpl hof
    obtain ⟨h1, h2⟩ := radsElemPaths_spec hon hp.ok hg hpl h0
    have hag : Agrees dir fs1 ideal l := by
      refine ⟨hh fs1 h1, fun y hy => ?_⟩
      obtain ⟨s, hs', a, b, d, -, -, hl, rfl⟩ := (h2 y).1 hy
      rw [List.mem_singleton] at hs'
      subst hs'
      rw [h1.1 _ _ (hs s (by simp) _ hl), hi s (by simp) _ hl]
    obtain ⟨c, h3, h4⟩ := addPaths_spec (cx := cx) (dir := dir) (fs := ideal) (ext := ext) l cache x hca
      (fun y hy => hr y (radsPair_cons.2 (Or.inl ((h2 y).1 hy))))
    rw [← addPaths_congr cx l cache x hag] at h3
    obtain ⟨fs', c', raw, h5, h6⟩ := radsAddElems_succeeds hon hap cx dir ext hp ideal es fs1 c _ h4 (fun s hs => hes s (by simp [hs])) (adds_good hg h1) hc1
      (siteFiles_adds (fun s hs' => hs s (by simp [hs'])) h1) (fun s hs' => hi s (by simp [hs'])) (fun fs2 h => hh fs2 (h1.trans h))
      (fun y hy => hr y (radsPair_cons.2 (Or.inr hy)))
    exact ⟨fs', c', raw, by unfold RadsCfg.addElems; rw [h0]; simp only; rw [h3]; exact h5, h6⟩

/-- **C80, RADS, success.** After any operations, whether they failed or not: when nothing fails, the site has the elements of the patch and its archives are readable,
the files of the patch are collected, and what is to be exported is what the site has. -/
theorem C80_rads_succeeds (hon : cfg.On site served inflate) (hap : site.Apart) (fs : FS) (hg : GoodRads cfg.base site served cfg.exe fs)
    (hcl : ClearRads cfg.base site served fs) (ops : List RadsOp) (hops : ∀ op ∈ ops, op.Legit served)
    (cx : Codecs) (dir : Str) (ext : Nat → Option Str) (cache : Dict Nat (Option Str)) (hc : RightCache ext cache)
    (ws : Nat → RadsWorld) (hws : ∀ i, PerfectRads served (ws i)) (w : RadsWorld) (hw : PerfectRads served w) (es : List SolVer)
    (hes : ∀ sv ∈ es, sv.Plain ∧ site.Offers served .all sv) (ideal : FS) (hi : SiteFiles cfg.base site es ideal)
    (hgame : ∃ b, fs (pjoin dir "hashes.game.txt".toList) = some (.file b)) (hlcu : ∃ b, fs (pjoin dir "hashes.lcu.txt".toList) = some (.file b))
    (hsame : SameHashFiles dir fs ideal)
    (hr : ∀ x, RadsPair cfg.base site es x → IsWadFile x.1 → ReadableWad cx dir ideal ext x.1) (v : Version) (hv : v.s = "main".toList ∨ ∃ t, v.t = .nums t) :
    ∃ fs' c raw l e, cfg.addPatchFiles cx dir cache emptyExporter ws w (ops.foldl (RadsOp.run cfg) fs) es = (fs', .ok (c, raw)) ∧ RightCache ext c ∧
      (∀ x, x ∈ l ↔ RadsPair cfg.base site es x) ∧ transform raw v = .ok e ∧
      ∀ p b, Spec.Exports e (diskSources cx dir fs') p b ↔ ExportedFile cx dir ideal l v p b := by
  obtain ⟨ha, hg1⟩ := C63_history hon fs hg ops hops
  obtain ⟨bg, hbg⟩ := hgame
  obtain ⟨bl, hbl⟩ := hlcu
  have hgame1 := ha.1 _ _ hbg
  have hlcu1 := ha.1 _ _ hbl
  have hsame1 : SameHashFiles dir (ops.foldl (RadsOp.run cfg) fs) ideal := ⟨by rw [hgame1, ← hsame.1, hbg], by rw [hlcu1, ← hsame.2, hbl]⟩
  obtain ⟨fs1, h1, h2, h3, h4⟩ := downloadSolutions_succeeds hon hap .all ws hws es hes 0 hg1 (clear_grows hon.ok hap hcl (grows_ops hon ops hops hg))
  obtain ⟨fs', c, raw, h5, h6⟩ := radsAddElems_succeeds hon hap cx dir ext hw ideal es fs1 cache emptyExporter hc hes (adds_good hg1 h2) h3 (fun sv hsv => h4 sv hsv) hi
    (fun fs2 h => ⟨by rw [h.1 _ _ (h2.1 _ _ hgame1), ← hsame1.1, hgame1], by rw [h.1 _ _ (h2.1 _ _ hlcu1), ← hsame1.2, hlcu1]⟩) hr
  have h7 : cfg.addPatchFiles cx dir cache emptyExporter ws w (ops.foldl (RadsOp.run cfg) fs) es = (fs', .ok (c, raw)) := by
    unfold RadsCfg.addPatchFiles
    rw [h1]
    exact h5
  obtain ⟨l, e, h8⟩ := C80_rads hon cx dir ext cache hc ws (fun i => (hws i).ok) w hw.ok es (fun sv h => (hes sv h).1) _ fs' hg1 ideal hi ⟨_, hgame1⟩ ⟨_, hlcu1⟩ hsame1
    hr v hv c raw h7
  exact ⟨fs', c, raw, l, e, h7, h6, h8⟩

end

/-! ### Cases that meet the hypotheses: the game of the site of C63, after a download which failed -/

theorem radsGame_offered : radsGame.Plain ∧ radsSite.Offers radsServed .all radsGame := by
  have hpl : radsGame.Plain := ⟨by decide +kernel, by decide +kernel⟩
  obtain ⟨m, hm⟩ : ∃ m, radsSite.solution radsGame.name radsGame.version.s = some m := Option.isSome_iff_exists.1 (by decide +kernel)
  refine ⟨hpl, m, hm, trivial, ?_⟩
  intro p v _ hv
  refine radsComplete ?_
  have key : ∀ m ∈ radsManifests, m.name = radsGame.name → m.version = radsGame.version.s → ∀ x ∈ m.projects, (radsSite.entries x.1 x.2.1).isSome = true := by decide +kernel
  obtain ⟨h4, h6, h5⟩ := radsSite_manifests hm
  obtain ⟨x, h1, h2⟩ := Option.map_eq_some_iff.1 hv
  have h3 := List.find?_some h1
  simp only [decide_eq_true_eq] at h3
  have := key m h4 h6 h5 x (List.mem_reverse.1 (List.mem_of_find?_eq_some h1))
  rw [h3, h2] at this
  exact Option.isSome_iff_exists.1 this

theorem radsHashes_clear : ClearRads radsCfg.base radsSite radsServed C80ex.radsHashes := by
  have hh : ∀ p, radsSite.Writes radsServed p → (storageFspath radsCfg.base p).head? = some '/' := fun p hp => by rw [writes_root radsOn.ok _ hp]; rfl
  have key : ∀ p, radsSite.Writes radsServed p → C80ex.radsHashes (storageFspath radsCfg.base p) = none := fun p hp => C80ex.radsHashes_root (hh p hp)
  refine ⟨?_, fun p hp => by rw [key p hp]; simp, fun p hp b h => by rw [key p hp] at h; cases h⟩
  intro p hp d hd b hb
  obtain ⟨r, hr⟩ := dirPrefixes_dirname_prefix hd
  have h1 := hh p hp
  have h2 := (mem_dirPrefixes hd).1
  rw [← hr] at h1
  rw [C80ex.radsHashes_root (p := d) (by cases d with | nil => exact absurd rfl h2 | cons a d => exact h1)] at hb
  cases hb

/-- A server which does not answer -/
def radsDown : RadsWorld := { radsWorld with get := fun _ => .error (.os 104) }

theorem radsDown_ok : RadsWorldOk radsServed radsDown :=
  { radsWorldOk with get := fun p b h => (by cases h), missing := fun p h => (by cases h) }

theorem failing_op : ∀ op ∈ [RadsOp.download radsDown radsGame .all], op.Legit radsServed := by
  intro op hop
  rw [List.mem_singleton] at hop
  subst hop
  exact ⟨radsDown_ok, radsGame_offered.1⟩

example : (radsCfg.downloadSolution radsDown C80ex.radsHashes radsGame .all).2 ≠ .ok () := by decide +kernel

/-- The command, on one patch -/
example : ∃ fs', radsCfg.commandDownload oneParse (fun _ => radsGame) ["patch".toList] .all (fun _ => radsWorld)
      ([RadsOp.download radsDown radsGame .all].foldl (RadsOp.run radsCfg) C80ex.radsHashes) = (fs', .ok ()) ∧
    fs' "/rads/projects/lol_game_client/releases/0.0.1.5/files/League of Legends.exe".toList ≠ none := by
  obtain ⟨fs', h1, -⟩ := C76_rads_succeeds radsOn radsApart C80ex.radsHashes C80ex.radsGood radsHashes_clear [RadsOp.download radsDown radsGame .all] failing_op oneParse
    (fun _ => radsGame) ["patch".toList] .all .all (Or.inl ⟨rfl, rfl⟩) (fun c hc => by
      rw [List.mem_singleton] at hc
      subst hc
      exact ⟨.inl ⟨_, rfl⟩, fun e _ => radsGame_offered⟩) (fun _ => radsWorld) (fun _ => radsPerfect)
  refine ⟨fs', h1, ?_⟩
  have h2 := congrArg Prod.fst h1
  simp only at h2
  rw [← h2]
  decide +kernel

/-- The collection -/
example : ∃ fs' c raw l e, radsCfg.addPatchFiles C62ex.cx "h".toList [] emptyExporter (fun _ => radsWorld) radsWorld
      ([RadsOp.download radsDown radsGame .all].foldl (RadsOp.run radsCfg) C80ex.radsHashes) [radsGame] = (fs', .ok (c, raw)) ∧
    (∀ x, x ∈ l ↔ RadsPair radsCfg.base radsSite [radsGame] x) ∧ transform raw C66ex.v = .ok e ∧
    ∀ p b, Spec.Exports e (diskSources C62ex.cx "h".toList fs') p b ↔ ExportedFile C62ex.cx "h".toList C80ex.radsIdeal l C66ex.v p b := by
  obtain ⟨fs', c, raw, l, e, h1, -, h2⟩ := C80_rads_succeeds radsOn radsApart C80ex.radsHashes C80ex.radsGood radsHashes_clear
    [RadsOp.download radsDown radsGame .all] failing_op C62ex.cx "h".toList C66ex.ext [] (fun h e he => by cases he) (fun _ => radsWorld) (fun _ => radsPerfect)
    radsWorld radsPerfect [radsGame] (fun sv hsv => by rw [List.mem_singleton] at hsv; subst hsv; exact radsGame_offered) C80ex.radsIdeal C80ex.radsSiteFiles
    ⟨[], by decide +kernel⟩ ⟨[], by decide +kernel⟩ C80ex.radsHashFiles C80ex.radsReadable C66ex.v (Or.inr ⟨_, rfl⟩)
  exact ⟨fs', c, raw, l, e, h1, h2⟩

end Cdtb
