import Verif.Props.C38
import Verif.Props.C63Runs
/-!
# C38, continued: a fetch succeeds when nothing fails, whatever happened before
-/
namespace Cdtb
set_option autoImplicit false
open Py Spec

/-- Nothing is in the way of the files of releases: parents are not files, files are not directories. -/
structure Spec.ClearReleases (cfg : PCfg) (fs : FS) : Prop where
  dirs : ∀ t, ∀ d ∈ dirPrefixes (dirname (cfg.releaseJson t)), ∀ b, fs d ≠ some (.file b)
  latestDirs : ∀ d ∈ dirPrefixes (dirname cfg.latestPath), ∀ b, fs d ≠ some (.file b)
  jsons : ∀ t, fs (cfg.releaseJson t) ≠ some .dir
  latest : fs cfg.latestPath ≠ some .dir

/-- Files which a fetch writes -/
def ReleaseFile (cfg : PCfg) (q : Str) : Prop := q = cfg.latestPath ∨ ∃ t, q = cfg.releaseJson t

theorem releaseFile_long {cfg : PCfg} {q : Str} (h : ReleaseFile cfg q) : ¬ q <+: cfg.releasePath := by
  intro hp
  have := hp.length_le
  rcases h with rfl | ⟨t, rfl⟩
  · unfold PCfg.latestPath at this
    simp only [List.length_append] at this
    have : "/latest.timestamp".toList.length = 17 := rfl
    omega
  · unfold PCfg.releaseJson PCfg.storageDir at this
    simp only [List.length_append, List.length_cons] at this
    omega

theorem releaseFile_apart {cfg : PCfg} {q : Str} (h : ReleaseFile cfg q) (t : Int) : ¬ q <+: cfg.storageDir t := by
  rcases h with rfl | ⟨u, rfl⟩
  · rintro ⟨r, hr⟩
    unfold PCfg.latestPath PCfg.storageDir at hr
    rw [List.append_assoc, List.append_cancel_left_eq] at hr
    have hr : '/' :: ("latest.timestamp".toList ++ r) = '/' :: showInt t := hr
    rw [List.cons.injEq] at hr
    have : '.' ∈ showInt t := by rw [← hr.2]; exact List.mem_append_left _ (by decide +kernel)
    exact (showInt_no_dot this).1 rfl
  · rintro ⟨r, hr⟩
    unfold PCfg.releaseJson PCfg.storageDir at hr
    rw [List.append_assoc, List.append_assoc, List.append_cancel_left_eq] at hr
    have hr : '/' :: (showInt u ++ ("/release.json".toList ++ r)) = '/' :: showInt t := hr
    rw [List.cons.injEq] at hr
    exact showInt_noslash t (by rw [← hr.2]; exact List.mem_append_right _ (List.mem_append_left _ (by decide +kernel)))

/-- Files of releases are not parents of files of releases. -/
theorem releaseFile_parents {cfg : PCfg} (hpl : cfg.GoodPatchline) {q o : Str} (h : ReleaseFile cfg q) (ho : ReleaseFile cfg o) : q ∉ dirPrefixes (dirname o) := by
  intro hq
  have hp : q <+: dirname o := by
    rcases (mem_dirPrefixes hq).2 with rfl | ⟨r, hr⟩
    · exact List.prefix_refl _
    · exact ⟨_, hr.symm⟩
  rcases ho with rfl | ⟨t, rfl⟩
  · rw [dirname_latest hpl] at hp; exact releaseFile_long h hp
  · rw [dirname_json] at hp; exact releaseFile_apart h t hp

/-- Only files of releases and their parents are created. -/
structure ReleaseTouch (cfg : PCfg) (fs fs' : FS) : Prop where
  file : ∀ q b, fs' q = some (.file b) → (∃ b', fs q = some (.file b')) ∨ ReleaseFile cfg q
  dir : ∀ q, fs' q = some .dir → fs q = some .dir ∨ ∃ o, ReleaseFile cfg o ∧ q ∈ dirPrefixes (dirname o)

theorem ReleaseTouch.refl (cfg : PCfg) (fs : FS) : ReleaseTouch cfg fs fs := ⟨fun _ b h => Or.inl ⟨b, h⟩, fun _ h => Or.inl h⟩

theorem ReleaseTouch.trans {cfg : PCfg} {a b c : FS} (h : ReleaseTouch cfg a b) (h' : ReleaseTouch cfg b c) : ReleaseTouch cfg a c where
  file q x hq := by
    rcases h'.file q x hq with ⟨y, hy⟩ | h1
    · exact h.file q y hy
    · exact Or.inr h1
  dir q hq := by
    rcases h'.dir q hq with h1 | h1
    · exact h.dir q h1
    · exact Or.inr h1

theorem touch_write {cfg : PCfg} (fs : FS) {path : Str} (h : ReleaseFile cfg path) (body : List BodyStep) (f : WriteFaults) :
    ReleaseTouch cfg fs (writeFileOrRemove fs path body f).1 where
  file q b hq := ((grows_write fs path body f).file q b hq).imp id (by rintro ⟨rfl, -⟩; exact h)
  dir q hq := ((grows_write fs path body f).dir q hq).imp id (by rintro ⟨o, rfl, h1⟩; exact ⟨o, h, h1⟩)

theorem touch_partial {cfg : PCfg} (fs : FS) {path : Str} (h : ReleaseFile cfg path) (b : Bytes) :
    ReleaseTouch cfg fs ((fs.makedirs (dirname path) none).1.set path (some (.file b))) where
  file q x hq := by
    by_cases hp : q = path
    · subst hp; exact Or.inr h
    · rw [FS.set_other _ hp] at hq
      rcases makedirs_dirsAdded fs (dirname path) none q with h' | ⟨-, -, h'⟩
      · rw [h'] at hq; exact Or.inl ⟨x, hq⟩
      · rw [h'] at hq; cases hq
  dir q hq := by
    by_cases hp : q = path
    · subst hp; simp at hq
    · rw [FS.set_other _ hp] at hq
      rcases makedirs_dirsAdded fs (dirname path) none q with h' | ⟨h1, -, -⟩
      · rw [h'] at hq; exact Or.inl hq
      · exact Or.inr ⟨path, h, h1⟩

theorem touch_record (cfg : PCfg) (js : JsonLib) (fs : FS) (info : RelData) (env : FetchEnv) : ReleaseTouch cfg fs (cfg.record js fs info env).1 := by
  unfold PCfg.record
  have h1 := touch_write (cfg := cfg) fs (Or.inr ⟨env.time, rfl⟩) [.write (js.dump info)] env.f1
  rcases hw : writeFileOrRemove fs (cfg.releaseJson env.time) [.write (js.dump info)] env.f1 with ⟨fs1, _ | u⟩
  · rw [hw] at h1; exact h1
  · rw [hw] at h1; exact h1.trans (touch_write fs1 (Or.inl rfl) _ env.f2)

theorem touch_crash (cfg : PCfg) (js : JsonLib) (fs : FS) (info : RelData) (time : Int) (c : FetchCrash) : ReleaseTouch cfg fs (cfg.recordCrash js fs info time c) := by
  cases c with
  | first k => exact touch_partial fs (Or.inr ⟨time, rfl⟩) _
  | between => exact touch_write fs (Or.inr ⟨time, rfl⟩) _ _
  | second k => exact (touch_write fs (Or.inr ⟨time, rfl⟩) _ _).trans (touch_partial _ (Or.inl rfl) _)

theorem touch_event (cfg : PCfg) (js : JsonLib) (fs : FS) (ev : FetchEvent) : ReleaseTouch cfg fs (cfg.afterEvent js fs ev) := by
  cases ev with
  | fetch env =>
    simp only [PCfg.afterEvent]
    rcases fetch_cases cfg js fs env with h | ⟨c, g, -, -, -, h⟩
    · rw [h]; exact .refl _ _
    · rw [h]; exact touch_record cfg js fs _ env
  | crash env c =>
    simp only [PCfg.afterEvent]
    split
    · split
      · exact touch_crash cfg js fs _ _ _
      · exact .refl _ _
    · exact .refl _ _

theorem clear_touch {cfg : PCfg} (hpl : cfg.GoodPatchline) {fs fs' : FS} (hc : ClearReleases cfg fs) (h : ReleaseTouch cfg fs fs') : ClearReleases cfg fs' where
  dirs t d hd b hb := by
    rcases h.file d b hb with ⟨b', hb'⟩ | h1
    · exact hc.dirs t d hd b' hb'
    · exact releaseFile_parents hpl h1 (Or.inr ⟨t, rfl⟩) hd
  latestDirs d hd b hb := by
    rcases h.file d b hb with ⟨b', hb'⟩ | h1
    · exact hc.latestDirs d hd b' hb'
    · exact releaseFile_parents hpl h1 (Or.inl rfl) hd
  jsons t hd := by
    rcases h.dir _ hd with h1 | ⟨o, ho, h1⟩
    · exact hc.jsons t h1
    · exact releaseFile_parents hpl (Or.inr ⟨t, rfl⟩) ho h1
  latest hd := by
    rcases h.dir _ hd with h1 | ⟨o, ho, h1⟩
    · exact hc.latest h1
    · exact releaseFile_parents hpl (Or.inl rfl) ho h1

/-- The pointer can be read, if there is one. -/
def PointerRead (cfg : PCfg) (fs : FS) : Prop := ∃ o, cfg.latestTimestamp fs = .ok o

theorem read_same {cfg : PCfg} {fs fs' : FS} (hr : PointerRead cfg fs) (hc : ClearReleases cfg fs') (h : SameOrDir fs fs' cfg.latestPath) : PointerRead cfg fs' := by
  rcases h with h | ⟨-, h⟩
  · obtain ⟨o, ho⟩ := hr
    exact ⟨o, by rw [latest_congr h]; exact ho⟩
  · exact absurd h hc.latest

theorem read_event {cfg : PCfg} (hpl : cfg.GoodPatchline) {js : JsonLib} {fs : FS} (hc : ClearReleases cfg fs) (hr : PointerRead cfg fs) (ev : FetchEvent)
    (hrm : ev.env.f2.remove = false) (hcr : ∀ env k, ev ≠ .crash env (.second k)) : PointerRead cfg (cfg.afterEvent js fs ev) := by
  have hc' := clear_touch hpl hc (touch_event cfg js fs ev)
  cases ev with
  | fetch env =>
    simp only [PCfg.afterEvent, FetchEvent.env] at *
    rcases fetch_cases cfg js fs env with h | ⟨c, g, -, -, -, h⟩
    · rw [h]; exact hr
    · rw [h] at hc' ⊢
      unfold PCfg.record at hc' ⊢
      have h1 := write_frame fs (cfg.releaseJson env.time) [.write (js.dump (releaseInfo c g))] env.f1 (latest_ne_json cfg env.time)
      rcases hw : writeFileOrRemove fs (cfg.releaseJson env.time) [.write (js.dump (releaseInfo c g))] env.f1 with ⟨fs1, _ | u⟩
      · rw [hw] at h1 hc'; exact read_same hr hc' h1
      · rw [hw] at hc'
        simp only at hc' ⊢
        cases hw2 : (writeFileOrRemove fs1 cfg.latestPath [.write (timestampText env.time)] env.f2).2 with
        | ok u =>
          have h2 := C04_success fs1 cfg.latestPath [timestampText env.time] env.f2 hw2
          simp only [List.flatten_cons, List.flatten_nil, List.append_nil, List.map_cons, List.map_nil] at h2
          exact ⟨_, latest_of_text h2⟩
        | error e =>
          have h2 := C04_failure fs1 cfg.latestPath _ env.f2 e hw2 hrm
          refine ⟨none, ?_⟩
          unfold PCfg.latestTimestamp
          rw [if_pos]
          cases hx : (writeFileOrRemove fs1 cfg.latestPath [.write (timestampText env.time)] env.f2).1 cfg.latestPath with
          | none => rfl
          | some n => cases n with
            | file b => exact absurd hx (h2 b)
            | dir => exact absurd hx hc'.latest
  | crash env c =>
    simp only [PCfg.afterEvent] at *
    split
    · rename_i u g hu hg
      rw [hu, hg] at hc'
      simp only at hc' ⊢
      split
      · rename_i hup
        rw [hup] at hc'
        simp only at hc'
        refine read_same hr hc' ?_
        cases c with
        | first k =>
          simp only [PCfg.recordCrash]
          unfold SameOrDir
          rw [FS.set_other _ (latest_ne_json cfg env.time)]
          rcases makedirs_dirsAdded fs (dirname (cfg.releaseJson env.time)) none cfg.latestPath with h' | ⟨-, h1, h2⟩
          · exact Or.inl h'
          · exact Or.inr ⟨h1, h2⟩
        | between => exact write_frame _ _ _ _ (latest_ne_json cfg env.time)
        | second k => exact absurd rfl (hcr env k)
      · exact hr
    · exact hr

theorem read_events {cfg : PCfg} (hpl : cfg.GoodPatchline) {js : JsonLib} (evs : List FetchEvent) {fs : FS} (hc : ClearReleases cfg fs) (hr : PointerRead cfg fs)
    (hrm : ∀ ev ∈ evs, ev.env.f2.remove = false) (hcr : ∀ env k, .crash env (.second k) ∉ evs) :
    ClearReleases cfg (cfg.afterEvents js fs evs) ∧ PointerRead cfg (cfg.afterEvents js fs evs) := by
  induction evs generalizing fs with
  | nil => exact ⟨hc, hr⟩
  | cons ev evs ih =>
    exact ih (clear_touch hpl hc (touch_event cfg js fs ev)) (read_event hpl hc hr ev (hrm ev (by simp)) (fun env k e => hcr env k (by simp [e])))
      (fun e he => hrm e (by simp [he])) (fun env k he => hcr env k (by simp [he]))

/-- **C38, success.** In a storage where nothing is in the way, after any fetches, which may have failed anywhere or been cut by a crash (except within the write of the
pointer), a fetch which gets its URLs and whose writes do not fail succeeds: the latest release is the one of these URLs. -/
theorem C38_succeeds (cfg : PCfg) (js : JsonLib) (hjs : js.Faithful) (hpl : cfg.GoodPatchline) (fs : FS) (hclear : ClearReleases cfg fs)
    (hempty : fs cfg.latestPath = none) (evs : List FetchEvent) (hclock : (evs.map (·.env.time)).Pairwise (· < ·))
    (hrm : ∀ ev ∈ evs, ev.env.f2.remove = false) (hcr : ∀ env k, .crash env (.second k) ∉ evs)
    (env : FetchEnv) (c g : Str) (hc : env.client = .ok c) (hg : env.game = .ok g) (hf1 : env.f1 = {}) (hf2 : env.f2 = {}) :
    ∃ fs' t d, cfg.fetchLatest js (cfg.afterEvents js fs evs) env = (fs', .ok ()) ∧ cfg.latestTimestamp fs' = .ok (some t) ∧
      cfg.releaseData js fs' t = .ok d ∧ d.length = 2 ∧ d.get? "client_patch_url".toList = some c ∧ d.get? "game_patch_url".toList = some g := by
  have hnone : cfg.latestTimestamp fs = .ok none := by unfold PCfg.latestTimestamp; rw [if_pos hempty]
  have hp := C38_pointer cfg js hjs fs evs (fun t ht => by rw [hnone] at ht; cases ht) hclock (fun t ht => by rw [hnone] at ht; cases ht) hrm hcr
  obtain ⟨hcl, o, ho⟩ := read_events (js := js) hpl evs hclear ⟨none, hnone⟩ hrm hcr
  revert hp hcl ho
  generalize cfg.afterEvents js fs evs = fs0
  intro hp hcl ho
  have hrec : ∃ fs', cfg.record js fs0 (releaseInfo c g) env = (fs', .ok ()) := by
    unfold PCfg.record
    have hd1 : dirname (cfg.releaseJson env.time) ≠ [] := by rw [dirname_json]; unfold PCfg.storageDir; simp
    have hd2 : dirname cfg.latestPath ≠ [] := by rw [dirname_latest hpl]; exact releasePath_ne_nil hpl
    have hb1 : basename (cfg.releaseJson env.time) ≠ [] := by
      unfold basename PCfg.releaseJson
      rw [show cfg.storageDir env.time ++ "/release.json".toList = (cfg.storageDir env.time ++ ['/']) ++ "release.json".toList by
        rw [show "/release.json".toList = ['/'] ++ "release.json".toList by decide +kernel, List.append_assoc],
        psplit_dir (Or.inr ⟨_, rfl⟩) (by decide +kernel)]
      simp
    have hb2 : basename cfg.latestPath ≠ [] := by
      unfold basename PCfg.latestPath
      rw [show cfg.releasePath ++ "/latest.timestamp".toList = (cfg.releasePath ++ ['/']) ++ "latest.timestamp".toList by
        rw [show "/latest.timestamp".toList = ['/'] ++ "latest.timestamp".toList by decide +kernel, List.append_assoc],
        psplit_dir (Or.inr ⟨_, rfl⟩) (by decide +kernel)]
      simp
    have h1 := C04_no_fault fs0 (cfg.releaseJson env.time) [js.dump (releaseInfo c g)] hd1 (hcl.dirs env.time) (hcl.jsons env.time) hb1
    have h2 := clear_touch hpl hcl (touch_write fs0 (Or.inr ⟨env.time, rfl⟩) [.write (js.dump (releaseInfo c g))] {})
    simp only [List.map_cons, List.map_nil] at h1
    rw [hf1, hf2]
    rcases hw : writeFileOrRemove fs0 (cfg.releaseJson env.time) [.write (js.dump (releaseInfo c g))] {} with ⟨fs1, r⟩
    rw [hw] at h1 h2
    simp only at h1 h2
    subst h1
    have h3 := C04_no_fault fs1 cfg.latestPath [timestampText env.time] hd2 h2.latestDirs h2.latest hb2
    exact ⟨_, Prod.ext rfl h3⟩
  obtain ⟨fs', hrec⟩ := hrec
  have hfin : cfg.latestTimestamp fs' = .ok (some env.time) ∧ cfg.releaseData js fs' env.time = .ok (releaseInfo c g) := by
    obtain ⟨h1, h2⟩ := record_ok hrec
    exact ⟨latest_of_text h1, by rw [releaseData_of_file h2, hjs]⟩
  have hget : (releaseInfo c g).length = 2 ∧ (releaseInfo c g).get? "client_patch_url".toList = some c ∧ (releaseInfo c g).get? "game_patch_url".toList = some g := by
    refine ⟨rfl, ?_, ?_⟩ <;> simp [releaseInfo, Dict.get?]
  cases o with
  | none =>
    refine ⟨fs', env.time, _, ?_, hfin.1, hfin.2, hget⟩
    unfold PCfg.fetchLatest PCfg.upToDate
    rw [hc, hg, ho]
    exact hrec
  | some t =>
    obtain ⟨d, hd⟩ := hp t ho
    cases he : relDataEq (releaseInfo c g) d with
    | true =>
      refine ⟨fs0, t, d, ?_, ho, hd, relDataEq_urls he⟩
      unfold PCfg.fetchLatest PCfg.upToDate
      rw [hc, hg, ho]
      simp only [bind, Except.bind, hd, pure, Except.pure, he]
    | false =>
      refine ⟨fs', env.time, _, ?_, hfin.1, hfin.2, hget⟩
      unfold PCfg.fetchLatest PCfg.upToDate
      rw [hc, hg, ho]
      simp only [bind, Except.bind, hd, pure, Except.pure, he]
      exact hrec

/-! Non-vacuity: a recorded release, a fetch whose second write fails, a crash in the first write; then a fetch. -/

theorem empty_releases : ClearReleases demoRelCfg (fun _ => none) := ⟨by simp, by simp, by simp, by simp⟩

def demoEvents : List FetchEvent := [.fetch (demoEnv 10 "a".toList "b".toList), .fetch { demoEnv 12 "c".toList "b".toList with f2 := { open_ := some (.os 28) } },
  .crash (demoEnv 15 "c".toList "b".toList) (.first 3)]

example : ∃ fs' t d, demoRelCfg.fetchLatest demoJs (demoRelCfg.afterEvents demoJs (fun _ => none) demoEvents) (demoEnv 16 "c".toList "d".toList) = (fs', .ok ()) ∧
    demoRelCfg.latestTimestamp fs' = .ok (some t) ∧ demoRelCfg.releaseData demoJs fs' t = .ok d ∧ d.length = 2 ∧
    d.get? "client_patch_url".toList = some "c".toList ∧ d.get? "game_patch_url".toList = some "d".toList :=
  C38_succeeds demoRelCfg demoJs demoJs_faithful (by unfold PCfg.GoodPatchline; decide +kernel) (fun _ => none) empty_releases rfl demoEvents (by decide +kernel)
    (by simp [demoEvents, FetchEvent.env, demoEnv]) (by simp [demoEvents]) _ _ _ rfl rfl rfl rfl

end Cdtb
