import Verif.Model.Releases
import Verif.Spec.Releases
import Verif.Lemmas.Patcher
/-!
# C38  Fetching updates records each distinct release once
-/
namespace Cdtb
set_option autoImplicit false
open Py Spec

theorem latest_ne_json (cfg : PCfg) (v : Int) : cfg.latestPath ≠ cfg.releaseJson v := by
  intro h
  unfold PCfg.latestPath PCfg.releaseJson PCfg.storageDir at h
  rw [List.append_assoc, List.append_cancel_left_eq] at h
  have h : '/' :: "latest.timestamp".toList = '/' :: (showInt v ++ '/' :: "release.json".toList) := h
  have : '/' ∈ "latest.timestamp".toList := by rw [(List.cons.inj h).2]; simp
  exact absurd this (by decide)

theorem releaseJson_inj {cfg : PCfg} {v w : Int} (h : cfg.releaseJson v = cfg.releaseJson w) : v = w := by
  unfold PCfg.releaseJson PCfg.storageDir at h
  rw [List.append_cancel_right_eq, List.append_cancel_left_eq, List.cons.injEq] at h
  exact showInt_inj h.2

theorem strip_newline {s : Str} (h : ∀ c ∈ s, isSpace c = false) : strip (s ++ ['\n']) = s := by
  unfold strip
  cases s with
  | nil => decide
  | cons c r =>
    have hc := h c (by simp)
    have e1 : List.dropWhile isSpace (c :: r ++ ['\n']) = c :: r ++ ['\n'] := by
      rw [List.cons_append, List.dropWhile_cons, if_neg (by simp [hc])]
    rw [e1, List.reverse_append]
    have e2 : isSpace '\n' = true := by decide
    simp only [List.reverse_singleton, List.singleton_append]
    rw [List.dropWhile_cons, if_pos e2]
    rw [dropWhile_eq_self (fun x hx => h x (List.mem_reverse.1 hx)), List.reverse_reverse]

theorem latest_of_text {cfg : PCfg} {fs : FS} {t : Int} (h : fs cfg.latestPath = some (.file (timestampText t))) :
    cfg.latestTimestamp fs = .ok (some t) := by
  unfold PCfg.latestTimestamp
  rw [if_neg (by rw [h]; simp)]
  unfold FS.readFile
  rw [h]
  simp only [timestampText]
  show (utf8 (utf8Bytes (showInt t ++ ['\n'])) >>= fun s => match int10 (strip s) with
    | some n => pure (some n)
    | none => throw Err.value) = _
  rw [utf8_utf8Bytes]
  show (match int10 (strip (showInt t ++ ['\n'])) with
    | some n => pure (some n)
    | none => throw Err.value) = (Except.ok (some t) : Res (Option Int))
  rw [strip_newline (fun c hc => (showInt_no_dot hc).2), int10_showInt]
  rfl

theorem releaseData_of_file {cfg : PCfg} {js : JsonLib} {fs : FS} {t : Int} {b : Bytes} (h : fs (cfg.releaseJson t) = some (.file b)) :
    cfg.releaseData js fs t = js.load b := by
  unfold PCfg.releaseData FS.readFile
  rw [h]; rfl

theorem relDataEq_refl (c g : Str) : relDataEq (releaseInfo c g) (releaseInfo c g) = true := by
  simp [relDataEq, releaseInfo, Dict.get?]

theorem relDataEq_info {c g c' g' : Str} (h : relDataEq (releaseInfo c g) (releaseInfo c' g') = true) : c' = c ∧ g' = g := by
  simpa [relDataEq, releaseInfo, Dict.get?] using h

/-- Any equal dict gives the same URLs. -/
theorem relDataEq_urls {c g : Str} {d : RelData} (h : relDataEq (releaseInfo c g) d = true) :
    d.length = 2 ∧ d.get? "client_patch_url".toList = some c ∧ d.get? "game_patch_url".toList = some g := by
  unfold relDataEq at h
  rw [Bool.and_eq_true] at h
  have h2 := List.all_eq_true.1 h.2
  exact ⟨(of_decide_eq_true h.1).symm, of_decide_eq_true (h2 _ (List.mem_cons_self ..)),
    of_decide_eq_true (h2 _ (List.mem_cons_of_mem _ (List.mem_cons_self ..)))⟩

/-- The text written by `json.dump` is read back by `json.load`. -/
def JsonLib.Faithful (js : JsonLib) : Prop := ∀ c g, js.load (js.dump (releaseInfo c g)) = .ok (releaseInfo c g)

/-- The last recorded release of a storage and its URLs -/
def Latest (cfg : PCfg) (js : JsonLib) (fs : FS) (t : Int) (c g : Str) : Prop :=
  cfg.latestTimestamp fs = .ok (some t) ∧ cfg.releaseData js fs t = .ok (releaseInfo c g)

/-- A fetch whose URLs are those of the last recorded release changes nothing. -/
theorem C38_same (cfg : PCfg) (js : JsonLib) (fs : FS) (env : FetchEnv) (t : Int) (c g : Str) (hl : Latest cfg js fs t c g)
    (hc : env.client = .ok c) (hg : env.game = .ok g) : cfg.fetchLatest js fs env = (fs, .ok ()) := by
  unfold PCfg.fetchLatest PCfg.upToDate
  rw [hc, hg, hl.1]
  simp only [bind, Except.bind, hl.2]
  simp only [pure, Except.pure, relDataEq_refl]

/-- A fetch which cannot get one of the URLs, or cannot read the last release, changes nothing. -/
theorem C38_no_urls (cfg : PCfg) (js : JsonLib) (fs : FS) (env : FetchEnv)
    (h : (∃ e, env.client = .error e) ∨ (∃ e, env.game = .error e) ∨ (∃ e, cfg.latestTimestamp fs = .error e) ∨
      (∃ t e, cfg.latestTimestamp fs = .ok (some t) ∧ cfg.releaseData js fs t = .error e)) :
    (cfg.fetchLatest js fs env).1 = fs ∧ ∃ e, (cfg.fetchLatest js fs env).2 = .error e := by
  unfold PCfg.fetchLatest
  cases hc : env.client with
  | error e => exact ⟨rfl, e, rfl⟩
  | ok c =>
    cases hg : env.game with
    | error e => exact ⟨rfl, e, rfl⟩
    | ok g =>
      simp only
      have : ∃ e, cfg.upToDate js fs (releaseInfo c g) = .error e := by
        unfold PCfg.upToDate
        rcases h with ⟨e, h⟩ | ⟨e, h⟩ | ⟨e, h⟩ | ⟨t, e, h, h'⟩
        · rw [hc] at h; simp at h
        · rw [hg] at h; simp at h
        · rw [h]; exact ⟨e, rfl⟩
        · rw [h]; simp only [bind, Except.bind, h']; exact ⟨e, rfl⟩
      obtain ⟨e, he⟩ := this
      rw [he]
      exact ⟨rfl, e, rfl⟩

/-! ### The writes -/

theorem write_frame (fs : FS) (path : Str) (body) (f) {q : Str} (hq : q ≠ path) :
    SameOrDir fs (writeFileOrRemove fs path body f).1 q := by
  rcases writeFileOrRemove_touches fs path body f q hq with h | ⟨_, h2, h3⟩
  · exact Or.inl h
  · exact Or.inr ⟨h2, h3⟩

theorem record_ok {cfg : PCfg} {js : JsonLib} {fs fs' : FS} {info : RelData} {env : FetchEnv}
    (h : cfg.record js fs info env = (fs', .ok ())) :
    fs' cfg.latestPath = some (.file (timestampText env.time)) ∧ fs' (cfg.releaseJson env.time) = some (.file (js.dump info)) := by
  unfold PCfg.record at h
  rcases h1 : writeFileOrRemove fs (cfg.releaseJson env.time) [.write (js.dump info)] env.f1 with ⟨fs1, r | r⟩
  · rw [h1] at h; simp at h
  · rw [h1] at h
    simp only at h
    have e1 := congrArg Prod.snd h1
    have e2 := congrArg Prod.snd h
    simp only at e1 e2
    have k1 := writeFileOrRemove_ok_fs e1
    have k2 := writeFileOrRemove_ok_fs e2
    rw [writeFileOrRemove_result] at e1 e2
    have w1 := (writeTry_ok e1).1
    have w2 := (writeTry_ok e2).1
    rw [← k1, h1] at w1
    rw [← k2, h] at w2
    refine ⟨by simpa [bodyBytes] using w2, ?_⟩
    have := write_frame fs1 cfg.latestPath [.write (timestampText env.time)] env.f2 (latest_ne_json cfg env.time).symm
    rw [h] at this
    exact (this.file _).2 (by simpa [bodyBytes] using w1)

theorem record_frame (cfg : PCfg) (js : JsonLib) (fs : FS) (info : RelData) (env : FetchEnv) {q : Str}
    (h1 : q ≠ cfg.latestPath) (h2 : q ≠ cfg.releaseJson env.time) : SameOrDir fs (cfg.record js fs info env).1 q := by
  unfold PCfg.record
  have a := write_frame fs (cfg.releaseJson env.time) [.write (js.dump info)] env.f1 h2
  rcases hw : writeFileOrRemove fs (cfg.releaseJson env.time) [.write (js.dump info)] env.f1 with ⟨fs1, r | r⟩
  · rw [hw] at a; exact a
  · rw [hw] at a
    exact a.trans (write_frame fs1 cfg.latestPath [.write (timestampText env.time)] env.f2 h1)

/-- Effect of a fetch: nothing or the writes. -/
theorem fetch_cases (cfg : PCfg) (js : JsonLib) (fs : FS) (env : FetchEnv) :
    (cfg.fetchLatest js fs env).1 = fs ∨ ∃ c g, env.client = .ok c ∧ env.game = .ok g ∧
      cfg.upToDate js fs (releaseInfo c g) = .ok false ∧ cfg.fetchLatest js fs env = cfg.record js fs (releaseInfo c g) env := by
  unfold PCfg.fetchLatest
  cases hc : env.client with
  | error e => exact Or.inl rfl
  | ok c =>
    cases hg : env.game with
    | error e => exact Or.inl rfl
    | ok g =>
      simp only
      cases hu : cfg.upToDate js fs (releaseInfo c g) with
      | error e => exact Or.inl rfl
      | ok b => cases b with
        | true => exact Or.inl rfl
        | false => exact Or.inr ⟨c, g, rfl, rfl, hu, rfl⟩

/-- A successful fetch of other URLs than those of the last recorded release (if any): a release at the time of
the clock is recorded with exactly these URLs, it becomes the latest, and no other file is touched. -/
theorem C38_new (cfg : PCfg) (js : JsonLib) (hjs : js.Faithful) (fs fs' : FS) (env : FetchEnv) (c g : Str)
    (hc : env.client = .ok c) (hg : env.game = .ok g)
    (hnew : ∀ t d, cfg.latestTimestamp fs = .ok (some t) → cfg.releaseData js fs t = .ok d →
      ¬ (d.length = 2 ∧ d.get? "client_patch_url".toList = some c ∧ d.get? "game_patch_url".toList = some g))
    (h : cfg.fetchLatest js fs env = (fs', .ok ())) :
    Latest cfg js fs' env.time c g ∧ relElement (releaseInfo c g) "client".toList = (if c = [] then none else some c) ∧
    relElement (releaseInfo c g) "game".toList = (if g = [] then none else some g) ∧
    ∀ q b, q ≠ cfg.latestPath → q ≠ cfg.releaseJson env.time → (fs' q = some (.file b) ↔ fs q = some (.file b)) := by
  have hrec : cfg.record js fs (releaseInfo c g) env = (fs', .ok ()) := by
    unfold PCfg.fetchLatest at h
    rw [hc, hg] at h
    simp only at h
    cases hu : cfg.upToDate js fs (releaseInfo c g) with
    | error e => rw [hu] at h; simp at h
    | ok b => cases b with
      | false => rw [hu] at h; exact h
      | true =>
        exfalso
        unfold PCfg.upToDate at hu
        cases hl : cfg.latestTimestamp fs with
        | error e => rw [hl] at hu; simp [bind, Except.bind] at hu
        | ok o =>
          cases o with
          | none => rw [hl] at hu; simp [bind, Except.bind, pure, Except.pure] at hu
          | some t =>
            rw [hl] at hu
            simp only [bind, Except.bind] at hu
            cases hd : cfg.releaseData js fs t with
            | error e => rw [hd] at hu; simp at hu
            | ok d =>
              rw [hd] at hu
              simp only [pure, Except.pure, Except.ok.injEq] at hu
              exact hnew t d hl hd (relDataEq_urls hu)
  obtain ⟨h1, h2⟩ := record_ok hrec
  refine ⟨⟨latest_of_text h1, ?_⟩, ?_, ?_, ?_⟩
  · rw [releaseData_of_file h2, hjs]
  · cases c <;> simp [relElement, releaseInfo, Dict.get?]
  · cases g <;> simp [relElement, releaseInfo, Dict.get?]
  · intro q b hq1 hq2
    have := record_frame cfg js fs (releaseInfo c g) env hq1 hq2
    rw [hrec] at this
    exact this.file b

/-! ### Interruptions -/

/-- The latest pointer, when there is one, designates a recorded release. -/
def PointerOk (cfg : PCfg) (js : JsonLib) (fs : FS) : Prop :=
  ∀ t, cfg.latestTimestamp fs = .ok (some t) → ∃ d, cfg.releaseData js fs t = .ok d

def FetchEvent.env : FetchEvent → FetchEnv
  | .fetch env => env
  | .crash env _ => env

theorem latest_congr {cfg : PCfg} {fs fs' : FS} (h : fs' cfg.latestPath = fs cfg.latestPath) : cfg.latestTimestamp fs' = cfg.latestTimestamp fs := by
  unfold PCfg.latestTimestamp FS.readFile
  rw [h]

theorem latest_frame {cfg : PCfg} {fs fs' : FS} {t : Int} (h : SameOrDir fs fs' cfg.latestPath)
    (ht : cfg.latestTimestamp fs' = .ok (some t)) : cfg.latestTimestamp fs = .ok (some t) := by
  rcases h with h | ⟨_, h⟩
  · rw [← latest_congr h]; exact ht
  · unfold PCfg.latestTimestamp FS.readFile at ht
    rw [h] at ht
    simp [bind, Except.bind] at ht

theorem data_frame {cfg : PCfg} {js : JsonLib} {fs fs' : FS} {t : Int} {d : RelData} (h : SameOrDir fs fs' (cfg.releaseJson t))
    (hd : cfg.releaseData js fs t = .ok d) : cfg.releaseData js fs' t = .ok d := by
  cases hf : fs (cfg.releaseJson t) with
  | none => unfold PCfg.releaseData FS.readFile at hd; rw [hf] at hd; simp [bind, Except.bind] at hd
  | some n =>
    cases n with
    | dir => unfold PCfg.releaseData FS.readFile at hd; rw [hf] at hd; simp [bind, Except.bind] at hd
    | file b =>
      rw [releaseData_of_file ((h.file b).2 hf)]
      rwa [releaseData_of_file hf] at hd

/-- A first write does not affect the pointer nor the other releases. -/
theorem pointer_first {cfg : PCfg} {js : JsonLib} {fs fs1 : FS} {time : Int} (hp : PointerOk cfg js fs)
    (htime : ∀ t, cfg.latestTimestamp fs = .ok (some t) → t ≠ time)
    (hframe : ∀ q, q ≠ cfg.releaseJson time → SameOrDir fs fs1 q) :
    ∀ t, cfg.latestTimestamp fs1 = .ok (some t) → cfg.latestTimestamp fs = .ok (some t) ∧ ∃ d, cfg.releaseData js fs1 t = .ok d := by
  intro t ht
  have h1 := latest_frame (hframe _ (latest_ne_json cfg time)) ht
  obtain ⟨d, hd⟩ := hp t h1
  exact ⟨h1, d, data_frame (hframe _ (fun e => htime t h1 (releaseJson_inj e))) hd⟩

theorem pointer_event {cfg : PCfg} {js : JsonLib} (hjs : js.Faithful) {fs : FS} (ev : FetchEvent) (hp : PointerOk cfg js fs)
    (htime : ∀ t, cfg.latestTimestamp fs = .ok (some t) → t ≠ ev.env.time)
    (hrm : ev.env.f2.remove = false) (hcr : ∀ env k, ev ≠ .crash env (.second k)) :
    PointerOk cfg js (cfg.afterEvent js fs ev) ∧
    ∀ t, cfg.latestTimestamp (cfg.afterEvent js fs ev) = .ok (some t) → t = ev.env.time ∨ cfg.latestTimestamp fs = .ok (some t) := by
  have hsame : PointerOk cfg js fs ∧ ∀ t, cfg.latestTimestamp fs = .ok (some t) → t = ev.env.time ∨ cfg.latestTimestamp fs = .ok (some t) :=
    ⟨hp, fun t h => Or.inr h⟩
  cases ev with
  | fetch env =>
    simp only [PCfg.afterEvent, FetchEvent.env] at *
    rcases fetch_cases cfg js fs env with h | ⟨c, g, _, _, _, h⟩
    · rw [h]; exact hsame
    · rw [h]
      unfold PCfg.record
      have hframe : ∀ q, q ≠ cfg.releaseJson env.time → SameOrDir fs (writeFileOrRemove fs (cfg.releaseJson env.time) [.write (js.dump (releaseInfo c g))] env.f1).1 q :=
        fun q hq => write_frame _ _ _ _ hq
      rcases hw : writeFileOrRemove fs (cfg.releaseJson env.time) [.write (js.dump (releaseInfo c g))] env.f1 with ⟨fs1, e | u⟩
      · rw [hw] at hframe
        have := pointer_first (js := js) hp htime hframe
        exact ⟨fun t ht => (this t ht).2, fun t ht => Or.inr (this t ht).1⟩
      · simp only
        cases hw2 : (writeFileOrRemove fs1 cfg.latestPath [.write (timestampText env.time)] env.f2).2 with
        | ok u =>
          have hrec : cfg.record js fs (releaseInfo c g) env = ((writeFileOrRemove fs1 cfg.latestPath [.write (timestampText env.time)] env.f2).1, .ok ()) := by
            unfold PCfg.record; rw [hw]; simp only; rw [← hw2]
          obtain ⟨h1, h2⟩ := record_ok hrec
          have hl := latest_of_text h1
          constructor
          · intro t ht
            rw [hl] at ht
            cases ht
            exact ⟨_, by rw [releaseData_of_file h2]; exact hjs c g⟩
          · intro t ht
            rw [hl] at ht
            cases ht
            exact Or.inl rfl
        | error e =>
          have hfs := writeFileOrRemove_error_fs hw2
          rw [hrm] at hfs
          have hnf := remove_not_file (writeTry fs1 cfg.latestPath [.write (timestampText env.time)] env.f2).1 cfg.latestPath
          rw [← hfs] at hnf
          have : ∀ t, cfg.latestTimestamp (writeFileOrRemove fs1 cfg.latestPath [.write (timestampText env.time)] env.f2).1 ≠ .ok (some t) := by
            intro t ht
            unfold PCfg.latestTimestamp FS.readFile at ht
            rcases hx : (writeFileOrRemove fs1 cfg.latestPath [.write (timestampText env.time)] env.f2).1 cfg.latestPath with _ | b | _
            · rw [hx] at ht; simp at ht
            · exact hnf b hx
            · rw [hx] at ht; simp [bind, Except.bind] at ht
          exact ⟨fun t ht => absurd ht (this t), fun t ht => absurd ht (this t)⟩
  | crash env c =>
    simp only [PCfg.afterEvent, FetchEvent.env] at *
    cases hc : env.client with
    | error e => exact hsame
    | ok u =>
      cases hg : env.game with
      | error e => exact hsame
      | ok g =>
        simp only
        cases hu : cfg.upToDate js fs (releaseInfo u g) with
        | error e => exact hsame
        | ok b => cases b with
          | true => exact hsame
          | false =>
            simp only
            have hframe : ∀ q, q ≠ cfg.releaseJson env.time → SameOrDir fs (cfg.recordCrash js fs (releaseInfo u g) env.time c) q := by
              intro q hq
              cases c with
              | first k =>
                simp only [PCfg.recordCrash]
                unfold SameOrDir
                rw [FS.set_other _ hq]
                rcases makedirs_dirsAdded fs (dirname (cfg.releaseJson env.time)) none q with h | ⟨_, h2, h3⟩
                · exact Or.inl h
                · exact Or.inr ⟨h2, h3⟩
              | between => exact write_frame _ _ _ _ hq
              | second k => exact absurd rfl (hcr env k)
            have := pointer_first (js := js) hp htime hframe
            exact ⟨fun t ht => (this t ht).2, fun t ht => Or.inr (this t ht).1⟩

/-- Along any history of fetches, with any URLs and failures (requests, creation of directories, opening, writing
and closing of files), or cut by hard crashes at any point up to the write of the latest pointer, the pointer never
designates a missing or incomplete release. Assumed: the clock increases, files can be removed after a failure. -/
theorem C38_pointer (cfg : PCfg) (js : JsonLib) (hjs : js.Faithful) (fs : FS) (evs : List FetchEvent)
    (hstart : PointerOk cfg js fs)
    (hclock : (evs.map (·.env.time)).Pairwise (· < ·))
    (hold : ∀ t, cfg.latestTimestamp fs = .ok (some t) → ∀ ev ∈ evs, t < ev.env.time)
    (hrm : ∀ ev ∈ evs, ev.env.f2.remove = false) (hcr : ∀ env k, .crash env (.second k) ∉ evs) :
    PointerOk cfg js (cfg.afterEvents js fs evs) := by
  induction evs generalizing fs with
  | nil => exact hstart
  | cons ev evs ih =>
    have hstep := pointer_event hjs ev hstart (fun t ht => by have := hold t ht ev (by simp); omega) (hrm ev (by simp))
      (fun env k e => hcr env k (by simp [e]))
    simp only [List.map_cons, List.pairwise_cons] at hclock
    refine ih (cfg.afterEvent js fs ev) hstep.1 hclock.2 ?_ (fun e he => hrm e (by simp [he])) (fun env k he => hcr env k (by simp [he]))
    intro t ht e he
    rcases hstep.2 t ht with rfl | h
    · exact hclock.1 _ (List.mem_map.2 ⟨e, he, rfl⟩)
    · exact hold t h e (by simp [he])

/-- Boundary: a hard crash while the pointer is written may leave it empty; every later fetch then raises
`ValueError` and changes nothing. -/
theorem C38_crash_pointer (cfg : PCfg) (js : JsonLib) (fs : FS) (info : RelData) (time : Int) (env : FetchEnv) (c g : Str)
    (hc : env.client = .ok c) (hg : env.game = .ok g) :
    cfg.fetchLatest js (cfg.recordCrash js fs info time (.second 0)) env = (cfg.recordCrash js fs info time (.second 0), .error .value) := by
  have : cfg.latestTimestamp (cfg.recordCrash js fs info time (.second 0)) = .error .value := by
    unfold PCfg.latestTimestamp FS.readFile
    simp only [PCfg.recordCrash, FS.set_self, List.take_zero]
    rfl
  unfold PCfg.fetchLatest PCfg.upToDate
  rw [hc, hg, this]
  rfl

/-- Boundary: two different releases fetched in the same second share a directory; if writing the second one
fails, the pointer designates a missing release. -/
theorem C38_same_second (cfg : PCfg) (js : JsonLib) (fs : FS) (env : FetchEnv) (c g : Str) (d : RelData) (e : Err)
    (hc : env.client = .ok c) (hg : env.game = .ok g)
    (hl : cfg.latestTimestamp fs = .ok (some env.time)) (hd : cfg.releaseData js fs env.time = .ok d)
    (hdiff : relDataEq (releaseInfo c g) d = false) (hf : env.f1.open_ = some e) (hrm : env.f1.remove = false) :
    cfg.latestTimestamp (cfg.fetchLatest js fs env).1 = .ok (some env.time) ∧
    ∃ e', cfg.releaseData js (cfg.fetchLatest js fs env).1 env.time = .error e' := by
  have hfetch : cfg.fetchLatest js fs env = cfg.record js fs (releaseInfo c g) env := by
    unfold PCfg.fetchLatest PCfg.upToDate
    rw [hc, hg, hl]
    simp only [bind, Except.bind, hd, pure, Except.pure, hdiff]
  have herr : ∃ e', (writeFileOrRemove fs (cfg.releaseJson env.time) [.write (js.dump (releaseInfo c g))] env.f1).2 = .error e' := by
    cases hw : (writeFileOrRemove fs (cfg.releaseJson env.time) [.write (js.dump (releaseInfo c g))] env.f1).2 with
    | error e' => exact ⟨e', rfl⟩
    | ok u =>
      rw [writeFileOrRemove_result] at hw
      have := (writeTry_ok hw).2.2.1
      rw [hf] at this; simp at this
  obtain ⟨e', he'⟩ := herr
  have hfst : (cfg.fetchLatest js fs env).1 = (writeFileOrRemove fs (cfg.releaseJson env.time) [.write (js.dump (releaseInfo c g))] env.f1).1 := by
    rw [hfetch]
    unfold PCfg.record
    rcases hw : writeFileOrRemove fs (cfg.releaseJson env.time) [.write (js.dump (releaseInfo c g))] env.f1 with ⟨fs1, r⟩
    rw [hw] at he'
    simp only at he'
    subst he'
    rfl
  rw [hfst]
  have hfr := write_frame fs (cfg.releaseJson env.time) [.write (js.dump (releaseInfo c g))] env.f1 (latest_ne_json cfg env.time)
  constructor
  · rcases hfr with h | ⟨h1, h2⟩
    · rw [latest_congr h]; exact hl
    · unfold PCfg.latestTimestamp at hl; rw [if_pos h1] at hl; simp at hl
  · have h2 := writeFileOrRemove_error_fs he'
    rw [hrm] at h2
    have hnf := remove_not_file (writeTry fs (cfg.releaseJson env.time) [.write (js.dump (releaseInfo c g))] env.f1).1 (cfg.releaseJson env.time)
    rw [← h2] at hnf
    unfold PCfg.releaseData FS.readFile
    rcases hx : (writeFileOrRemove fs (cfg.releaseJson env.time) [.write (js.dump (releaseInfo c g))] env.f1).1 (cfg.releaseJson env.time) with _ | b | _
    · exact ⟨_, rfl⟩
    · exact absurd hx (hnf b)
    · exact ⟨_, rfl⟩

/-! ### Histories -/

theorem dirname_slash {a b : Str} (hb : '/' ∉ b) (ha : ∃ x c, a = x ++ [c] ∧ c ≠ '/') : dirname (a ++ '/' :: b) = a := by
  obtain ⟨x, c, rfl, hc⟩ := ha
  have : (x ++ [c]) ++ '/' :: b = (x ++ [c] ++ ['/']) ++ b := by simp
  unfold dirname
  rw [this, psplit_dir (Or.inr ⟨x ++ [c], rfl⟩) hb]
  simp only [dirOf]
  rw [if_neg (by simp [hc])]
  unfold rstripChar
  simp [List.dropWhile_cons, hc]

theorem self_mem_dirPrefixes {p : Str} (h : p ≠ []) : p ∈ dirPrefixes p := by
  unfold dirPrefixes
  simp only [List.mem_filter, List.mem_map, List.mem_range]
  have hl : 0 < (splitChar '/' p).length := List.length_pos_iff.2 (splitChar_ne_nil _ _)
  refine ⟨⟨(splitChar '/' p).length - 1, by omega, ?_⟩, by simpa using h⟩
  rw [Nat.sub_add_cancel hl, List.take_length, join_splitChar]

theorem write_ok_dir {fs : FS} {path : Str} {body f} (h : (writeFileOrRemove fs path body f).2 = .ok ()) (hne : dirname path ≠ [])
    (hp : dirname path ≠ path) : (writeFileOrRemove fs path body f).1 (dirname path) = some .dir := by
  rw [writeFileOrRemove_ok_fs h]
  rw [writeFileOrRemove_result] at h
  have hm := (writeTry_ok h).2.2.2.2.2
  have hdir : (fs.makedirs (dirname path) f.makedirs).1 (dirname path) = some .dir := by
    unfold FS.makedirs at hm ⊢
    rw [if_neg (by simpa using hne)] at hm ⊢
    exact (makedirsGo_ok _ _ _ hm).1 _ (self_mem_dirPrefixes hne)
  have ho := (writeTry_ok h).2.2.1
  unfold writeTry at h ⊢
  rcases hx : fs.makedirs (dirname path) f.makedirs with ⟨fs1, e | u⟩
  · rw [hx] at hm; simp at hm
  · rw [hx] at h hdir
    simp only [ho] at h ⊢
    split at h
    · simp at h
    · rename_i hd
      rw [if_neg hd]
      simp only
      rw [FS.set_other _ hp]; exact hdir

/-- The name of a patchline: not empty, no slash -/
def PCfg.GoodPatchline (cfg : PCfg) : Prop := cfg.patchline ≠ [] ∧ '/' ∉ cfg.patchline

theorem releasePath_last {cfg : PCfg} (h : cfg.GoodPatchline) : ∃ x c, cfg.releasePath = x ++ [c] ∧ c ≠ '/' := by
  rcases List.eq_nil_or_concat cfg.patchline with hn | ⟨x, c, hc⟩
  · exact absurd hn h.1
  · rw [List.concat_eq_append] at hc
    refine ⟨rootPre cfg.base ++ ("cdtb/releases/".toList ++ x), c, ?_, ?_⟩
    · unfold PCfg.releasePath
      rw [fspath_eq _ rfl, hc]; simp
    · rintro rfl; exact h.2 (by rw [hc]; simp)

theorem releasePath_ne_nil {cfg : PCfg} (h : cfg.GoodPatchline) : cfg.releasePath ≠ [] := by
  obtain ⟨x, c, hx, _⟩ := releasePath_last h
  rw [hx]; simp

theorem dirname_latest {cfg : PCfg} (h : cfg.GoodPatchline) : dirname cfg.latestPath = cfg.releasePath :=
  dirname_slash (b := "latest.timestamp".toList) (by decide) (releasePath_last h)

theorem showInt_last (n : Int) : ∃ x c, showInt n = x ++ [c] ∧ c ≠ '/' := by
  rcases List.eq_nil_or_concat (showInt n) with hn | ⟨x, c, hc⟩
  · exact absurd hn (showInt_ne_nil n)
  · rw [List.concat_eq_append] at hc
    exact ⟨x, c, hc, by rintro rfl; exact showInt_noslash n (by rw [hc]; simp)⟩

theorem dirname_json (cfg : PCfg) (t : Int) : dirname (cfg.releaseJson t) = cfg.storageDir t := by
  obtain ⟨x, c, hx, hc⟩ := showInt_last t
  refine dirname_slash (b := "release.json".toList) (by decide) ⟨cfg.releasePath ++ '/' :: x, c, ?_, hc⟩
  unfold PCfg.storageDir; rw [hx]; simp

/-- An object of the directory of releases -/
def PCfg.entry (cfg : PCfg) (name : Str) : Str := cfg.releasePath ++ '/' :: name

theorem entry_ne_json (cfg : PCfg) {name : Str} (h : '/' ∉ name) (t : Int) : cfg.entry name ≠ cfg.releaseJson t := by
  intro e
  unfold PCfg.entry PCfg.releaseJson PCfg.storageDir at e
  rw [List.append_assoc, List.append_cancel_left_eq, List.cons_append, List.cons.injEq] at e
  rw [e.2] at h
  exact h (by simp)

theorem entry_inj {cfg : PCfg} {a b : Str} (h : cfg.entry a = cfg.entry b) : a = b := by
  unfold PCfg.entry at h
  rw [List.append_cancel_left_eq, List.cons.injEq] at h
  exact h.2

theorem entry_prefix_storageDir {cfg : PCfg} {name : Str} (h : '/' ∉ name) {t : Int}
    (hm : cfg.entry name ∈ dirPrefixes (cfg.storageDir t)) : name = showInt t := by
  rcases (mem_dirPrefixes hm).2 with e | ⟨r, e⟩
  · exact entry_inj e
  · unfold PCfg.entry PCfg.storageDir at e
    rw [List.append_assoc, List.append_cancel_left_eq, List.cons_append, List.cons.injEq] at e
    exact absurd (by rw [e.2]; simp : '/' ∈ showInt t) (showInt_noslash t)

theorem entry_not_prefix_release {cfg : PCfg} {name : Str} : cfg.entry name ∉ dirPrefixes cfg.releasePath := by
  intro hm
  have := mem_dirPrefixes_length hm
  unfold PCfg.entry at this
  simp at this

/-- What a recorded history leaves on disk -/
structure Recorded (cfg : PCfg) (js : JsonLib) (fs : FS) (rec : List (Int × Str × Str)) : Prop where
  releases : ∀ r ∈ rec, fs (cfg.releaseJson r.1) = some (.file (js.dump (releaseInfo r.2.1 r.2.2))) ∧ fs (cfg.storageDir r.1) = some .dir
  latest : match rec.getLast? with
    | none => fs cfg.latestPath = none ∧ fs cfg.releasePath = none
    | some r => fs cfg.latestPath = some (.file (timestampText r.1)) ∧ fs cfg.releasePath = some .dir
  only : ∀ name, '/' ∉ name → fs (cfg.entry name) ≠ none → name = "latest.timestamp".toList ∨ ∃ r ∈ rec, name = showInt r.1

theorem storageDir_ne_json (cfg : PCfg) (t t' : Int) : cfg.storageDir t ≠ cfg.releaseJson t' :=
  entry_ne_json cfg (name := showInt t) (showInt_noslash t) t'

theorem int10_latest : int10 "latest.timestamp".toList = none := by decide +kernel

theorem storageDir_ne_latest (cfg : PCfg) (t : Int) : cfg.storageDir t ≠ cfg.latestPath := by
  intro e
  have : showInt t = "latest.timestamp".toList := entry_inj (cfg := cfg) e
  have h := int10_showInt t
  rw [this] at h
  rw [int10_latest] at h; exact absurd h (by simp)

theorem sameOrDir_dir {fs fs' : FS} {q : Str} (h : SameOrDir fs fs' q) (hd : fs q = some .dir) : fs' q = some .dir := by
  rcases h with h | ⟨h, _⟩
  · rw [h]; exact hd
  · rw [hd] at h; simp at h

theorem recorded_step {cfg : PCfg} {js : JsonLib} (hpl : cfg.GoodPatchline) {fs fs' : FS} {rec : List (Int × Str × Str)} {env : FetchEnv} {c g : Str}
    (hr : Recorded cfg js fs rec) (hnew : ∀ r ∈ rec, r.1 ≠ env.time)
    (h : cfg.record js fs (releaseInfo c g) env = (fs', .ok ())) : Recorded cfg js fs' (rec ++ [(env.time, c, g)]) := by
  obtain ⟨hl, hj⟩ := record_ok h
  have hfr : ∀ q, q ≠ cfg.latestPath → q ≠ cfg.releaseJson env.time → SameOrDir fs fs' q := by
    intro q h1 h2
    have := record_frame cfg js fs (releaseInfo c g) env h1 h2
    rwa [h] at this
  unfold PCfg.record at h
  rcases hw : writeFileOrRemove fs (cfg.releaseJson env.time) [.write (js.dump (releaseInfo c g))] env.f1 with ⟨fs1, e | u⟩
  · rw [hw] at h; simp at h
  · rw [hw] at h
    simp only at h
    have d1 := write_ok_dir (fs := fs) (path := cfg.releaseJson env.time) (by rw [hw])
      (by rw [dirname_json]; unfold PCfg.storageDir; simp) (by rw [dirname_json]; exact storageDir_ne_json cfg _ _)
    rw [hw, dirname_json] at d1
    have d2 := write_ok_dir (fs := fs1) (path := cfg.latestPath) (by rw [h])
      (by rw [dirname_latest hpl]; exact releasePath_ne_nil hpl) (by rw [dirname_latest hpl]; unfold PCfg.latestPath; simp)
    rw [h, dirname_latest hpl] at d2
    have d1' : fs' (cfg.storageDir env.time) = some .dir := by
      have := write_frame fs1 cfg.latestPath [.write (timestampText env.time)] env.f2 (storageDir_ne_latest cfg env.time)
      rw [h] at this
      exact sameOrDir_dir this d1
    constructor
    · intro r hr'
      rcases List.mem_append.1 hr' with hr' | hr'
      · have hold := hr.releases r hr'
        have hne : cfg.releaseJson r.1 ≠ cfg.releaseJson env.time := fun e => hnew r hr' (releaseJson_inj e)
        exact ⟨((hfr _ (latest_ne_json cfg _).symm hne).file _).2 hold.1,
          sameOrDir_dir (hfr _ (storageDir_ne_latest cfg _) (storageDir_ne_json cfg _ _)) hold.2⟩
      · simp only [List.mem_singleton] at hr'
        subst hr'
        exact ⟨hj, d1'⟩
    · rw [List.getLast?_concat]
      exact ⟨hl, d2⟩
    · intro name hname hex
      by_cases hold : fs (cfg.entry name) = none
      · by_cases hla : name = "latest.timestamp".toList
        · exact Or.inl hla
        · right
          refine ⟨(env.time, c, g), by simp, ?_⟩
          have hnl : cfg.entry name ≠ cfg.latestPath := fun e => hla (entry_inj (cfg := cfg) e)
          by_cases h1 : fs1 (cfg.entry name) = none
          · have ht := writeFileOrRemove_touches fs1 cfg.latestPath [.write (timestampText env.time)] env.f2 _ hnl
            rw [h, dirname_latest hpl] at ht
            rcases ht with ht | ⟨ht, _⟩
            · simp only at ht; exact absurd (ht.trans h1) hex
            · exact absurd ht entry_not_prefix_release
          · have ht := writeFileOrRemove_touches fs (cfg.releaseJson env.time) [.write (js.dump (releaseInfo c g))] env.f1 _ (entry_ne_json cfg hname env.time)
            rw [hw, dirname_json] at ht
            rcases ht with ht | ⟨ht, _⟩
            · simp only at ht; exact absurd (ht.trans hold) h1
            · exact entry_prefix_storageDir hname ht
      · rcases hr.only name hname hold with h | ⟨r, hr', he⟩
        · exact Or.inl h
        · exact Or.inr ⟨r, by simp [hr'], he⟩

theorem recorded_latest {cfg : PCfg} {js : JsonLib} (hjs : js.Faithful) {fs : FS} {rec : List (Int × Str × Str)} (hr : Recorded cfg js fs rec) :
    match rec.getLast? with
    | none => cfg.latestTimestamp fs = .ok none
    | some r => Latest cfg js fs r.1 r.2.1 r.2.2 := by
  have h := hr.latest
  rcases hl : rec.getLast? with _ | r
  · rw [hl] at h
    simp only at h ⊢
    unfold PCfg.latestTimestamp
    rw [if_pos h.1]
  · rw [hl] at h
    simp only at h ⊢
    refine ⟨latest_of_text h.1, ?_⟩
    rw [releaseData_of_file (hr.releases r (List.mem_of_getLast? hl)).1]
    exact hjs _ _

theorem recorded_fetchAll {cfg : PCfg} {js : JsonLib} (hjs : js.Faithful) (hpl : cfg.GoodPatchline) (envs : List FetchEnv)
    (urls : FetchEnv → Str × Str) (hurls : ∀ e ∈ envs, e.client = .ok (urls e).1 ∧ e.game = .ok (urls e).2)
    (hclock : (envs.map (·.time)).Pairwise (· < ·)) :
    ∀ (fs fs' : FS) (rec : List (Int × Str × Str)), Recorded cfg js fs rec → (∀ r ∈ rec, ∀ e ∈ envs, r.1 < e.time) →
      cfg.fetchAll js fs envs = (fs', .ok ()) →
      Recorded cfg js fs' (rec ++ changes (rec.getLast?.map (·.2)) (envs.map fun e => (e.time, urls e))) := by
  induction envs with
  | nil => intro fs fs' rec hr _ h; cases h; simpa [changes] using hr
  | cons e envs ih =>
    intro fs fs' rec hr hold h
    have ih' := ih (fun e he => hurls e (by simp [he])) (List.pairwise_cons.1 hclock).2
    unfold PCfg.fetchAll at h
    rcases hf : cfg.fetchLatest js fs e with ⟨fs1, x | u⟩
    · rw [hf] at h; simp at h
    · rw [hf] at h
      simp only at h
      have hlat := recorded_latest hjs hr
      obtain ⟨hc, hg⟩ := hurls e (by simp)
      simp only [List.map_cons, changes]
      by_cases hsame : rec.getLast?.map (·.2) = some (urls e)
      · rw [if_pos hsame]
        rcases hlast : rec.getLast? with _ | r
        · rw [hlast] at hsame; simp at hsame
        · rw [hlast] at hsame hlat
          simp only [Option.map_some, Option.some.injEq] at hsame
          simp only at hlat
          rw [hsame] at hlat
          have := C38_same cfg js fs e r.1 _ _ hlat hc hg
          rw [this] at hf
          cases hf
          have := ih' fs fs' rec hr (fun r hr e he => hold r hr e (by simp [he])) h
          rw [hlast] at this
          exact this
      · rw [if_neg hsame]
        have hrec : cfg.record js fs (releaseInfo (urls e).1 (urls e).2) e = (fs1, .ok ()) := by
          unfold PCfg.fetchLatest at hf
          rw [hc, hg] at hf
          simp only at hf
          have hu : cfg.upToDate js fs (releaseInfo (urls e).1 (urls e).2) = .ok false := by
            unfold PCfg.upToDate
            rcases hlast : rec.getLast? with _ | r
            · rw [hlast] at hlat; simp only at hlat; rw [hlat]; rfl
            · rw [hlast] at hlat hsame
              simp only at hlat
              rw [hlat.1]
              simp only [bind, Except.bind, hlat.2]
              simp only [pure, Except.pure, Except.ok.injEq]
              cases hb : relDataEq (releaseInfo (urls e).1 (urls e).2) (releaseInfo r.2.1 r.2.2) with
              | false => rfl
              | true =>
                obtain ⟨h1, h2⟩ := relDataEq_info hb
                exact absurd (by simp only [Option.map_some, Option.some.injEq]; exact Prod.ext h1 h2) hsame
          rw [hu] at hf
          exact hf
        have hstep := recorded_step hpl hr (fun r hr' => by have := hold r hr' e (by simp); omega) hrec
        have := ih' fs1 fs' _ hstep (by
          intro r hr' e' he'
          rcases List.mem_append.1 hr' with h1 | h1
          · exact hold r h1 e' (by simp [he'])
          · simp only [List.mem_singleton] at h1
            subst h1
            exact (List.pairwise_cons.1 hclock).1 _ (List.mem_map.2 ⟨e', he', rfl⟩)) h
        rw [List.getLast?_concat, List.append_assoc] at this
        simpa using this

theorem changes_sublist (last : Option (Str × Str)) (l : List (Int × Str × Str)) : (changes last l).Sublist l := by
  induction l generalizing last with
  | nil => exact .slnil
  | cons x l ih =>
    obtain ⟨t, u⟩ := x
    unfold changes
    split
    · exact (ih _).cons _
    · exact (ih _).cons_cons _

/-- What `os.listdir` may give for the directory of releases: its objects, in any order -/
structure Listing (cfg : PCfg) (fs : FS) (names : List Str) : Prop where
  nodup : names.Nodup
  mem : ∀ name, name ∈ names ↔ '/' ∉ name ∧ name ≠ [] ∧ fs (cfg.entry name) ≠ none

theorem versions_recorded {cfg : PCfg} {js : JsonLib} {fs : FS} {rec : List (Int × Str × Str)} (hr : Recorded cfg js fs rec)
    (hne : rec ≠ []) (hsorted : (rec.map (·.1)).Pairwise (· < ·)) {names : List Str} (hn : Listing cfg fs names) :
    cfg.releaseVersions fs names = (rec.map (·.1)).reverse := by
  have hlast := hr.latest
  rcases hl : rec.getLast? with _ | r
  · exact absurd (List.getLast?_eq_none_iff.1 hl) hne
  rw [hl] at hlast
  simp only at hlast
  have hnd : (rec.map (·.1)).Nodup := hsorted.imp (fun h => by omega)
  have hlt : ∀ t : Int, showInt t ≠ "latest.timestamp".toList := by
    intro t e
    have h := int10_showInt t
    rw [e, int10_latest] at h; exact absurd h (by simp)
  have hperm : names.Perm ("latest.timestamp".toList :: (rec.map (·.1)).map showInt) := by
    rw [List.perm_ext_iff_of_nodup hn.nodup]
    · intro name
      rw [hn.mem, List.mem_cons]
      constructor
      · rintro ⟨h1, _, h3⟩
        rcases hr.only name h1 h3 with h | ⟨r, hr', he⟩
        · exact Or.inl h
        · exact Or.inr (List.mem_map.2 ⟨r.1, List.mem_map.2 ⟨r, hr', rfl⟩, he.symm⟩)
      · rintro (rfl | h)
        · refine ⟨by decide, by decide, ?_⟩
          show fs cfg.latestPath ≠ none
          rw [hlast.1]; simp
        · obtain ⟨t, ht, rfl⟩ := List.mem_map.1 h
          obtain ⟨r, hr', rfl⟩ := List.mem_map.1 ht
          refine ⟨showInt_noslash _, showInt_ne_nil _, ?_⟩
          show fs (cfg.storageDir r.1) ≠ none
          rw [(hr.releases r hr').2]; simp
    · rw [List.nodup_cons]
      refine ⟨?_, (List.nodup_map_iff (fun a b h => showInt_inj h)).2 hnd⟩
      intro hm
      obtain ⟨t, _, ht⟩ := List.mem_map.1 hm
      exact hlt t ht
  have hfm : (names.filterMap int10).Perm (rec.map (·.1)) := by
    refine (hperm.filterMap int10).trans ?_
    have e1 : int10 "latest.timestamp".toList = none := by decide +kernel
    rw [List.filterMap_cons_none e1, List.filterMap_map]
    have e2 : (int10 ∘ showInt) = some := by funext t; exact int10_showInt t
    rw [e2, List.filterMap_some]
  have hsort : (names.filterMap int10).insertionSort (fun a b => b ≤ a) = (rec.map (·.1)).reverse := by
    refine List.Perm.eq_of_pairwise (le := fun a b => b ≤ a) (fun a b _ _ h1 h2 => by omega) ?_ ?_ ?_
    · exact List.pairwise_insertionSort _ _
    · rw [List.pairwise_reverse]; exact hsorted.imp (fun h => by omega)
    · exact (List.perm_insertionSort _ _).trans (hfm.trans (List.reverse_perm _).symm)
  unfold PCfg.releaseVersions
  rw [hsort, List.filter_eq_self]
  intro v hv
  obtain ⟨r, hr', rfl⟩ := List.mem_map.1 (List.mem_reverse.1 hv)
  unfold FS.isFile
  rw [(hr.releases r hr').1]

theorem mapM_releases {cfg : PCfg} {js : JsonLib} (hjs : js.Faithful) {fs : FS} (l : List (Int × Str × Str))
    (h : ∀ r ∈ l, fs (cfg.releaseJson r.1) = some (.file (js.dump (releaseInfo r.2.1 r.2.2)))) :
    (l.map (·.1)).mapM (fun v => (cfg.releaseData js fs v).map fun d => (v, d)) = .ok (l.map fun r => (r.1, releaseInfo r.2.1 r.2.2)) := by
  induction l with
  | nil => rfl
  | cons r l ih =>
    rw [List.map_cons, List.mapM_cons, releaseData_of_file (h r (by simp)), hjs, ih (fun r hr => h r (by simp [hr]))]
    rfl

/-- From a storage without releases, after any number of successful fetches with an increasing clock: a release is
recorded for each change of the URLs and no other, the latest pointer designates the last one, and the releases are
listed newest first, whatever the order in which the system lists the directory. -/
theorem C38_history (cfg : PCfg) (js : JsonLib) (hjs : js.Faithful) (hpl : cfg.GoodPatchline) (fs fs' : FS) (envs : List FetchEnv)
    (urls : FetchEnv → Str × Str) (hurls : ∀ e ∈ envs, e.client = .ok (urls e).1 ∧ e.game = .ok (urls e).2)
    (hclock : (envs.map (·.time)).Pairwise (· < ·))
    (hempty : fs cfg.releasePath = none ∧ ∀ name, fs (cfg.releasePath ++ '/' :: name) = none)
    (h : cfg.fetchAll js fs envs = (fs', .ok ())) (names : List Str) (hn : Listing cfg fs' names) :
    let recorded := changes none (envs.map fun e => (e.time, urls e))
    cfg.iterReleases js fs' names = .ok (recorded.reverse.map fun r => (r.1, releaseInfo r.2.1 r.2.2)) ∧
    cfg.latestTimestamp fs' = .ok (recorded.getLast?.map (·.1)) := by
  intro recorded
  have h0 : Recorded cfg js fs [] :=
    ⟨by simp, ⟨hempty.2 _, hempty.1⟩, fun name _ hex => absurd (hempty.2 name) hex⟩
  have hr := recorded_fetchAll hjs hpl envs urls hurls hclock fs fs' [] h0 (by simp) h
  simp only [List.nil_append, List.getLast?_nil, Option.map_none] at hr
  have hsorted : (recorded.map (·.1)).Pairwise (· < ·) := by
    have hsub : (recorded.map (·.1)).Sublist (envs.map (·.time)) := by
      have := (changes_sublist none (envs.map fun e => (e.time, urls e))).map (·.1)
      simpa [List.map_map, Function.comp_def] using this
    exact List.Pairwise.sublist hsub hclock
  have hlat := recorded_latest hjs hr
  have hl := hr.latest
  constructor
  · unfold PCfg.iterReleases
    by_cases hne : recorded = []
    · have : changes none (envs.map fun e => (e.time, urls e)) = [] := hne
      rw [this] at hl
      simp only [List.getLast?_nil] at hl
      rw [if_neg (by rw [hl.2]; simp), hne]
      rfl
    · rcases hx : recorded.getLast? with _ | r
      · exact absurd (List.getLast?_eq_none_iff.1 hx) hne
      · have hx' : (changes none (envs.map fun e => (e.time, urls e))).getLast? = some r := hx
        rw [hx'] at hl
        rw [if_pos hl.2, versions_recorded hr hne hsorted hn, ← List.map_reverse]
        exact mapM_releases hjs _ (fun r hr' => (hr.releases r (by simpa using hr')).1)
  · rcases hx : recorded.getLast? with _ | r
    · have hx' : (changes none (envs.map fun e => (e.time, urls e))).getLast? = none := hx
      rw [hx'] at hlat
      exact hlat
    · have hx' : (changes none (envs.map fun e => (e.time, urls e))).getLast? = some r := hx
      rw [hx'] at hlat
      exact hlat.1

/-- The URLs come from the first configuration of the region of the patchline and from the only release of the
game; anything else raises. -/
theorem C38_urls (patchline : Str) (configs : List (Str × Str)) (releases : List Str) :
    (let region := if patchline = "pbe".toList then "PBE".toList else "EUW".toList
     (∀ u, clientPatchUrl patchline configs = .ok u ↔
        ∃ a b, configs = a ++ (region, u) :: b ∧ ∀ c ∈ a, c.1 ≠ region) ∧
     ((∀ c ∈ configs, c.1 ≠ region) → clientPatchUrl patchline configs = .error .value)) ∧
    (∀ u, gamePatchUrl releases = .ok u ↔ releases = [u]) ∧ (releases.length ≠ 1 → gamePatchUrl releases = .error .assertion) := by
  refine ⟨⟨?_, ?_⟩, ?_, ?_⟩
  · intro u
    unfold clientPatchUrl
    simp only
    generalize (if patchline = "pbe".toList then "PBE".toList else "EUW".toList) = region
    cases hf : configs.find? (fun c => c.1 = region) with
    | none =>
      simp only [reduceCtorEq, false_iff, not_exists, not_and]
      intro a b hab
      rw [List.find?_eq_none] at hf
      have := hf (region, u) (by rw [hab]; simp)
      simp at this
    | some c =>
      obtain ⟨hc, a, b, hab, hbefore⟩ := List.find?_eq_some_iff_append.1 hf
      simp only [decide_eq_true_eq, Bool.not_eq_true', decide_eq_false_iff_not] at hc hbefore
      simp only [Except.ok.injEq]
      constructor
      · rintro rfl
        exact ⟨a, b, by rw [hab, ← hc], hbefore⟩
      · rintro ⟨a', b', hab', hb'⟩
        have : configs.find? (fun c => c.1 = region) = some (region, u) := by
          rw [List.find?_eq_some_iff_append]
          exact ⟨by simp, a', b', hab', by simpa using hb'⟩
        rw [hf] at this
        cases this; rfl
  · intro h
    unfold clientPatchUrl
    simp only
    rw [List.find?_eq_none.2 (by intro c hc; simpa using h c hc)]
  · intro u
    unfold gamePatchUrl
    rcases releases with _ | ⟨a, _ | ⟨b, l⟩⟩ <;> simp
  · intro h
    unfold gamePatchUrl
    rw [if_neg h]

/-- The elements of a release: the game then the client, each if its URL is not empty. -/
theorem C38_elements (c g : Str) : relElements (releaseInfo c g) =
    (if g = [] then [] else ["game".toList]) ++ (if c = [] then [] else ["client".toList]) := by
  cases c <;> cases g <;> simp [relElements, relElement, releaseInfo, Dict.get?]

/-! Non-vacuity -/

/-- Some encoding of two texts: every character preceded by a dot, then a bar -/
def demoEnc (s : Str) : Str := s.flatMap fun c => ['.', c]
def demoDec : Str → Option (Str × Str)
  | '.' :: c :: r => (demoDec r).map fun x => (c :: x.1, x.2)
  | '|' :: r => some ([], r)
  | _ => none

theorem demoDec_enc (s r : Str) : demoDec (demoEnc s ++ '|' :: r) = some (s, r) := by
  induction s with
  | nil => rfl
  | cons c s ih =>
    have : demoEnc (c :: s) ++ '|' :: r = '.' :: c :: (demoEnc s ++ '|' :: r) := by simp [demoEnc]
    rw [this]
    simp [demoDec, ih]

def demoJs : JsonLib where
  dump d := utf8Bytes (demoEnc ((d.get? "client_patch_url".toList).getD []) ++ '|' :: demoEnc ((d.get? "game_patch_url".toList).getD []) ++ ['|'])
  load b := do
    let s ← utf8 b
    match demoDec s with
    | some (c, r) => match demoDec r with
      | some (g, []) => pure (releaseInfo c g)
      | _ => throw .value
    | none => throw .value

theorem demoJs_faithful : demoJs.Faithful := by
  intro c g
  have : demoJs.dump (releaseInfo c g) = utf8Bytes (demoEnc c ++ '|' :: (demoEnc g ++ '|' :: [])) := by
    simp [demoJs, releaseInfo, Dict.get?]
  rw [this]
  simp only [demoJs, utf8_utf8Bytes, bind, Except.bind, demoDec_enc]
  rfl

def demoRelCfg : PCfg := ⟨"/s".toList, "live".toList, true, fun b => .ok b, fun s => s⟩
def demoEnv (t : Int) (c g : Str) : FetchEnv := ⟨.ok c, .ok g, t, {}, {}⟩
def demoEnvs : List FetchEnv := [demoEnv 10 "a".toList "b".toList, demoEnv 12 "a".toList "b".toList, demoEnv 15 "c".toList "b".toList]

example : demoRelCfg.GoodPatchline := by unfold PCfg.GoodPatchline; decide +kernel
example : changes none (demoEnvs.map fun e => (e.time, (e.client.toOption.getD [], e.game.toOption.getD []))) =
    [(10, "a".toList, "b".toList), (15, "c".toList, "b".toList)] := by decide +kernel
example : (demoEnvs.map (·.time)).Pairwise (· < ·) := by decide +kernel
example : (demoRelCfg.fetchAll demoJs (fun _ => none) demoEnvs).2 = .ok () := by decide +kernel
example : Listing demoRelCfg (demoRelCfg.fetchAll demoJs (fun _ => none) demoEnvs).1 ["10".toList, "latest.timestamp".toList, "15".toList] := by
  have hr := recorded_fetchAll demoJs_faithful (cfg := demoRelCfg) (by unfold PCfg.GoodPatchline; decide +kernel) demoEnvs
    (fun e => (e.client.toOption.getD [], e.game.toOption.getD [])) (by unfold demoEnvs demoEnv; simp [Except.toOption])
    (by decide +kernel) (fun _ => none) (demoRelCfg.fetchAll demoJs (fun _ => none) demoEnvs).1 []
    ⟨by simp, ⟨rfl, rfl⟩, fun _ _ h => absurd rfl h⟩ (by simp) (Prod.ext rfl (by decide +kernel))
  refine ⟨by decide +kernel, fun name => ⟨fun h => ?_, fun ⟨h1, h2, h3⟩ => ?_⟩⟩
  · simp only [List.mem_cons, List.not_mem_nil, or_false] at h
    rcases h with rfl | rfl | rfl <;> exact ⟨by decide, by decide, by decide +kernel⟩
  · rcases hr.only name h1 h3 with h | ⟨r, hr', h⟩
    · rw [h]; decide
    · have e : changes none (demoEnvs.map fun e => (e.time, (e.client.toOption.getD [], e.game.toOption.getD []))) =
        [(10, "a".toList, "b".toList), (15, "c".toList, "b".toList)] := by decide +kernel
      simp only [List.nil_append, List.getLast?_nil, Option.map_none] at hr'
      rw [e] at hr'
      simp only [List.mem_cons, List.not_mem_nil, or_false] at hr'
      rcases hr' with rfl | rfl <;> rw [h] <;> decide

end Cdtb
