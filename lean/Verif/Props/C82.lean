import Verif.Lemmas.Latest
import Verif.Props.C38
/-!
# C82  The latest release comes from the configured source
-/
namespace Cdtb
set_option autoImplicit false
open Py Spec

/-- Every setting but `True` has exactly one source. -/
theorem C82_source (fs : FS) (cc : CVal) (h : cc ≠ .bool true) : ∃ s, SourceOf fs cc s ∧ ∀ s', SourceOf fs cc s' → s' = s := by
  have hd : ∀ p : Str, p.length ≠ 0 → ¬ p <+: ([] : Str) := fun p hp h => hp (by simp [List.prefix_nil.1 h])
  have hu : ¬ IsUrl [] := by rintro (h | h) <;> exact hd _ (by decide) h
  cases cc with
  | null => exact ⟨_, .unset, fun s' h => by cases h; rfl⟩
  | bool b => cases b with
    | true => exact absurd rfl h
    | false => exact ⟨_, .false, fun s' h => by cases h; rfl⟩
  | str s =>
    by_cases h0 : s = []
    · subst h0
      refine ⟨_, .empty, fun s' h => ?_⟩
      cases h with
      | empty => rfl
      | server _ h => exact absurd h hu
      | missing _ h => exact absurd rfl h
      | file _ h => exact absurd rfl h
    · by_cases h1 : IsUrl s
      · refine ⟨_, .server s h1, fun s' h => ?_⟩
        cases h with
        | empty => exact absurd rfl h0
        | server => rfl
        | missing => rfl
        | file _ _ h => exact absurd h1 h
      · by_cases h2 : fs s = none
        · refine ⟨_, .missing s h0 h2, fun s' h => ?_⟩
          cases h with
          | empty => exact absurd rfl h0
          | server => rfl
          | missing => rfl
          | file _ _ _ h => exact absurd h2 h
        · refine ⟨_, .file s h0 h1 h2, fun s' h => ?_⟩
          cases h with
          | empty => exact absurd rfl h0
          | server _ h => exact absurd h h1
          | missing _ _ h => exact absurd h h2
          | file => rfl

/-- The URL of the client is the one given, for the patchline and its region, by the document of the source, and there is none otherwise. -/
theorem C82_client (fs : FS) (web : Web) (loads : Str → Option Json) (patchline : Str) (cc : CVal) (s : Source) (hs : SourceOf fs cc s) (u : Json) :
    latestClient fs web loads patchline cc = .ok u ↔
    ∃ b doc, s.Gives fs web b ∧ Document loads b doc ∧
      ClientUrlIn patchline (if patchline = "pbe".toList then "PBE".toList else "EUW".toList) doc u :=
  latestClient_ok fs web loads patchline cc s hs u

/-- A document gives at most one client URL, and at most one game URL. -/
theorem C82_unique (patchline region : Str) (doc u u' : Json) :
    (ClientUrlIn patchline region doc u → ClientUrlIn patchline region doc u' → u = u') ∧ (GameUrlIn doc u → GameUrlIn doc u' → u = u') := by
  have hat : ∀ (ks : List Str) (v w w' : Json), At v ks w → At v ks w' → w = w' := by
    intro ks
    induction ks with
    | nil => rintro v w w' h h'; exact h.symm.trans h'
    | cons k ks ih =>
      intro v w w' h h'
      obtain ⟨x, hx, h⟩ := (at_cons v k ks w).1 h
      obtain ⟨x', hx', h'⟩ := (at_cons v k ks w').1 h'
      rw [hx] at hx'
      cases hx'
      exact ih x w w' h h'
  constructor
  · rintro ⟨bf, c, af, h1, h2, h3, h4⟩ ⟨bf', c', af', h1', h2', h3', h4'⟩
    have hl := hat _ _ _ _ h1 h1'
    simp only [Json.arr.injEq] at hl
    have e1 := (findConfig_ok region _ u).2 ⟨bf, c, af, rfl, h2, h3, h4⟩
    rw [hl, (findConfig_ok region _ u').2 ⟨bf', c', af', rfl, h2', h3', h4'⟩] at e1
    exact (Except.ok.inj e1).symm
  · rintro ⟨r, h1, h2⟩ ⟨r', h1', h2'⟩
    have hl := hat _ _ _ _ h1 h1'
    simp only [Json.arr.injEq, List.cons.injEq, and_true] at hl
    subst hl
    exact hat _ _ _ _ h2 h2'

/-- The URL of the game is the one of the only release published for the platform of the patchline. -/
theorem C82_game (web : Web) (loads : Str → Option Json) (patchline : Str) (u : Json) :
    latestGame web loads patchline = .ok u ↔
    ∃ b doc, WebServes web ("https://sieve.services.riotcdn.net/api/v1/products/lol/version-sets/".toList ++
        (if patchline = "pbe".toList then "PBE1".toList else "EUW1".toList) ++ "?q[platform]=windows&q[published]=true".toList) b ∧
      Document loads b doc ∧ GameUrlIn doc u :=
  latestGame_ok web loads patchline u

/-- With a file of configurations, no server is asked for the client. -/
theorem C82_file (fs : FS) (web web' : Web) (loads : Str → Option Json) (patchline : Str) (cc : CVal) (p : Str) (hs : SourceOf fs cc (.file p)) :
    latestClient fs web loads patchline cc = latestClient fs web' loads patchline cc := by
  unfold latestClient
  rw [source_data fs web cc _ hs, source_data fs web' cc _ hs]

/-- Otherwise, only the server of the setting is asked, whatever files there are. -/
theorem C82_server (fs fs' : FS) (web web' : Web) (loads : Str → Option Json) (patchline : Str) (cc : CVal) (u : Str)
    (hs : SourceOf fs cc (.url u)) (hs' : SourceOf fs' cc (.url u)) (hw : web u = web' u) :
    latestClient fs web loads patchline cc = latestClient fs' web' loads patchline cc := by
  unfold latestClient
  rw [source_data fs web cc _ hs, source_data fs' web' cc _ hs']
  simp only [Web.fetch, hw]

/-- The game URL depends on one request only. -/
theorem C82_game_server (web web' : Web) (loads : Str → Option Json) (patchline : Str) (hw : web (gameUrl patchline) = web' (gameUrl patchline)) :
    latestGame web loads patchline = latestGame web' loads patchline := by
  unfold latestGame
  simp only [Web.fetch, hw]

/-- When the server of configurations, or the one of game releases, is down, the exception is raised and no file changes. -/
theorem C82_down (cfg : PCfg) (js : JsonLib) (loads : Str → Option Json) (web : Web) (cc : CVal) (time : Int) (f1 f2 : WriteFaults) (fs : FS) (e : Err) :
    (∀ u, SourceOf fs cc (.url u) → Down web u e → cfg.fetchUpdate js loads web cc time f1 f2 fs = (fs, .error e)) ∧
    (∀ c, latestClient fs web loads cfg.patchline cc = .ok (.str c) → Down web (gameUrl cfg.patchline) e →
      cfg.fetchUpdate js loads web cc time f1 f2 fs = (fs, .error e)) := by
  constructor
  · intro u hs hd
    have h1 : latestClient fs web loads cfg.patchline cc = .error e := by
      unfold latestClient
      rw [source_data fs web cc _ hs]
      simp only [(fetch_error web u e).2 hd]
      rfl
    simp only [PCfg.fetchUpdate, h1, urlText, bind, Except.bind, PCfg.fetchLatest]
  · intro c hc hd
    have h1 : latestGame web loads cfg.patchline = .error e := by
      unfold latestGame
      rw [(fetch_error web _ e).2 hd]
      rfl
    simp only [PCfg.fetchUpdate, hc, h1, urlText, bind, Except.bind, PCfg.fetchLatest]

/-- A call that changes a file has found both URLs in their documents. -/
theorem C82_unchanged (cfg : PCfg) (js : JsonLib) (loads : Str → Option Json) (web : Web) (cc : CVal) (time : Int) (f1 f2 : WriteFaults) (fs : FS)
    (s : Source) (hs : SourceOf fs cc s)
    (h : (cfg.fetchUpdate js loads web cc time f1 f2 fs).1 ≠ fs ∨ (cfg.fetchUpdate js loads web cc time f1 f2 fs).2 = .ok ()) :
    ∃ c g b doc b' doc', s.Gives fs web b ∧ Document loads b doc ∧
      ClientUrlIn cfg.patchline (if cfg.patchline = "pbe".toList then "PBE".toList else "EUW".toList) doc (.str c) ∧
      WebServes web (gameUrl cfg.patchline) b' ∧ Document loads b' doc' ∧ GameUrlIn doc' (.str g) := by
  have hu : ∀ (r : Res Json) (x : Str), urlText r = .ok x → r = .ok (.str x) := by
    intro r x h
    cases r with
    | error e => simp [urlText, bind, Except.bind] at h
    | ok v => cases v <;> simp_all [urlText, bind, Except.bind]
  unfold PCfg.fetchUpdate PCfg.fetchLatest at h
  simp only at h
  cases hc : urlText (latestClient fs web loads cfg.patchline cc) with
  | error e => simp [hc] at h
  | ok c =>
    cases hg : urlText (latestGame web loads cfg.patchline) with
    | error e => simp [hc, hg] at h
    | ok g =>
      obtain ⟨b, doc, h1, h2, h3⟩ := (latestClient_ok fs web loads cfg.patchline cc s hs _).1 (hu _ _ hc)
      obtain ⟨b', doc', h4, h5, h6⟩ := (latestGame_ok web loads cfg.patchline _).1 (hu _ _ hg)
      exact ⟨c, g, b, doc, b', doc', h1, h2, h3, h4, h5, h6⟩

/-- When both documents are there, an update that returns leaves a storage whose latest release has the URLs of the documents: a new release if
the URLs are not those of the latest one, and nothing changes if they are. -/
theorem C82_update (cfg : PCfg) (js : JsonLib) (hjs : js.Faithful) (loads : Str → Option Json) (web : Web) (cc : CVal) (time : Int) (f1 f2 : WriteFaults)
    (fs fs' : FS) (s : Source) (hs : SourceOf fs cc s) (b b' : Bytes) (doc doc' : Json) (c g : Str)
    (hb : s.Gives fs web b) (hd : Document loads b doc)
    (hc : ClientUrlIn cfg.patchline (if cfg.patchline = "pbe".toList then "PBE".toList else "EUW".toList) doc (.str c))
    (hb' : WebServes web (gameUrl cfg.patchline) b') (hd' : Document loads b' doc') (hg : GameUrlIn doc' (.str g)) :
    (∀ t, Latest cfg js fs t c g → cfg.fetchUpdate js loads web cc time f1 f2 fs = (fs, .ok ())) ∧
    ((∀ t d, cfg.latestTimestamp fs = .ok (some t) → cfg.releaseData js fs t = .ok d →
        ¬ (d.length = 2 ∧ d.get? "client_patch_url".toList = some c ∧ d.get? "game_patch_url".toList = some g)) →
      cfg.fetchUpdate js loads web cc time f1 f2 fs = (fs', .ok ()) →
      Latest cfg js fs' time c g ∧ ∀ q x, q ≠ cfg.latestPath → q ≠ cfg.releaseJson time → (fs' q = some (.file x) ↔ fs q = some (.file x))) := by
  have h1 := (latestClient_ok fs web loads cfg.patchline cc s hs _).2 ⟨b, doc, hb, hd, hc⟩
  have h2 := (latestGame_ok web loads cfg.patchline _).2 ⟨b', doc', hb', hd', hg⟩
  unfold PCfg.fetchUpdate
  rw [h1, h2]
  constructor
  · intro t ht
    exact C38_same cfg js fs _ t c g ht rfl rfl
  · intro hn h
    obtain ⟨h3, -, -, h4⟩ := C38_new cfg js hjs fs fs' _ c g rfl rfl hn h
    exact ⟨h3, h4⟩

/-- A manifest is read from a path, or is empty; a file object always raises `NameError`, whatever it holds. -/
theorem C82_manifest (zstd : Bytes → Res Bytes) (fs : FS) :
    manifestInit zstd fs .none = .ok none ∧
    (∀ p m, manifestInit zstd fs (.path p) = .ok (some m) ↔ ∃ b, fs p = some (.file b) ∧ (parseRman zstd).run b = .ok m) ∧
    (∀ p, manifestInit zstd fs (.path p) ≠ .ok none) ∧
    ∀ b, manifestInit zstd fs (.file b) = .error .name := by
  refine ⟨rfl, fun p m => ?_, fun p h => ?_, fun b => rfl⟩
  · simp only [manifestInit, bind_ok, readFile_ok, Except.ok.injEq, Option.some.injEq]
    constructor
    · rintro ⟨b, h1, m', h2, rfl⟩; exact ⟨b, h1, h2⟩
    · rintro ⟨b, h1, h2⟩; exact ⟨b, h1, m, h2, rfl⟩
  · simp only [manifestInit, bind_ok, Except.ok.injEq, reduceCtorEq, and_false, exists_false] at h

/-! ## A case -/

def latestDoc : Json := .obj [("keystone.products.league_of_legends.patchlines.live".toList, .obj [("platforms".toList, .obj [("mac".toList, .null),
  ("win".toList, .obj [("configurations".toList, .arr [.obj [("id".toList, .str "NA".toList), ("patch_url".toList, .str "u1".toList)],
    .obj [("patch_url".toList, .str "u2".toList), ("id".toList, .str "EUW".toList)],
    .obj [("id".toList, .str "EUW".toList), ("patch_url".toList, .str "u3".toList)]])])])])]

def latestGameDoc : Json := .obj [("releases".toList, .arr [.obj [("download".toList, .obj [("url".toList, .str "g".toList)])]])]

def latestLoads (s : Str) : Option Json := if s = "c".toList then some latestDoc else if s = "g".toList then some latestGameDoc else none

def latestFs : FS := fun p => if p = "conf.json".toList then some (.file (utf8Bytes "c".toList)) else none

def latestWeb : Web := fun u => if u = gameUrl "live".toList then .ok ⟨200, utf8Bytes "g".toList⟩ else .ok ⟨404, []⟩

example : SourceOf latestFs (.str "conf.json".toList) (.file "conf.json".toList) := by
  refine .file _ (by decide) ?_ (by simp [latestFs])
  unfold IsUrl
  decide +kernel

example : Source.Gives latestFs latestWeb (.file "conf.json".toList) (utf8Bytes "c".toList) := by simp [Source.Gives, latestFs]

example : Document latestLoads (utf8Bytes "c".toList) latestDoc := ⟨"c".toList, utf8_utf8Bytes _, by simp [latestLoads]⟩

example : ClientUrlIn "live".toList "EUW".toList latestDoc (.str "u2".toList) := by
  refine ⟨[.obj [("id".toList, .str "NA".toList), ("patch_url".toList, .str "u1".toList)]],
    .obj [("patch_url".toList, .str "u2".toList), ("id".toList, .str "EUW".toList)],
    [.obj [("id".toList, .str "EUW".toList), ("patch_url".toList, .str "u3".toList)]],
    ⟨[], [], _, rfl, by simp, [], [], _, rfl, by simp, [("mac".toList, .null)], [], _, rfl, by simp, [], [], _, rfl, by simp, rfl⟩, ?_,
    ⟨[("patch_url".toList, .str "u2".toList)], [], _, rfl, by simp, rfl⟩, ⟨[], _, _, rfl, by simp, rfl⟩⟩
  intro x hx
  rw [List.mem_singleton.1 hx]
  exact ⟨_, ⟨[], _, _, rfl, by simp, rfl⟩, by simp⟩

example : WebServes latestWeb (gameUrl "live".toList) (utf8Bytes "g".toList) := ⟨⟨200, _⟩, if_pos rfl, by simp, rfl⟩

example : GameUrlIn latestGameDoc (.str "g".toList) :=
  ⟨_, ⟨[], [], _, rfl, by simp, rfl⟩, [], [], _, rfl, by simp, [], [], _, rfl, by simp, rfl⟩

example : Down latestWeb clientConfigUrl (.http 404) := by
  refine .inr ⟨⟨404, []⟩, ?_, by decide, by decide, rfl⟩
  unfold latestWeb
  rw [if_neg (by decide +kernel)]

example : (demoRelCfg.fetchUpdate demoJs latestLoads latestWeb (.str "conf.json".toList) 7 {} {} latestFs).2 = .ok () := by decide +kernel

end Cdtb
