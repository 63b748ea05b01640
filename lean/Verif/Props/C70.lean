import Verif.Lemmas.GrepLcu
import Verif.Lemmas.Patches
import Verif.Props.C54
import Verif.Props.C58
import Verif.Props.C69
/-!
# C70  Paths found in the text files of the client

`Spec.Guesses H g g' cands` (see C55): checking exactly the candidates `cands` changes the guesser `g` to `g'`.
-/
namespace Cdtb
set_option autoImplicit false
open Py

/-! ## JSON values -/

theorem str?_iff (v : Json) (s : Str) : v.str? = some s ↔ v = .str s := by
  cases v <;> simp [Json.str?]

theorem has_true (key : Str) (v : Json) : v.has key = .ok true ↔ Spec.JHas key v := by
  unfold Spec.JHas
  cases v with
  | str s =>
    simp only [Json.has, Except.ok.injEq, containsSub_infix]
    constructor
    · rintro ⟨a, b, rfl⟩; exact .inr (.inr ⟨a, b, rfl⟩)
    · rintro (⟨_, _, h, _⟩ | ⟨_, h, _⟩ | ⟨a, b, h⟩)
      · simp at h
      · simp at h
      · cases h; exact ⟨a, b, rfl⟩
  | arr l =>
    simp only [Json.has, Except.ok.injEq, List.any_eq_true, decide_eq_true_eq, str?_iff]
    constructor
    · rintro ⟨x, hx, rfl⟩; exact .inr (.inl ⟨l, rfl, hx⟩)
    · rintro (⟨_, _, h, _⟩ | ⟨_, h, hx⟩ | ⟨a, b, h⟩)
      · simp at h
      · cases h; exact ⟨_, hx, rfl⟩
      · simp at h
  | obj d =>
    simp only [Json.has, Except.ok.injEq, List.any_eq_true, decide_eq_true_eq]
    constructor
    · rintro ⟨⟨k, x⟩, hx, rfl⟩; exact .inl ⟨d, x, rfl, hx⟩
    · rintro (⟨_, x, h, hx⟩ | ⟨_, h, hx⟩ | ⟨a, b, h⟩)
      · cases h; exact ⟨_, hx, rfl⟩
      · simp at h
      · simp at h
  | _ =>
    simp only [Json.has, reduceCtorEq, false_iff]
    rintro (⟨_, _, h, _⟩ | ⟨_, h, _⟩ | ⟨a, b, h⟩) <;> simp at h

theorem has_container (key : Str) (v : Json) (h : Spec.JContainer v) : ∃ b, v.has key = .ok b := by
  rcases h with ⟨d, rfl⟩ | ⟨l, rfl⟩ | ⟨s, rfl⟩ <;> exact ⟨_, rfl⟩

theorem has_false (key : Str) (v : Json) (hc : Spec.JContainer v) (h : ¬ Spec.JHas key v) : v.has key = .ok false := by
  obtain ⟨b, hb⟩ := has_container key v hc
  cases b with
  | true => exact absurd ((has_true key v).1 hb) h
  | false => exact hb

theorem has_other (key : Str) (v : Json) (h : ¬ Spec.JContainer v) : v.has key = .error .type := by
  unfold Spec.JContainer at h
  cases v with
  | str s => exact absurd (.inr (.inr ⟨s, rfl⟩)) h
  | arr l => exact absurd (.inr (.inl ⟨l, rfl⟩)) h
  | obj d => exact absurd (.inl ⟨d, rfl⟩) h
  | _ => rfl

theorem hasBoth_true (a b : Str) (v : Json) (h1 : Spec.JHas a v) (h2 : Spec.JHas b v) : v.hasBoth a b = .ok true := by
  unfold Json.hasBoth
  rw [(has_true a v).2 h1, (has_true b v).2 h2]
  rfl

theorem hasBoth_false (a b : Str) (v : Json) (hc : Spec.JContainer v) (h : ¬ (Spec.JHas a v ∧ Spec.JHas b v)) : v.hasBoth a b = .ok false := by
  unfold Json.hasBoth
  by_cases h1 : Spec.JHas a v
  · rw [(has_true a v).2 h1, has_false b v hc fun h2 => h ⟨h1, h2⟩]; rfl
  · rw [has_false a v hc h1]; rfl

theorem hasBoth_other (a b : Str) (v : Json) (h : ¬ Spec.JContainer v) : v.hasBoth a b = .error .type := by
  unfold Json.hasBoth
  rw [has_other a v h]
  rfl

theorem field_iff (key : Str) (v x : Json) : v.field key = .ok x ↔ Spec.JField key v x := by
  unfold Spec.JField
  cases v with
  | obj d =>
    simp only [Json.field, Json.obj.injEq]
    constructor
    · intro h
      split at h
      · rename_i kv hf
        cases h
        obtain ⟨h1, a, b, rfl, h2⟩ := List.find?_eq_some_iff_append.1 hf
        obtain ⟨k, x⟩ := kv
        simp only [decide_eq_true_eq] at h1
        subst h1
        exact ⟨a, b, rfl, fun kv hkv => by simpa using h2 kv hkv⟩
      · simp at h
    · rintro ⟨a, b, rfl, h⟩
      have : (a ++ (key, x) :: b).find? (fun kv => decide (kv.1 = key)) = some (key, x) :=
        List.find?_eq_some_iff_append.2 ⟨by simp, a, b, rfl, fun kv hkv => by simpa using h kv hkv⟩
      rw [this]
  | _ => simp [Json.field]

theorem field_has {key : Str} {v x : Json} (h : Spec.JField key v x) : Spec.JHas key v := by
  obtain ⟨a, b, rfl, -⟩ := h
  exact .inl ⟨_, x, rfl, by simp⟩

theorem has_field {key : Str} {d : List (Str × Json)} (h : Spec.JHas key (.obj d)) : ∃ x, Spec.JField key (.obj d) x := by
  rcases h with ⟨d', x, h, hx⟩ | ⟨_, h, _⟩ | ⟨_, _, h⟩
  · cases h
    rcases hf : d.find? (fun kv => kv.1 = key) with _ | kv
    · rw [List.find?_eq_none] at hf
      exact absurd (by simp) (hf _ hx)
    · refine ⟨kv.2, (field_iff _ _ _).1 ?_⟩
      simp only [Json.field]
      rw [hf]
  · simp at h
  · simp at h

theorem items_container (v : Json) (h : Spec.JContainer v) : ∃ l, v.items = .ok l ∧ ∀ x, x ∈ l ↔ Spec.JItem v x := by
  unfold Spec.JItem
  rcases h with ⟨d, rfl⟩ | ⟨l, rfl⟩ | ⟨s, rfl⟩
  · refine ⟨_, rfl, fun x => ?_⟩
    simp only [List.mem_map]
    constructor
    · rintro ⟨⟨k, y⟩, h, rfl⟩; exact .inl ⟨d, k, y, rfl, h, rfl⟩
    · rintro (⟨_, k, y, h, hk, rfl⟩ | ⟨_, h, _⟩ | ⟨_, _, h, _⟩)
      · cases h; exact ⟨_, hk, rfl⟩
      · simp at h
      · simp at h
  · refine ⟨l, rfl, fun x => ?_⟩
    constructor
    · intro h; exact .inr (.inl ⟨l, rfl, h⟩)
    · rintro (⟨_, _, _, h, _⟩ | ⟨_, h, hx⟩ | ⟨_, _, h, _⟩)
      · simp at h
      · cases h; exact hx
      · simp at h
  · refine ⟨_, rfl, fun x => ?_⟩
    simp only [List.mem_map]
    constructor
    · rintro ⟨c, h, rfl⟩; exact .inr (.inr ⟨s, c, rfl, h, rfl⟩)
    · rintro (⟨_, _, _, h, _⟩ | ⟨_, h, _⟩ | ⟨_, c, h, hc, rfl⟩)
      · simp at h
      · simp at h
      · cases h; exact ⟨c, hc, rfl⟩

/-! ## Candidates of JSON files -/

theorem lootCandidates_ok (lib : TextLib) (v : Json) (hc : Spec.JContainer v) :
    ∃ ps, lootCandidates lib v = .ok ps ∧ ∀ q, q ∈ ps ↔ Spec.LootCand lib v q := by
  obtain ⟨l, h1, h2⟩ := items_container v hc
  unfold lootCandidates
  rw [h1]
  refine ⟨_, rfl, fun q => ?_⟩
  unfold Spec.LootCand
  have e : gameDataPrefix ++ "/v1/hextech-images/".toList = "plugins/rcp-be-lol-game-data/global/default/v1/hextech-images/".toList := by decide +kernel
  rw [e]
  simp only [List.mem_map, h2]
  constructor
  · rintro ⟨k, h, rfl⟩; exact ⟨k, h, rfl⟩
  · rintro ⟨k, h, rfl⟩; exact ⟨k, h, rfl⟩

theorem pluginCandidates_ok (lib : TextLib) (d : List (Str × Json)) (hn : Spec.JHas "name".toList (.obj d)) :
    ∃ ps, pluginCandidates lib (.obj d) = .ok ps ∧ ∀ q, q ∈ ps ↔ Spec.PluginCand lib (.obj d) q := by
  obtain ⟨x, hx⟩ := has_field hn
  have h1 := (field_iff _ _ _).2 hx
  unfold pluginCandidates
  rw [h1]
  refine ⟨_, rfl, fun q => ?_⟩
  unfold Spec.PluginCand pluginFiles Spec.pluginFiles
  rw [show ["index.html".toList, "init.js".toList, "init.js.map".toList, "bundle.js".toList, "trans.json".toList, "css/main.css".toList,
    "license.json".toList] = ["index.html", "init.js", "init.js.map", "bundle.js", "trans.json", "css/main.css", "license.json"].map String.toList
    from rfl]
  simp only [List.mem_map]
  constructor
  · rintro ⟨f, hf, rfl⟩; exact ⟨x, f.toList, hx, ⟨f, hf, rfl⟩, rfl⟩
  · rintro ⟨y, f', hy, ⟨f, hf, rfl⟩, rfl⟩
    rw [← field_iff, h1] at hy
    cases hy
    exact ⟨f, hf, rfl⟩

theorem splashCandidates_ok (v : Json) (files : List (Str × Json)) (hf : Spec.JField "files".toList v (.obj files))
    (hs : ∀ kx ∈ files, ∃ p, kx.2 = .str p) : ∃ ps, splashCandidates v = .ok ps ∧ ∀ q, q ∈ ps ↔ Spec.SplashCand v q := by
  have h1 := (field_iff _ _ _).2 hf
  obtain ⟨texts, h2, h3⟩ := mapM_forall₂ (R := fun v s => v = Json.str s) (f := jsonText) (l := files.map fun kv => kv.2) (by
    intro a ha
    rw [List.mem_map] at ha
    obtain ⟨kx, hkx, rfl⟩ := ha
    obtain ⟨p, hp⟩ := hs kx hkx
    exact ⟨p, by rw [hp]; rfl, hp⟩)
  have hmem : ∀ p, p ∈ texts ↔ ∃ k, (k, Json.str p) ∈ files := by
    intro p
    constructor
    · intro hp
      obtain ⟨x, hx, rfl⟩ := forall₂_mem_right h3 hp
      rw [List.mem_map] at hx
      obtain ⟨⟨k, y⟩, hk, rfl⟩ := hx
      exact ⟨k, hk⟩
    · rintro ⟨k, hk⟩
      obtain ⟨y, hy, h4⟩ := forall₂_mem_left h3 (x := Json.str p) (List.mem_map.2 ⟨_, hk, rfl⟩)
      cases h4
      exact hy
  refine ⟨splashFiles texts, ?_, fun q => ?_⟩
  · unfold splashCandidates
    rw [h1]
    simp only [bind, Except.bind, Json.values]
    rw [h2]
  · unfold splashFiles Spec.SplashCand
    simp only [List.mem_append, List.mem_map, List.mem_flatMap, List.mem_dedup, finditerAt_finds matchSplash_matches]
    constructor
    · rintro (⟨_, ⟨p, hp, n, hn, rfl⟩, rfl⟩ | ⟨_, ⟨p, hp, n, hn, rfl⟩, p', hp', rfl⟩)
      · obtain ⟨k, hk⟩ := (hmem p).1 hp
        exact ⟨files, k, p, n, hf, hk, hn, .inl rfl⟩
      · obtain ⟨k, hk⟩ := (hmem p).1 hp
        obtain ⟨k', hk'⟩ := (hmem p').1 hp'
        exact ⟨files, k, p, n, hf, hk, hn, .inr ⟨k', p', hk', rfl⟩⟩
    · rintro ⟨files', k, p, n, hf', hk, hn, h⟩
      rw [← field_iff, h1] at hf'
      cases hf'
      rcases h with rfl | ⟨k', p', hk', rfl⟩
      · exact .inl ⟨_, ⟨p, (hmem p).2 ⟨k, hk⟩, n, hn, rfl⟩, rfl⟩
      · exact .inr ⟨_, ⟨p, (hmem p).2 ⟨k, hk⟩, n, hn, rfl⟩, p', (hmem p').2 ⟨k', hk'⟩, rfl⟩

theorem summaryCandidates_ok (lib : TextLib) (v : Json) (hc : Spec.JContainer v)
    (hi : ∀ x, Spec.JItem v x → ∃ i, Spec.JField "id".toList x i) :
    ∃ ps, summaryCandidates lib v = .ok ps ∧ ∀ q, q ∈ ps ↔ Spec.SummaryCand lib v q := by
  obtain ⟨l, h1, h2⟩ := items_container v hc
  obtain ⟨ids, h3, h4⟩ := mapM_forall₂ (R := fun x i => Spec.JField "id".toList x i) (f := fun v => v.field "id".toList) (l := l) (by
    intro x hx
    obtain ⟨i, hi⟩ := hi x ((h2 x).1 hx)
    exact ⟨i, (field_iff _ _ _).2 hi, hi⟩)
  refine ⟨championPaths (ids.map fun i => i.format lib.repr), ?_, fun q => ?_⟩
  · unfold summaryCandidates
    rw [h1]
    simp only [bind, Except.bind]
    rw [h3]
  · unfold championPaths Spec.SummaryCand
    have e1 : gameDataPrefix ++ "/v1/champions/".toList = "plugins/rcp-be-lol-game-data/global/default/v1/champions/".toList := by decide +kernel
    have e2 : gameDataPrefix ++ "/v1/champion-splashes/".toList = "plugins/rcp-be-lol-game-data/global/default/v1/champion-splashes/".toList := by
      decide +kernel
    rw [e1, e2]
    simp only [List.mem_append, List.mem_map, exists_exists_and_eq_and]
    constructor
    · rintro (⟨i, hi, rfl⟩ | ⟨i, hi, rfl⟩)
      · obtain ⟨x, hx, h⟩ := forall₂_mem_right h4 hi
        exact ⟨x, i, (h2 x).1 hx, h, .inl rfl⟩
      · obtain ⟨x, hx, h⟩ := forall₂_mem_right h4 hi
        exact ⟨x, i, (h2 x).1 hx, h, .inr rfl⟩
    · rintro ⟨x, i, hx, hi, h⟩
      obtain ⟨i', hi', h5⟩ := forall₂_mem_left h4 ((h2 x).2 hx)
      rw [← field_iff] at hi h5
      rw [hi] at h5
      cases h5
      rcases h with rfl | rfl
      · exact .inl ⟨i, hi', rfl⟩
      · exact .inr ⟨i, hi', rfl⟩

theorem checkDefaults_ok (H : Str → Int) (l : List Json) (h : ∀ y ∈ l, ∃ p, y = .str p) :
    ∃ ps : List Str, (∀ g : Guesser, g.checkDefaults H l = (g.checkIter H (ps.map fun p => gameDataPrefix ++ lower p), .ok ())) ∧
      ∀ p, p ∈ ps ↔ Json.str p ∈ l := by
  induction l with
  | nil => exact ⟨[], fun g => by rw [List.map_nil, checkIter_nil]; rfl, by simp⟩
  | cons y l ih =>
    obtain ⟨ps, h1, h2⟩ := ih fun y hy => h y (List.mem_cons_of_mem _ hy)
    obtain ⟨p, rfl⟩ := h y List.mem_cons_self
    refine ⟨p :: ps, fun g => ?_, fun q => ?_⟩
    · rw [Guesser.checkDefaults]
      simp only [Json.str?]
      rw [h1, ← (C46_calls H g _ _).1]
      rfl
    · rw [List.mem_cons, List.mem_cons, h2, Json.str.injEq]

theorem grepDefaults_ok (H : Str → Int) (v : Json) (hc : Spec.JContainer v)
    (hf : Spec.JHas "recommendedItemDefaults".toList v → ∃ x, Spec.JField "recommendedItemDefaults".toList v x ∧ Spec.JContainer x ∧
      ∀ y, Spec.JItem x y → ∃ p, y = .str p) :
    ∃ ps, (∀ g : Guesser, g.grepDefaults H v = (g.checkIter H ps, .ok false)) ∧ ∀ q, q ∈ ps ↔ Spec.DefaultsCand v q := by
  by_cases hh : Spec.JHas "recommendedItemDefaults".toList v
  · obtain ⟨x, h1, h2, h3⟩ := hf hh
    obtain ⟨l, h4, h5⟩ := items_container x h2
    obtain ⟨ps, h6, h7⟩ := checkDefaults_ok H l fun y hy => h3 y ((h5 y).1 hy)
    have h8 := (field_iff _ _ _).2 h1
    refine ⟨ps.map fun p => gameDataPrefix ++ lower p, fun g => ?_, fun q => ?_⟩
    · unfold Guesser.grepDefaults
      rw [(has_true _ v).2 hh]
      simp only
      rw [h8]
      simp only [Except.bind]
      rw [h4]
      simp only
      rw [h6]
    · unfold Spec.DefaultsCand
      simp only [List.mem_map, h7, h5]
      constructor
      · rintro ⟨p, hp, rfl⟩; exact ⟨x, p, h1, hp, rfl⟩
      · rintro ⟨x', p, hx', hp, rfl⟩
        rw [← field_iff, h8] at hx'
        cases hx'
        exact ⟨p, hp, rfl⟩
  · refine ⟨[], fun g => ?_, fun q => ?_⟩
    · unfold Guesser.grepDefaults
      rw [has_false _ v hc hh, checkIter_nil]
    · unfold Spec.DefaultsCand
      simp only [List.not_mem_nil, false_iff]
      rintro ⟨x, p, hx, -⟩
      exact hh (field_has hx)

theorem grepJson_ok (H : Str → Int) (lib : TextLib) (path : Option Str) (v : Json) (hf : Spec.JsonFine path v) :
    ∃ ps skip, (∀ g : Guesser, g.grepJson H lib path v = (g.checkIter H ps, .ok skip)) ∧ (∀ q, q ∈ ps ↔ Spec.JsonCand lib path v q) ∧
      (skip = true ↔ Spec.JsonOnly path v) := by
  obtain ⟨hc, hf⟩ := hf
  unfold Guesser.grepJson Spec.JsonCand Spec.JsonOnly
  by_cases hp : path = some Spec.lootPath
  · obtain ⟨ps, h1, h2⟩ := lootCandidates_ok lib v hc
    refine ⟨ps, true, fun g => ?_, fun q => ?_, ?_⟩
    · rw [if_pos (show path = some lootFile from hp), h1]; rfl
    · rw [if_pos hp]; exact h2 q
    · simp [hp]
  · have hf := hf hp
    have hp' : ¬ path = some lootFile := hp
    by_cases h1 : Spec.IsPlugin v
    · rw [if_pos h1] at hf
      obtain ⟨d, rfl⟩ := hf
      obtain ⟨ps, h2, h3⟩ := pluginCandidates_ok lib d h1.2
      refine ⟨ps, false, fun g => ?_, fun q => ?_, ?_⟩
      · rw [if_neg hp', hasBoth_true _ _ _ h1.1 h1.2]
        simp only
        rw [h2]; rfl
      · rw [if_neg hp, if_pos h1]; exact h3 q
      · simp only [Bool.false_eq_true, false_iff, not_or]
        exact ⟨hp, fun h => h.1 h1⟩
    · rw [if_neg h1] at hf
      by_cases h2 : Spec.IsSplash v
      · rw [if_pos h2] at hf
        obtain ⟨files, h3, h4⟩ := hf
        obtain ⟨ps, h5, h6⟩ := splashCandidates_ok v files h3 h4
        refine ⟨ps, true, fun g => ?_, fun q => ?_, ?_⟩
        · rw [if_neg hp', hasBoth_false _ _ _ hc h1]
          simp only
          rw [hasBoth_true _ _ _ h2.2.1 h2.2.2]
          simp only
          rw [h5]; rfl
        · rw [if_neg hp, if_neg h1, if_pos h2]; exact h6 q
        · simp [h2]
      · rw [if_neg h2] at hf
        have h3 : ∀ g : Guesser, g.grepJson H lib path v = if path = some summaryFile then g.checkRes H false (summaryCandidates lib v)
            else g.grepDefaults H v := by
          intro g
          unfold Guesser.grepJson
          rw [if_neg hp', hasBoth_false _ _ _ hc h1]
          simp only
          rw [hasBoth_false _ _ _ hc fun h => h2 ⟨h1, h⟩]
        unfold Guesser.grepJson at h3
        by_cases h4 : path = some Spec.summaryPath
        · rw [if_pos h4] at hf
          obtain ⟨ps, h5, h6⟩ := summaryCandidates_ok lib v hc hf
          refine ⟨ps, false, fun g => ?_, fun q => ?_, ?_⟩
          · rw [h3, if_pos (show path = some summaryFile from h4), h5]; rfl
          · rw [if_neg hp, if_neg h1, if_neg h2, if_pos h4]; exact h6 q
          · simp [hp, h2]
        · rw [if_neg h4] at hf
          obtain ⟨ps, h5, h6⟩ := grepDefaults_ok H v hc hf
          refine ⟨ps, false, fun g => ?_, fun q => ?_, ?_⟩
          · rw [h3, if_neg (show ¬ path = some summaryFile from h4), h5]
          · rw [if_neg hp, if_neg h1, if_neg h2, if_neg h4]; exact h6 q
          · simp [hp, h2]

/-! ## Texts -/

theorem decodeSig_iff (b : Bytes) (text : Str) : decodeSig b = .ok text ↔
    (∃ t, b = 0xef :: 0xbb :: 0xbf :: t ∧ utf8 t = .ok text) ∨ ((∀ t, b ≠ 0xef :: 0xbb :: 0xbf :: t) ∧ utf8 b = .ok text) := by
  unfold decodeSig
  by_cases h : b.take 3 = [0xef, 0xbb, 0xbf]
  · rw [if_pos h]
    have hb : b = 0xef :: 0xbb :: 0xbf :: b.drop 3 := by
      conv_lhs => rw [← List.take_append_drop 3 b, h]
      rfl
    constructor
    · intro hu; exact .inl ⟨_, hb, hu⟩
    · rintro (⟨t, rfl, hu⟩ | ⟨hn, -⟩)
      · exact hu
      · exact absurd hb (hn _)
  · rw [if_neg h]
    have hn : ∀ t, b ≠ 0xef :: 0xbb :: 0xbf :: t := by
      rintro t rfl
      exact h rfl
    constructor
    · intro hu; exact .inr ⟨hn, hu⟩
    · rintro (⟨t, rfl, hu⟩ | ⟨-, hu⟩)
      · exact absurd rfl (hn t)
      · exact hu

theorem binaryExts_iff (ext : Option Str) : ext ∈ binaryExts.map some ↔ ∃ e ∈ Spec.binaryExts, ext = some e := by
  have : binaryExts = Spec.binaryExts := rfl
  rw [this, List.mem_map]
  constructor
  · rintro ⟨e, h, rfl⟩; exact ⟨e, h, rfl⟩
  · rintro ⟨e, h, rfl⟩; exact ⟨e, h, rfl⟩

theorem textFile_some (cx : Codecs) (file : Bytes) (w : WadEntry) (text : Str) : textFile cx file w = .ok (some text) ↔ Spec.TextOf cx file w text := by
  unfold textFile Spec.TextOf
  by_cases he : w.ext ∈ binaryExts.map some
  · rw [if_pos he]
    simp only [Except.ok.injEq, reduceCtorEq, false_iff]
    rintro ⟨h, -⟩
    obtain ⟨e, h1, h2⟩ := (binaryExts_iff _).1 he
    exact h e h1 h2
  · rw [if_neg he]
    have he' : ∀ e ∈ Spec.binaryExts, w.ext ≠ some e := fun e h1 h2 => he ((binaryExts_iff _).2 ⟨e, h1, h2⟩)
    rcases hr : readData cx w file none with e | _ | b
    · cases e <;> simp only [Except.ok.injEq, reduceCtorEq, false_iff] <;> exact fun ⟨_, _, _, h, _⟩ => h.elim
    · simp only [reduceCtorEq, false_iff, Except.ok.injEq]
      exact fun ⟨_, _, _, h, _⟩ => h.elim
    · simp only [Except.ok.injEq, Option.some.injEq, exists_eq_left', ← decodeSig_iff]
      rcases hd : decodeSig b with e | _ | ⟨c, s⟩
      · simp
      · simp only [Except.ok.injEq, reduceCtorEq, false_iff]
        rintro ⟨-, h1, h2⟩
        exact h1 h2.symm
      · simp only [Except.ok.injEq, Option.some.injEq]
        constructor
        · rintro rfl; exact ⟨he', by simp, rfl⟩
        · exact fun h => h.2.2

theorem textFile_readable (cx : Codecs) (file : Bytes) (w : WadEntry) (h : Spec.ReadableText cx file w) : ∃ o, textFile cx file w = .ok o := by
  unfold textFile
  by_cases he : w.ext ∈ binaryExts.map some
  · rw [if_pos he]; exact ⟨_, rfl⟩
  · rw [if_neg he]
    rcases h with h | h | ⟨b, h⟩
    · exact absurd ((binaryExts_iff _).2 h) he
    · rw [h]; exact ⟨_, rfl⟩
    · rw [h]
      simp only
      rcases hd : decodeSig b with e | _ | ⟨c, s⟩ <;> exact ⟨_, rfl⟩

theorem textFile_error (cx : Codecs) (file : Bytes) (w : WadEntry) (hx : ∀ e ∈ Spec.binaryExts, w.ext ≠ some e) :
    (readData cx w file none = .ok none → textFile cx file w = .error .attribute) ∧
    ∀ e, e ≠ .unicode → readData cx w file none = .error e → textFile cx file w = .error e := by
  have he : ¬ w.ext ∈ binaryExts.map some := by
    rw [binaryExts_iff]
    rintro ⟨e, h1, h2⟩
    exact hx e h1 h2
  unfold textFile
  rw [if_neg he]
  constructor
  · intro h; rw [h]
  · intro e hne h
    rw [h]
    cases e <;> first | rfl | exact absurd rfl hne

theorem parseJson_iff (lib : TextLib) (ext : Option Str) (text : Str) (v : Json) : parseJson lib ext text = some v ↔ Spec.ValueOf lib ext text v := by
  unfold parseJson Spec.ValueOf
  by_cases he : ext = some "json".toList
  · rw [if_pos he]
    split
    · rename_i hl
      rw [hl]
      simp only [reduceCtorEq, Option.some.injEq, false_iff]
      rintro ⟨-, rfl, h⟩
      exact h rfl
    · rename_i r hn
      constructor
      · intro h
        refine ⟨he, h, ?_⟩
        rintro rfl
        exact hn h
      · exact fun h => h.2.1
  · rw [if_neg he]
    exact ⟨fun h => (nomatch h), fun h => absurd h.1 he⟩

theorem grepText_ok (H : Str → Int) (lib : TextLib) (w : WadEntry) (text : Str)
    (hf : ∀ v, Spec.ValueOf lib w.ext text v → Spec.JsonFine w.path v) :
    ∃ ps rels, (∀ g : Guesser, g.grepText H lib w text = (g.checkIter H ps, .ok rels)) ∧
      (∀ q, q ∈ ps ↔ (∃ v, Spec.ValueOf lib w.ext text v ∧ Spec.JsonCand lib w.path v q) ∨
        ((∀ v, Spec.ValueOf lib w.ext text v → ¬ Spec.JsonOnly w.path v) ∧ Spec.TextPath lib.uni text q)) ∧
      ∀ q, q ∈ rels ↔ (∀ v, Spec.ValueOf lib w.ext text v → ¬ Spec.JsonOnly w.path v) ∧ Spec.TextRel lib.uni text q := by
  simp only [← parseJson_iff] at hf ⊢
  unfold Guesser.grepText
  rcases hp : parseJson lib w.ext text with _ | v
  · refine ⟨textPaths lib.uni text, textRelpaths lib.uni text, fun g => rfl, fun q => ?_, fun q => ?_⟩
    · rw [textPaths_mem]; simp
    · rw [textRelpaths_mem]; simp
  · obtain ⟨ps, skip, h1, h2, h3⟩ := grepJson_ok H lib w.path v (hf v hp)
    cases skip with
    | true =>
      have hj := h3.1 rfl
      refine ⟨ps, [], fun g => ?_, fun q => ?_, fun q => ?_⟩
      · unfold Guesser.grepValue
        simp only
        rw [h1]
      · rw [h2]; simp [hj]
      · simp [hj]
    | false =>
      have hj : ¬ Spec.JsonOnly w.path v := fun h => by simpa using h3.2 h
      refine ⟨ps ++ textPaths lib.uni text, textRelpaths lib.uni text, fun g => ?_, fun q => ?_, fun q => ?_⟩
      · unfold Guesser.grepValue
        simp only
        rw [h1, (C46_calls H g _ _).1]
      · rw [List.mem_append, h2, textPaths_mem]; simp [hj]
      · rw [textRelpaths_mem]; simp [hj]

theorem grepTexts_cons (H : Str → Int) (lib : TextLib) (cx : Codecs) (file : Bytes) (w : WadEntry) (hf : Spec.LcuFine lib cx file w) :
    ∃ ps rels, (∀ (g : Guesser) rs ws, g.grepTexts H lib cx file rs (w :: ws) = (g.checkIter H ps).grepTexts H lib cx file (rs ++ rels) ws) ∧
      (∀ q, q ∈ ps ↔ Spec.LcuCand lib cx file w q) ∧ ∀ q, q ∈ rels ↔ Spec.LcuRel lib cx file w q := by
  obtain ⟨o, ho⟩ := textFile_readable cx file w hf.1
  unfold Spec.LcuCand Spec.LcuRel
  simp only [← textFile_some, ho, Except.ok.injEq]
  cases o with
  | none =>
    refine ⟨[], [], fun g rs ws => ?_, by simp, by simp⟩
    rw [Guesser.grepTexts, ho, checkIter_nil, List.append_nil]
  | some text =>
    obtain ⟨ps, rels, h1, h2, h3⟩ := grepText_ok H lib w text fun v hv => hf.2 text v ((textFile_some _ _ _ _).1 ho) hv
    refine ⟨ps, rels, fun g rs ws => ?_, fun q => ?_, fun q => ?_⟩
    · rw [Guesser.grepTexts, ho]
      simp only
      rw [h1]
    · rw [h2]
      constructor
      · exact fun h => ⟨text, rfl, h⟩
      · rintro ⟨t, ht, h⟩; cases ht; exact h
    · rw [h3]
      constructor
      · exact fun h => ⟨text, rfl, h⟩
      · rintro ⟨t, ht, h⟩; cases ht; exact h

theorem grepTexts_ok (H : Str → Int) (lib : TextLib) (cx : Codecs) (file : Bytes) (ws : List WadEntry) (hf : ∀ w ∈ ws, Spec.LcuFine lib cx file w) :
    ∃ ps rels, (∀ (g : Guesser) rs post, g.grepTexts H lib cx file rs (ws ++ post) = (g.checkIter H ps).grepTexts H lib cx file (rs ++ rels) post) ∧
      (∀ q, q ∈ ps ↔ ∃ w ∈ ws, Spec.LcuCand lib cx file w q) ∧ ∀ q, q ∈ rels ↔ ∃ w ∈ ws, Spec.LcuRel lib cx file w q := by
  induction ws with
  | nil => exact ⟨[], [], fun g rs post => by rw [checkIter_nil, List.append_nil]; rfl, by simp, by simp⟩
  | cons w ws ih =>
    obtain ⟨ps, rels, h1, h2, h3⟩ := grepTexts_cons H lib cx file w (hf w List.mem_cons_self)
    obtain ⟨ps', rels', h4, h5, h6⟩ := ih fun w hw => hf w (List.mem_cons_of_mem _ hw)
    refine ⟨ps ++ ps', rels ++ rels', fun g rs post => ?_, fun q => ?_, fun q => ?_⟩
    · rw [List.cons_append, h1, h4, (C46_calls H g _ _).1, List.append_assoc]
    · rw [List.mem_append, h2, h5]; simp
    · rw [List.mem_append, h3, h6]; simp

theorem checkIter_dirs (H : Str → Int) (g : Guesser) (ps : List Str) : (g.checkIter H ps).dirs = g.dirs := by
  induction ps generalizing g with
  | nil => rfl
  | cons p ps ih =>
    rw [Guesser.checkIter, ih]
    split <;> rfl

/-! ## Theorems -/

/-- What a JSON file gives, according to its path and its content. -/
theorem C70_json (H : Str → Int) (lib : TextLib) (g : Guesser) (hg : Reached H g) (path : Option Str) (v : Json) (hf : Spec.JsonFine path v) :
    Spec.Guesses H g (g.grepJson H lib path v).1 (Spec.JsonCand lib path v) ∧
    ((g.grepJson H lib path v).2 = .ok true ∧ Spec.JsonOnly path v ∨ (g.grepJson H lib path v).2 = .ok false ∧ ¬ Spec.JsonOnly path v) := by
  obtain ⟨ps, skip, h1, h2, h3⟩ := grepJson_ok H lib path v hf
  rw [h1]
  refine ⟨checkIter_guesses H g hg.inv.1 _ _ h2, ?_⟩
  cases skip with
  | true => exact .inl ⟨rfl, h3.1 rfl⟩
  | false => exact .inr ⟨rfl, fun h => by simpa using h3.2 h⟩

/-- All the text files of a WAD are searched: full paths are checked first, then relative paths in all the directories that are known once this
is done. -/
theorem C70_wad (H : Str → Int) (lib : TextLib) (cx : Codecs) (file : Bytes) (g : Guesser) (hg : Reached H g) (hd : g.dirs = none)
    (ws : List WadEntry) (hf : ∀ w ∈ ws, Spec.LcuFine lib cx file w) :
    (g.lcuGrepWad H lib cx file ws).2 = .ok () ∧
    ∃ g1, Reached H g1 ∧ Spec.Guesses H g g1 (fun q => ∃ w ∈ ws, Spec.LcuCand lib cx file w q) ∧
      Spec.Guesses H g1 (g.lcuGrepWad H lib cx file ws).1 (fun q => ∃ w ∈ ws, ∃ rel, Spec.LcuRel lib cx file w rel ∧
        ∃ h p d, (h, p) ∈ g1.known ∧ Spec.Ancestor p d ∧ q = d ++ '/' :: lower rel) := by
  obtain ⟨ps, rels, h1, h2, h3⟩ := grepTexts_ok H lib cx file ws hf
  have h4 : g.lcuGrepWad H lib cx file ws = ((g.checkIter H ps).checkBasenames H (rels.dedup.map lower), .ok ()) := by
    unfold Guesser.lcuGrepWad
    have := h1 g [] []
    rw [List.append_nil] at this
    rw [this]
    rfl
  rw [h4]
  have hr := reached_iter hg ps
  have hd' : (g.checkIter H ps).dirs = none := by rw [checkIter_dirs, hd]
  refine ⟨rfl, g.checkIter H ps, hr, checkIter_guesses H g hg.inv.1 _ _ h2, (C55_basenames H _ hr hd' _).congr fun q => ?_⟩
  simp only [List.mem_map, List.mem_dedup, h3]
  constructor
  · rintro ⟨_, ⟨rel, ⟨w, hw, hrel⟩, rfl⟩, h, p, d, h5, h6, rfl⟩; exact ⟨w, hw, rel, hrel, h, p, d, h5, h6, rfl⟩
  · rintro ⟨w, hw, rel, hrel, h, p, d, h5, h6, rfl⟩; exact ⟨_, ⟨rel, ⟨w, hw, hrel⟩, rfl⟩, h, p, d, h5, h6, rfl⟩

/-- The same when the directories are already computed: they are not computed again. -/
theorem C70_wad_again (H : Str → Int) (lib : TextLib) (cx : Codecs) (file : Bytes) (g : Guesser) (hg : Reached H g) (dirs : List Str)
    (hd : g.dirs = some dirs) (ws : List WadEntry) (hf : ∀ w ∈ ws, Spec.LcuFine lib cx file w) :
    (g.lcuGrepWad H lib cx file ws).2 = .ok () ∧
    Spec.Guesses H g (g.lcuGrepWad H lib cx file ws).1 (fun q => ∃ w ∈ ws, Spec.LcuCand lib cx file w q ∨
      ∃ rel d, Spec.LcuRel lib cx file w rel ∧ d ∈ dirs ∧ q = d ++ '/' :: lower rel) := by
  obtain ⟨ps, rels, h1, h2, h3⟩ := grepTexts_ok H lib cx file ws hf
  have hd' : (g.checkIter H ps).dirs = some dirs := by rw [checkIter_dirs, hd]
  have h5 : (g.checkIter H ps).directoryList true = (g.checkIter H ps, dirs) := by
    unfold Guesser.directoryList
    rw [hd']
  have h4 : g.lcuGrepWad H lib cx file ws =
      (g.checkIter H (ps ++ ((rels.dedup.map lower).insertionSort (· ≤ ·)).flatMap fun name => dirs.map fun dir => dir ++ '/' :: name), .ok ()) := by
    unfold Guesser.lcuGrepWad
    have := h1 g [] []
    rw [List.append_nil] at this
    rw [this, (C46_calls H g _ _).1, ← foldl_checkIter H (fun name => dirs.map fun dir => dir ++ '/' :: name)]
    simp only [Guesser.grepTexts, Guesser.checkBasenames, Guesser.checkNames, h5, List.nil_append]
  rw [h4]
  refine ⟨rfl, checkIter_guesses H g hg.inv.1 _ _ fun q => ?_⟩
  simp only [List.mem_append, h2, List.mem_flatMap, (List.perm_insertionSort _ _).mem_iff, List.mem_map, List.mem_dedup, h3]
  constructor
  · rintro (⟨w, hw, h⟩ | ⟨_, ⟨rel, ⟨w, hw, hrel⟩, rfl⟩, d, hd, rfl⟩)
    · exact ⟨w, hw, .inl h⟩
    · exact ⟨w, hw, .inr ⟨rel, d, hrel, hd, rfl⟩⟩
  · rintro ⟨w, hw, h | ⟨rel, d, hrel, hd, rfl⟩⟩
    · exact .inl ⟨w, hw, h⟩
    · exact .inr ⟨_, ⟨rel, ⟨w, hw, hrel⟩, rfl⟩, d, hd, rfl⟩

/-- A file that cannot be read, for instance a redirection, stops the search: the next files are not searched, and no relative path is
checked, even those of the files before. -/
theorem C70_unreadable (H : Str → Int) (lib : TextLib) (cx : Codecs) (file : Bytes) (g : Guesser) (hg : Reached H g) (pre : List WadEntry)
    (w : WadEntry) (post : List WadEntry) (hf : ∀ w ∈ pre, Spec.LcuFine lib cx file w) (hx : ∀ e ∈ Spec.binaryExts, w.ext ≠ some e) (e : Err)
    (he : (readData cx w file none = .ok none ∧ e = .attribute) ∨ (readData cx w file none = .error e ∧ e ≠ .unicode)) :
    (g.lcuGrepWad H lib cx file (pre ++ w :: post)).2 = .error e ∧
    Spec.Guesses H g (g.lcuGrepWad H lib cx file (pre ++ w :: post)).1 (fun q => ∃ w ∈ pre, Spec.LcuCand lib cx file w q) := by
  obtain ⟨ps, rels, h1, h2, h3⟩ := grepTexts_ok H lib cx file pre hf
  have ht : textFile cx file w = .error e := by
    obtain ⟨h4, h5⟩ := textFile_error cx file w hx
    rcases he with ⟨h6, rfl⟩ | ⟨h6, h7⟩
    · exact h4 h6
    · exact h5 e h7 h6
  have h4 : g.lcuGrepWad H lib cx file (pre ++ w :: post) = (g.checkIter H ps, .error e) := by
    unfold Guesser.lcuGrepWad
    rw [h1, Guesser.grepTexts, ht]
  rw [h4]
  exact ⟨rfl, checkIter_guesses H g hg.inv.1 _ _ h2⟩

/-- A JSON file whose value is a number or a boolean stops the search in the same way. -/
theorem C70_number (H : Str → Int) (lib : TextLib) (cx : Codecs) (file : Bytes) (g : Guesser) (hg : Reached H g) (pre : List WadEntry)
    (w : WadEntry) (post : List WadEntry) (hf : ∀ w ∈ pre, Spec.LcuFine lib cx file w) (text : Str) (v : Json)
    (ht : Spec.TextOf cx file w text) (hv : Spec.ValueOf lib w.ext text v) (hn : ¬ Spec.JContainer v) :
    (g.lcuGrepWad H lib cx file (pre ++ w :: post)).2 = .error .type ∧
    Spec.Guesses H g (g.lcuGrepWad H lib cx file (pre ++ w :: post)).1 (fun q => ∃ w ∈ pre, Spec.LcuCand lib cx file w q) := by
  obtain ⟨ps, rels, h1, h2, h3⟩ := grepTexts_ok H lib cx file pre hf
  have hi : v.items = .error .type := by
    unfold Spec.JContainer at hn
    cases v with
    | str s => exact absurd (.inr (.inr ⟨s, rfl⟩)) hn
    | arr l => exact absurd (.inr (.inl ⟨l, rfl⟩)) hn
    | obj d => exact absurd (.inl ⟨d, rfl⟩) hn
    | _ => rfl
  have hj : ∀ g : Guesser, g.grepJson H lib w.path v = (g, .error .type) := by
    intro g
    unfold Guesser.grepJson
    split
    · unfold lootCandidates
      rw [hi]; rfl
    · rw [hasBoth_other _ _ _ hn]
  have h4 : g.lcuGrepWad H lib cx file (pre ++ w :: post) = (g.checkIter H ps, .error .type) := by
    unfold Guesser.lcuGrepWad
    rw [h1, Guesser.grepTexts, (textFile_some _ _ _ _).2 ht]
    simp only
    unfold Guesser.grepText
    rw [(parseJson_iff _ _ _ _).2 hv]
    simp only [Guesser.grepValue]
    rw [hj]
  rw [h4]
  exact ⟨rfl, checkIter_guesses H g hg.inv.1 _ _ h2⟩

/-! ## Examples -/
namespace C70ex

def cx : Codecs := { gunzip := .ok, unzstd := .ok, xxh3 := leNat, isJson := fun _ => false }
def lib : TextLib := { loads := fun t => if t = "{plugin}".toList then some (.obj [("name".toList, .str "rcp-fe-x".toList), ("pluginDependencies".toList, .obj [])])
                                         else if t = "12".toList then some (.num "12".toList) else none
                       repr := fun _ => [], uni := fun _ => false }

/-- Paths and relative paths of a script: word boundaries, greedy and lazy repetitions -/
example : textPaths lib.uni "x(/fe/Lol-a/b.js,cafe/c/d.js,/lol-game-data/assets/E/f.png;/DATA/g)".toList =
      ["plugins/rcp-fe-lol-a/global/default/b.js".toList, "plugins/rcp-be-lol-game-data/global/default/data/g".toList,
        "plugins/rcp-be-lol-game-data/global/default/e/f.png".toList] ∧
    textRelpaths lib.uni "(../a/b) \"c/d.js.map\" 'e.js.mapp' <template id=\"x-template-y-template-z\"".toList =
      ["../a/b".toList, "c/d.js.map".toList, "e.js".toList, "z/template.html".toList] ∧
    textRelpaths lib.uni "//# sourceMappingURL=a.js.map.js.map".toList = ["a.js".toList] := by decide +kernel

def jsonText' : Bytes := utf8Bytes "{plugin}".toList
def jsText : Bytes := utf8Bytes "'a.js'".toList
def file : Bytes := jsonText' ++ jsText ++ utf8Bytes "12".toList

def entry (offset size type : Nat) (ext path : Str) : WadEntry :=
  { pathHash := 0, offset, compressedSize := size, size, type, subchunkCount := 0, duplicate := false, firstSubchunk := none, sha256 := none,
    path := some path, ext := some ext }

def description : WadEntry := entry 0 8 0 "json".toList "description.json".toList
def script : WadEntry := entry 8 6 0 "js".toList "x.js".toList
def number : WadEntry := entry 14 2 0 "json".toList "n.json".toList
def link : WadEntry := entry 14 2 9 "json".toList "n.json".toList
def image : WadEntry := entry 0 8 0 "png".toList "x.png".toList

theorem description_text : Spec.TextOf cx file description "{plugin}".toList := by
  refine ⟨by decide +kernel, by decide +kernel, jsonText', by decide +kernel, .inr ⟨fun t h => ?_, utf8_utf8Bytes _⟩⟩
  have : jsonText'.take 1 ≠ [0xef] := by decide +kernel
  rw [h] at this
  exact this rfl

theorem script_text : Spec.TextOf cx file script "'a.js'".toList := by
  refine ⟨by decide +kernel, by decide +kernel, jsText, by decide +kernel, .inr ⟨fun t h => ?_, utf8_utf8Bytes _⟩⟩
  have : jsText.take 1 ≠ [0xef] := by decide +kernel
  rw [h] at this
  exact this rfl

theorem number_text : Spec.TextOf cx file number "12".toList := by
  refine ⟨by decide +kernel, by decide +kernel, utf8Bytes "12".toList, by decide +kernel, .inr ⟨fun t h => ?_, utf8_utf8Bytes _⟩⟩
  have : (utf8Bytes "12".toList).take 1 ≠ [0xef] := by decide +kernel
  rw [h] at this
  exact this rfl

theorem textOf_unique {w : WadEntry} {t t' : Str} (h : Spec.TextOf cx file w t) (h' : Spec.TextOf cx file w t') : t = t' := by
  rw [← textFile_some] at h h'
  rw [h] at h'
  simpa using h'

theorem readable {w : WadEntry} {t : Str} (h : Spec.TextOf cx file w t) : Spec.ReadableText cx file w := by
  obtain ⟨-, -, b, h, -⟩ := h
  exact .inr (.inr ⟨b, h⟩)

/-- A WAD with the description of a plugin, a script and an image -/
theorem fine : ∀ w ∈ [description, script, image], Spec.LcuFine lib cx file w := by
  intro w hw
  simp only [List.mem_cons, List.not_mem_nil, or_false] at hw
  rcases hw with rfl | rfl | rfl
  · refine ⟨readable description_text, fun t v ht hv => ?_⟩
    rw [textOf_unique ht description_text] at hv
    obtain ⟨-, hv, -⟩ := hv
    have : lib.loads "{plugin}".toList = some (.obj [("name".toList, .str "rcp-fe-x".toList), ("pluginDependencies".toList, .obj [])]) := rfl
    rw [this] at hv
    cases hv
    refine ⟨.inl ⟨_, rfl⟩, fun _ => ?_⟩
    rw [if_pos]
    · exact ⟨_, rfl⟩
    · exact ⟨.inl ⟨_, _, rfl, List.mem_cons_of_mem _ List.mem_cons_self⟩, .inl ⟨_, _, rfl, List.mem_cons_self⟩⟩
  · refine ⟨readable script_text, fun t v ht hv => ?_⟩
    obtain ⟨hv, -⟩ := hv
    exact absurd hv (by decide +kernel)
  · exact ⟨.inl ⟨"png".toList, by decide +kernel, rfl⟩, fun t v ht => absurd rfl (ht.1 "png".toList (by decide +kernel))⟩

/-- The hypotheses of `C70_wad`, and candidates of each kind -/
example : Spec.LcuCand lib cx file description "plugins/rcp-fe-x/global/default/init.js".toList ∧ Spec.LcuRel lib cx file script "a.js".toList := by
  constructor
  · refine ⟨_, description_text, .inl ⟨.obj [("name".toList, .str "rcp-fe-x".toList), ("pluginDependencies".toList, .obj [])],
      ⟨rfl, rfl, by simp⟩, ?_⟩⟩
    unfold Spec.JsonCand
    rw [if_neg (by decide +kernel), if_pos]
    · exact ⟨.str "rcp-fe-x".toList, "init.js".toList, ⟨[], _, rfl, by simp⟩, by decide +kernel, by decide +kernel⟩
    · exact ⟨.inl ⟨_, _, rfl, List.mem_cons_of_mem _ List.mem_cons_self⟩, .inl ⟨_, _, rfl, List.mem_cons_self⟩⟩
  · refine ⟨_, script_text, fun v hv => absurd hv.1 (by decide +kernel), ?_⟩
    rw [← textRelpaths_mem]
    decide +kernel

/-- A number stops the search, and so does an unknown type. -/
example : Spec.ValueOf lib number.ext "12".toList (.num "12".toList) ∧ ¬ Spec.JContainer (.num "12".toList) ∧
    readData cx link file none = .error .value ∧ readData cx { link with type := 2 } file none = .error .struct := by
  refine ⟨⟨rfl, rfl, by simp⟩, ?_, by decide +kernel, by decide +kernel⟩
  rintro (⟨_, h⟩ | ⟨_, h⟩ | ⟨_, h⟩) <;> simp at h

/-- A redirection, here to an empty path: there is no data to search. -/
example : readData cx (entry 0 4 2 "json".toList "l.json".toList) [0, 0, 0, 0] none = .ok none := by
  have h : utf8 [] = .ok [] := utf8_utf8Bytes []
  have : readData cx (entry 0 4 2 "json".toList "l.json".toList) [0, 0, 0, 0] none = match utf8 [] with
    | .error e => .error e
    | .ok _ => .ok none := rfl
  rw [this, h]

end C70ex

end Cdtb
