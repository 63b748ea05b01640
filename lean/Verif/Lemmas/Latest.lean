import Verif.Spec.Latest
namespace Cdtb
set_option autoImplicit false
open Py Spec

theorem field_at (v : Json) (k : Str) (w : Json) : v.field k = .ok w ↔ At v [k] w := by
  simp only [At]
  constructor
  · intro h
    cases v with
    | obj d =>
      simp only [Json.field] at h
      split at h
      · rename_i kv hf
        obtain ⟨hk, a, b, hd, ha⟩ := List.find?_eq_some_iff_append.1 hf
        refine ⟨a, b, kv.2, ?_, ?_, Except.ok.inj h⟩
        · rw [hd]
          have : kv.1 = k := by simpa using hk
          rw [← this]
        · intro e he
          simpa using ha e he
      · cases h
    | _ => simp [Json.field] at h
  · rintro ⟨a, b, x, rfl, ha, rfl⟩
    have hf : (a ++ (k, x) :: b).find? (fun kv => decide (kv.1 = k)) = some (k, x) :=
      List.find?_eq_some_iff_append.2 ⟨by simp, a, b, rfl, fun e he => by simpa using ha e he⟩
    simp only [Json.field, hf]

theorem at_cons (v : Json) (k : Str) (ks : List Str) (w : Json) : At v (k :: ks) w ↔ ∃ x, v.field k = .ok x ∧ At x ks w := by
  constructor
  · rintro ⟨a, b, x, h1, h2, h3⟩
    exact ⟨x, (field_at v k x).2 ⟨a, b, x, h1, h2, rfl⟩, h3⟩
  · rintro ⟨x, h, h3⟩
    obtain ⟨a, b, y, h1, h2, h4⟩ := (field_at v k x).1 h
    cases h4
    exact ⟨a, b, _, h1, h2, h3⟩

theorem fetch_ok (web : Web) (url : Str) (b : Bytes) : web.fetch url = .ok b ↔ WebServes web url b := by
  unfold Web.fetch WebServes
  cases h : web url with
  | error e => simp [bind, Except.bind]
  | ok r =>
    simp only [bind, Except.bind, HttpResp.checked, Except.ok.injEq]
    constructor
    · intro h1
      split at h1
      · cases h1
      · exact ⟨r, rfl, by omega, Except.ok.inj h1⟩
    · rintro ⟨r', rfl, h1, rfl⟩
      rw [if_neg (by omega)]

theorem fetch_error (web : Web) (url : Str) (e : Err) : web.fetch url = .error e ↔ Down web url e := by
  unfold Web.fetch Down
  cases h : web url with
  | error e => simp [bind, Except.bind]
  | ok r =>
    simp only [bind, Except.bind, HttpResp.checked, Except.ok.injEq, reduceCtorEq, false_or]
    constructor
    · intro h1
      split at h1
      · exact ⟨r, rfl, by omega, by omega, (Except.error.inj h1).symm⟩
      · cases h1
    · rintro ⟨r', rfl, h1, h2, rfl⟩
      rw [if_pos (by omega)]

theorem parseDoc_ok (loads : Str → Option Json) (b : Bytes) (v : Json) : parseDoc loads b = .ok v ↔ Document loads b v := by
  unfold parseDoc Document
  cases h : utf8 b with
  | error e => simp [bind, Except.bind]
  | ok s =>
    simp only [bind, Except.bind, Except.ok.injEq, exists_eq_left']
    cases h2 : loads s <;> simp

theorem readFile_ok (fs : FS) (p : Str) (b : Bytes) : fs.readFile p = .ok b ↔ fs p = some (.file b) := by
  unfold FS.readFile
  cases h : fs p with
  | none => simp
  | some n => cases n <;> simp

theorem source_data (fs : FS) (web : Web) (cc : CVal) (s : Source) (hs : SourceOf fs cc s) :
    clientConfigData fs web cc = match s with | .file p => fs.readFile p | .url u => web.fetch u := by
  have hsw : ∀ (s p : Str), startsWith s p = true ↔ p <+: s := fun s p => by simp [startsWith]
  cases hs with
  | unset => rfl
  | false => rfl
  | empty => rfl
  | server s h =>
    have hne : s ≠ [] := by
      rintro rfl
      rcases h with h | h <;> exact absurd (List.prefix_nil.1 h) (by decide)
    cases s with
    | nil => exact absurd rfl hne
    | cons c s =>
      simp only [clientConfigData]
      rw [if_neg]
      rcases h with h | h
      · rw [(hsw _ _).2 h]; simp
      · rw [(hsw _ _).2 h]; simp
  | missing s hne h =>
    cases s with
    | nil => exact absurd rfl hne
    | cons c s => simp [clientConfigData, h]
  | file s hne hu h =>
    cases s with
    | nil => exact absurd rfl hne
    | cons c s =>
      simp only [clientConfigData]
      rw [if_pos]
      unfold IsUrl at hu
      rw [← hsw, ← hsw] at hu
      simp only [not_or, Bool.not_eq_true] at hu
      simp only [hu.1, hu.2, Bool.not_false, Bool.true_and]
      cases h' : fs (c :: s) with
      | none => exact absurd h' h
      | some _ => rfl

theorem source_gives (fs : FS) (web : Web) (cc : CVal) (s : Source) (hs : SourceOf fs cc s) (b : Bytes) :
    clientConfigData fs web cc = .ok b ↔ s.Gives fs web b := by
  rw [source_data fs web cc s hs]
  cases s with
  | file p => exact readFile_ok fs p b
  | url u => exact fetch_ok web u b

theorem findConfig_ok (region : Str) (l : List Json) (u : Json) : findConfig region l = .ok u ↔
    ∃ before c after, l = before ++ c :: after ∧ (∀ x ∈ before, ∃ id, At x ["id".toList] id ∧ id ≠ .str region) ∧
      At c ["id".toList] (.str region) ∧ At c ["patch_url".toList] u := by
  simp only [← field_at]
  have hstr : ∀ id : Json, id.str? = some region ↔ id = .str region := fun id => by cases id <;> simp [Json.str?]
  induction l with
  | nil => simp [findConfig]
  | cons c l ih =>
    simp only [findConfig]
    cases hid : c.field "id".toList with
    | error e =>
      simp only [bind, Except.bind]
      constructor
      · intro h; cases h
      · rintro ⟨bf, x, af, hl, h1, h2, h3⟩
        cases bf with
        | nil => cases hl; rw [hid] at h2; cases h2
        | cons y bf =>
          cases hl
          obtain ⟨id, h, -⟩ := h1 c (by simp)
          rw [hid] at h; cases h
    | ok id =>
      simp only [bind, Except.bind]
      by_cases hr : id.str? = some region
      · rw [if_pos hr]
        have hr' := (hstr id).1 hr
        subst hr'
        constructor
        · intro h
          exact ⟨[], c, l, rfl, by simp, hid, h⟩
        · rintro ⟨bf, x, af, hl, h1, h2, h3⟩
          cases bf with
          | nil => cases hl; exact h3
          | cons y bf =>
            cases hl
            obtain ⟨id', h, hne⟩ := h1 c (by simp)
            rw [hid] at h; cases h; exact absurd rfl hne
      · rw [if_neg hr]
        refine ih.trans ?_
        have hr' := fun h => hr ((hstr id).2 h)
        constructor
        · rintro ⟨bf, x, af, rfl, h1, h2, h3⟩
          refine ⟨c :: bf, x, af, rfl, ?_, h2, h3⟩
          intro y hy
          rcases List.mem_cons.1 hy with rfl | hy
          · exact ⟨id, hid, hr'⟩
          · exact h1 y hy
        · rintro ⟨bf, x, af, hl, h1, h2, h3⟩
          cases bf with
          | nil => cases hl; rw [hid] at h2; cases h2; exact absurd rfl hr'
          | cons y bf =>
            cases hl
            exact ⟨bf, x, af, rfl, fun z hz => h1 z (by simp [hz]), h2, h3⟩

theorem findConfig_str (region : Str) (l : List Str) (u : Json) : findConfig region (l.map .str) ≠ .ok u := by
  cases l with
  | nil => simp [findConfig]
  | cons => simp [findConfig, Json.field, bind, Except.bind]

theorem items_find (region : Str) (p : Json) (u : Json) :
    (∃ l, p.items = .ok l ∧ findConfig region l = .ok u) ↔ ∃ l, p = .arr l ∧ findConfig region l = .ok u := by
  cases p with
  | arr l => simp [Json.items]
  | str s =>
    have := findConfig_str region (s.map fun c => [c]) u
    simp only [List.map_map] at this
    simpa [Json.items, Function.comp_def] using this
  | obj d =>
    have := findConfig_str region (d.map fun c => c.1) u
    simp only [List.map_map] at this
    simpa [Json.items, Function.comp_def] using this
  | _ => simp [Json.items]

theorem bind_ok {α β : Type} (x : Res α) (f : α → Res β) (y : β) : (x >>= f) = .ok y ↔ ∃ a, x = .ok a ∧ f a = .ok y := by
  cases x <;> simp [bind, Except.bind]

theorem latestClient_ok (fs : FS) (web : Web) (loads : Str → Option Json) (patchline : Str) (cc : CVal) (s : Source)
    (hs : SourceOf fs cc s) (u : Json) : latestClient fs web loads patchline cc = .ok u ↔
    ∃ b doc, s.Gives fs web b ∧ Document loads b doc ∧
      ClientUrlIn patchline (if patchline = "pbe".toList then "PBE".toList else "EUW".toList) doc u := by
  unfold latestClient
  simp only [bind_ok, source_gives fs web cc s hs, parseDoc_ok, items_find]
  unfold ClientUrlIn
  simp only [at_cons, findConfig_ok]
  constructor
  · rintro ⟨b, hb, doc, hd, p1, h1, p2, h2, p3, h3, p4, h4, l, rfl, bf, c, af, rfl, h5, h6, h7⟩
    exact ⟨b, doc, hb, hd, bf, c, af, ⟨p1, h1, p2, h2, p3, h3, _, h4, rfl⟩, h5, h6, h7⟩
  · rintro ⟨b, doc, hb, hd, bf, c, af, ⟨p1, h1, p2, h2, p3, h3, _, h4, rfl⟩, h5, h6, h7⟩
    exact ⟨b, hb, doc, hd, p1, h1, p2, h2, p3, h3, _, h4, _, rfl, bf, c, af, rfl, h5, h6, h7⟩

theorem latestGame_ok (web : Web) (loads : Str → Option Json) (patchline : Str) (u : Json) : latestGame web loads patchline = .ok u ↔
    ∃ b doc, WebServes web (gameUrl patchline) b ∧ Document loads b doc ∧ GameUrlIn doc u := by
  unfold latestGame
  simp only [bind_ok, fetch_ok, parseDoc_ok]
  unfold GameUrlIn
  simp only [at_cons]
  constructor
  · rintro ⟨b, hb, doc, hd, r, hr, n, hn, h⟩
    split at h
    · cases h
    · rename_i h1
      simp only [ne_eq, not_not] at h1
      subst h1
      simp only [bind_ok] at h
      obtain ⟨x, hx, y, hy, hu⟩ := h
      cases r with
      | arr l =>
        simp only [Json.len, Except.ok.injEq] at hn
        obtain ⟨z, rfl⟩ := List.length_eq_one_iff.1 hn
        simp only [Json.last, List.getLast?_singleton, Except.ok.injEq] at hx
        subst hx
        exact ⟨b, doc, hb, hd, z, ⟨_, hr, rfl⟩, y, hy, u, hu, rfl⟩
      | str s =>
        simp only [Json.last] at hx
        split at hx
        · cases hx; simp [Json.field] at hy
        · cases hx
      | _ => simp [Json.last] at hx
  · rintro ⟨b, doc, hb, hd, z, ⟨_, hr, rfl⟩, y, hy, _, hu, rfl⟩
    refine ⟨b, hb, doc, hd, _, hr, 1, rfl, ?_⟩
    rw [if_neg (by simp)]
    simp only [bind_ok]
    exact ⟨z, rfl, y, hy, hu⟩

end Cdtb
