import Verif.Lemmas.Subst
import Verif.Props.C55
/-!
# C57  What the substitution of plugins, regions, languages, suffixes, characters and skins finds

`Spec.Guesses H g g' cands` (see C55): checking exactly the candidates `cands` changes the guesser `g` to `g'`.
`Spec.Replaced P s vs t` (Lemmas/Subst): replacing the parts of `s` that satisfy `P` with the values `vs`, in order, gives `t`.
-/
namespace Cdtb
set_option autoImplicit false
open Py

/-! ## Specification -/

/-- The name of a directory or a file -/
def Spec.Name (n : Str) : Prop := n ≠ [] ∧ '/' ∉ n

/-- Regions of client files -/
def Spec.regions : List Str := ["br", "cn", "eun", "eune", "euw", "garena2", "garena3", "id", "jp", "kr", "la", "la1", "la2", "lan", "las", "me1",
  "na", "oc", "oc1", "oce", "pbe", "ph", "ph2", "ru", "sg", "sg2", "tencent", "th", "th2", "tr", "tw", "tw2", "vn", "vn2"].map String.toList

/-- Language codes -/
def Spec.languages : List Str := ["ar_ae", "ar_eg", "cs_cz", "de_de", "el_gr", "en_au", "en_gb", "en_ph", "en_pl", "en_sg", "en_us", "es_ar",
  "es_es", "es_mx", "fr_fr", "hu_hu", "id_id", "it_it", "ja_jp", "ko_kr", "ms_my", "pl_pl", "pt_br", "ro_ro", "ru_ru", "th_th", "tr_tr",
  "vi_vn", "vn_vn", "zh_cn", "zh_my", "zh_tw"].map String.toList

/-- `p` is a file of a plugin, for a region and a language: `plugins/<plugin>/<region>/<lang>/<rest>` -/
def Spec.RegionLang (p plugin region lang rest : Str) : Prop :=
  p = "plugins/".toList ++ plugin ++ '/' :: region ++ '/' :: lang ++ '/' :: rest ∧ Spec.Name plugin ∧ Spec.Name region ∧ Spec.Name lang

/-- A dot and what follows, without another dot -/
def Spec.DotPart (e : Str) : Prop := ∃ x, e = '.' :: x ∧ x ≠ [] ∧ '.' ∉ x

/-- `p` is a prefix, a suffix (a dot and some characters, or nothing) and an extension, with a suffix whenever it is possible -/
structure Spec.SuffixExt (p pre suf ext : Str) : Prop where
  eq : p = pre ++ suf ++ ext
  ext : Spec.DotPart ext
  suf : Spec.DotPart suf ∨ suf = [] ∧ ∀ u v, pre = u ++ v → ¬ Spec.DotPart v

/-- `p` is a file of a character -/
def Spec.CharacterFile (p char : Str) : Prop :=
  Spec.Name char ∧ ∃ r, p = "assets/characters/".toList ++ char ++ '/' :: r ∨ p = "data/characters/".toList ++ char ++ '/' :: r

/-- `base`, or `skin` and a number -/
def Spec.SkinDirName (s : Str) : Prop := s = "base".toList ∨ ∃ ds, s = "skin".toList ++ ds ∧ ds ≠ [] ∧ ∀ c ∈ ds, Spec.Digit c

/-- A skin in a path, with the whole number -/
def Spec.SkinHere (w r : Str) : Prop := w = "base".toList ∨ (∃ ds, w = "skin".toList ++ ds ∧ ds ≠ [] ∧ ∀ c ∈ ds, Spec.Digit c) ∧ ∀ c ∈ r.head?, ¬ Spec.Digit c

/-- `p` has the directories `/characters/<char>/skins/<skin>/` after `a` -/
def Spec.SkinAt (p a char skin b : Str) : Prop :=
  p = a ++ "/characters/".toList ++ char ++ "/skins/".toList ++ skin ++ '/' :: b ∧ Spec.Name char ∧ Spec.SkinDirName skin

/-- `p` is a file of a skin (the first one in the path) of a character, which is not `sightward` -/
def Spec.SkinFile (p char skin : Str) : Prop := char ≠ "sightward".toList ∧ ∃ a b, Spec.SkinAt p a char skin b ∧
  ∀ a' char' skin' b', Spec.SkinAt p a' char' skin' b' → a.length ≤ a'.length

/-! ## Plugins -/

theorem mem_sortedSet (x : Str) (l : List Str) : x ∈ sortedSet l ↔ x ∈ l := by
  simp only [sortedSet, (List.perm_insertionSort _ _).mem_iff, List.mem_dedup]

theorem pluginFormat_of (n s : Str) (hn : Spec.Name n) : pluginFormat ("plugins/".toList ++ n ++ '/' :: s) = "plugins/%s/".toList ++ s := by
  unfold pluginFormat
  rw [List.append_assoc, (afterPrefix_iff _ _ _).2 rfl]
  simp only
  rw [(matchDir_iff _ n s).2 ⟨rfl, hn⟩]

theorem pluginOf_of (n s : Str) (hn : '/' ∉ n) (hs : s = [] ∨ ∃ t, s = '/' :: t) : pluginOf ("plugins/".toList ++ (n ++ s)) = n := by
  unfold pluginOf
  rw [List.drop_left]
  refine (takeWhile_run (x := fun c : Char => decide (c ≠ '/')) ?_ ?_).1
  · simp only [List.all_eq_true, decide_eq_true_eq]; rintro c hc rfl; exact hn hc
  · rintro c t rfl
    rcases hs with h | ⟨_, h⟩
    · cases h
    · cases h; simp

/-- `substitute_plugin` : the files of plugins with the name of another plugin. All the paths of plugins must contain a directory. -/
theorem C57_plugin (H : Str → Int) (g : Guesser) (hg : Reached H g)
    (hp : ∀ h p, (h, p) ∈ g.known → (∃ t, p = "plugins/".toList ++ t) → '%' ∉ p ∧ ∃ n s, p = "plugins/".toList ++ n ++ '/' :: s ∧ Spec.Name n) :
    ∃ g', g.substitutePlugin H = (g', .ok ()) ∧ Spec.Guesses H g g' (fun q => ∃ h n s h' n' s', Spec.Name n ∧ Spec.Name n' ∧
      (h, "plugins/".toList ++ n ++ '/' :: s) ∈ g.known ∧ (h', "plugins/".toList ++ n' ++ '/' :: s') ∈ g.known ∧
      q = "plugins/".toList ++ n' ++ '/' :: s) := by
  have hmem : ∀ p, p ∈ g.known.values.filter (fun p => startsWith p "plugins/".toList) ↔
      ∃ h n s, Spec.Name n ∧ (h, "plugins/".toList ++ n ++ '/' :: s) ∈ g.known ∧ p = "plugins/".toList ++ n ++ '/' :: s := by
    intro p
    rw [List.mem_filter, mem_values, startsWith_iff]
    constructor
    · rintro ⟨⟨h, hh⟩, ht⟩
      obtain ⟨-, n, s, rfl, hn⟩ := hp h p hh ht
      exact ⟨h, n, s, hn, hh, rfl⟩
    · rintro ⟨h, n, s, hn, hh, rfl⟩
      exact ⟨⟨h, hh⟩, n ++ '/' :: s, by rw [List.append_assoc]⟩
  have hfmt : ∀ (s x : Str), '%' ∉ s → pyFormat ("plugins/%s/".toList ++ s) [.str x] = .ok ("plugins/".toList ++ x ++ '/' :: s) := by
    intro s x hs
    have e : "plugins/%s/".toList ++ s = "plugins/".toList ++ '%' :: 's' :: '/' :: s := by
      rw [show "plugins/%s/".toList = "plugins/".toList ++ ['%', 's', '/'] by decide +kernel, List.append_assoc]; rfl
    rw [pyFormat, e, fmtGo_lit _ _ _ (by decide +kernel), fmtGo_s, fmtGo_nil _ (by simpa using hs)]
    simp [Except.map]
  unfold Guesser.substitutePlugin
  simp only
  refine checkFormats_guesses H g hg.inv.1 _ _ _ ?_ fun q => ?_
  · intro fmt hf a ha
    obtain ⟨p, hpm, rfl⟩ := List.mem_map.1 hf
    obtain ⟨x, hx, rfl⟩ := List.mem_map.1 ha
    obtain ⟨h, n, s, hn, hh, rfl⟩ := (hmem p).1 hpm
    obtain ⟨h1, -⟩ := hp h _ hh ⟨n ++ '/' :: s, by rw [List.append_assoc]⟩
    rw [pluginFormat_of n s hn]
    exact ⟨_, hfmt s x fun hs => h1 (by simp [hs])⟩
  · constructor
    · rintro ⟨fmt, hf, a, ha, hq⟩
      obtain ⟨p, hpm, rfl⟩ := List.mem_map.1 hf
      obtain ⟨x, hx, rfl⟩ := List.mem_map.1 ha
      rw [List.mem_dedup] at hx
      obtain ⟨p', hpm', rfl⟩ := List.mem_map.1 hx
      obtain ⟨h, n, s, hn, hh, rfl⟩ := (hmem p).1 hpm
      obtain ⟨h', n', s', hn', hh', rfl⟩ := (hmem p').1 hpm'
      obtain ⟨h1, -⟩ := hp h _ hh ⟨n ++ '/' :: s, by rw [List.append_assoc]⟩
      rw [pluginFormat_of n s hn, hfmt s _ fun hs => h1 (by simp [hs]), List.append_assoc "plugins/".toList n',
        pluginOf_of n' _ hn'.2 (.inr ⟨s', rfl⟩)] at hq
      cases hq
      exact ⟨h, n, s, h', n', s', hn, hn', hh, hh', rfl⟩
    · rintro ⟨h, n, s, h', n', s', hn, hn', hh, hh', rfl⟩
      obtain ⟨h1, -⟩ := hp h _ hh ⟨n ++ '/' :: s, by rw [List.append_assoc]⟩
      refine ⟨_, List.mem_map.2 ⟨_, (hmem _).2 ⟨h, n, s, hn, hh, rfl⟩, rfl⟩, [.str n'],
        List.mem_map.2 ⟨n', List.mem_dedup.2 (List.mem_map.2 ⟨_, (hmem _).2 ⟨h', n', s', hn', hh', rfl⟩, ?_⟩), rfl⟩, ?_⟩
      · rw [List.append_assoc]
        exact pluginOf_of n' _ hn'.2 (.inr ⟨s', rfl⟩)
      · rw [pluginFormat_of n s hn]
        exact hfmt s n' fun hs => h1 (by simp [hs])

/-- A known path of a file directly in `plugins` makes the whole method fail. -/
theorem C57_plugin_error (H : Str → Int) (g : Guesser) (h : Int) (x : Str) (hx : '/' ∉ x) (hx' : '%' ∉ x)
    (hp : (h, "plugins/".toList ++ x) ∈ g.known) : ∃ e, (g.substitutePlugin H).2 = .error e := by
  unfold Guesser.substitutePlugin
  simp only
  have hm : "plugins/".toList ++ x ∈ g.known.values.filter (fun p => startsWith p "plugins/".toList) := by
    rw [List.mem_filter, mem_values, startsWith_iff]
    exact ⟨⟨h, hp⟩, x, rfl⟩
  have hf : pluginFormat ("plugins/".toList ++ x) = "plugins/".toList ++ x := by
    unfold pluginFormat
    rw [(afterPrefix_iff _ _ _).2 rfl]
    simp only
    rcases hd : matchDir x with _ | ⟨n, r⟩
    · rfl
    · obtain ⟨rfl, -⟩ := (matchDir_iff _ _ _).1 hd
      exact absurd (by simp) hx
  refine checkFormats_error H _ _ g ("plugins/".toList ++ x) ?_ [.str x] ?_ .type ?_
  · rw [mem_sortedSet]
    exact List.mem_map.2 ⟨_, hm, hf⟩
  · refine List.mem_map.2 ⟨x, List.mem_dedup.2 (List.mem_map.2 ⟨_, hm, ?_⟩), rfl⟩
    have := pluginOf_of x [] hx (.inl rfl)
    rwa [List.append_nil] at this
  · have := fmtGo_lit ("plugins/".toList ++ x) [] [.str x] (by
      simp only [List.mem_append, not_or]; exact ⟨by decide +kernel, hx'⟩)
    rw [List.append_nil] at this
    rw [pyFormat, this]
    rfl

/-! ## Regions and languages -/

theorem setRegionLang_of {p a b c s : Str} (h : Spec.RegionLang p a b c s) (r l : Str) :
    setRegionLang r l p = "plugins/".toList ++ a ++ '/' :: r ++ '/' :: l ++ '/' :: s := by
  obtain ⟨rfl, ha, hb, hc⟩ := h
  have e : "plugins/".toList ++ a ++ '/' :: b ++ '/' :: c ++ '/' :: s = "plugins/".toList ++ (a ++ '/' :: (b ++ '/' :: (c ++ '/' :: s))) := by
    simp only [List.append_assoc, List.cons_append]
  unfold setRegionLang
  rw [e, (afterPrefix_iff _ _ _).2 rfl]
  simp only
  rw [(matchDir_iff _ _ _).2 ⟨rfl, ha⟩]
  simp only
  rw [(matchDir_iff _ _ _).2 ⟨rfl, hb⟩]
  simp only
  rw [(matchDir_iff _ _ _).2 ⟨rfl, hc⟩]

theorem setRegionLang_not {p : Str} (h : ¬ ∃ a b c s, Spec.RegionLang p a b c s) (r l : Str) : setRegionLang r l p = p := by
  unfold setRegionLang
  rcases h1 : afterPrefix "plugins/".toList p with _ | s
  · rfl
  rcases h2 : matchDir s with _ | ⟨a, s2⟩
  · simp only [h2]
  rcases h3 : matchDir s2 with _ | ⟨b, s3⟩
  · simp only [h2, h3]
  rcases h4 : matchDir s3 with _ | ⟨c, s4⟩
  · simp only [h2, h3, h4]
  exfalso
  rw [afterPrefix_iff] at h1
  rw [matchDir_iff] at h2 h3 h4
  refine h ⟨a, b, c, s4, ?_, h2.2, h3.2, h4.2⟩
  rw [h1, h2.1, h3.1, h4.1]
  simp only [List.append_assoc, List.cons_append]

/-- `substitute_region_lang`: the files of plugins, for all other regions and languages (and known paths of other forms). -/
theorem C57_region_lang (H : Str → Int) (g : Guesser) (hg : Reached H g) :
    Spec.Guesses H g (g.substituteRegionLang H) (fun q => ∃ h p, (h, p) ∈ g.known ∧
      ((∃ a b c s r l, Spec.RegionLang p a b c s ∧ (r ∈ Spec.regions ∨ r = "global".toList) ∧ (l ∈ Spec.languages ∨ l = "default".toList) ∧
          q = "plugins/".toList ++ a ++ '/' :: r ++ '/' :: l ++ '/' :: s) ∨
        (¬ ∃ a b c s, Spec.RegionLang p a b c s) ∧ q = p)) := by
  unfold Guesser.substituteRegionLang
  simp only
  rw [foldl_checkIter H (fun rl : Str × Str => g.known.values.map (setRegionLang rl.1 rl.2))]
  refine checkIter_guesses H _ hg.inv.1 _ _ fun q => ?_
  simp only [List.mem_flatMap, List.mem_map, mem_values, List.mem_append, List.mem_singleton, Prod.exists]
  constructor
  · rintro ⟨r, l, ⟨r', hr, l', hl, e⟩, p, ⟨h, hp⟩, rfl⟩
    cases e
    refine ⟨h, p, hp, ?_⟩
    by_cases hf : ∃ a b c s, Spec.RegionLang p a b c s
    · obtain ⟨a, b, c, s, hf⟩ := hf
      exact .inl ⟨a, b, c, s, r, l, hf, hr, hl, setRegionLang_of hf r l⟩
    · exact .inr ⟨hf, setRegionLang_not hf r l⟩
  · rintro ⟨h, p, hp, ⟨a, b, c, s, r, l, hf, hr, hl, rfl⟩ | ⟨hf, rfl⟩⟩
    · exact ⟨r, l, ⟨r, hr, l, hl, rfl⟩, p, ⟨h, hp⟩, setRegionLang_of hf r l⟩
    · exact ⟨_, _, ⟨"global".toList, .inr rfl, "default".toList, .inr rfl, rfl⟩, q, ⟨h, hp⟩, setRegionLang_not hf _ _⟩

theorem matchLang_matches : MatchesOf matchLang (fun w _ => w ∈ Spec.languages) := by
  have hlen : ∀ w ∈ languageNames, w.length = 5 := by decide +kernel
  refine ⟨fun s n h => ?_, fun w r h => ?_⟩
  · unfold matchLang at h
    split at h
    · rename_i hs
      cases h
      exact ⟨s.take 5, s.drop 5, (List.take_append_drop 5 s).symm, hlen _ hs, hs⟩
    · cases h
  · have h5 := hlen w h
    refine ⟨by rintro rfl; simp at h5, ?_⟩
    unfold matchLang
    rw [← h5, List.take_left, if_pos (show w ∈ languageNames from h)]

/-- `substitute_lang`: the paths with a language code, with all the codes of the path replaced by another one. -/
theorem C57_lang (H : Str → Int) (g : Guesser) (hg : Reached H g) (hp : ∀ h p, (h, p) ∈ g.known → '{' ∉ p) :
    Spec.Guesses H g (g.substituteLang H) (fun q => ∃ h p l n, (h, p) ∈ g.known ∧ l ∈ Spec.languages ∧ n ≠ 0 ∧
      Spec.Replaced (fun w _ => w ∈ Spec.languages) p (List.replicate n l) q) := by
  unfold Guesser.substituteLang
  simp only
  rw [foldl_checkIter H (fun fmt : Str => languageNames.map fun l => replaceGo "{}".toList l 0 fmt)]
  refine checkIter_guesses H _ hg.inv.1 _ _ fun q => ?_
  simp only [List.mem_flatMap, mem_sortedSet, List.mem_map, List.mem_filter, mem_values]
  constructor
  · rintro ⟨_, ⟨p, ⟨⟨h, hh⟩, hne⟩, rfl⟩, l, hl, rfl⟩
    obtain ⟨t, ht⟩ := replaced_exists matchLang_matches "{}".toList p (List.replicate (subn matchLang "{}".toList 0 p).2 l) (by simp)
    refine ⟨h, p, l, (subn matchLang "{}".toList 0 p).2, hh, hl, ?_, ?_⟩
    · rw [← finditer_count matchLang _ []]
      simpa using hne
    · rw [replaced_braces matchLang_matches p (hp h p hh) l _ t ht fun x hx => List.eq_of_mem_replicate hx]
      exact ht
  · rintro ⟨h, p, l, n, hh, hl, hn, hr⟩
    refine ⟨_, ⟨p, ⟨⟨h, hh⟩, ?_⟩, rfl⟩, l, hl, replaced_braces matchLang_matches p (hp h p hh) l _ q hr fun x hx => List.eq_of_mem_replicate hx⟩
    have := replaced_count matchLang_matches "{}".toList p _ q hr
    rw [← finditer_count matchLang _ [], List.length_replicate] at this
    simp only [ne_eq, decide_eq_true_eq]
    intro h0
    rw [h0] at this
    exact hn this

/-! ## Suffixes -/

theorem isExt_iff (s : Str) : isExt s = true ↔ Spec.DotPart s := by
  unfold isExt Spec.DotPart
  split
  · rename_i e
    simp only [ne_eq, Bool.and_eq_true, decide_eq_true_eq, List.cons.injEq, true_and]
    constructor
    · rintro ⟨h1, h2⟩; exact ⟨e, rfl, h1, h2⟩
    · rintro ⟨_, rfl, h1, h2⟩; exact ⟨h1, h2⟩
  · rename_i hne
    simp only [Bool.false_eq_true, false_iff]
    rintro ⟨x, rfl, -⟩
    exact hne x rfl

theorem dotPart_unique {a b x y : Str} (h : a ++ x = b ++ y) (hx : Spec.DotPart x) (hy : Spec.DotPart y) : a = b ∧ x = y := by
  obtain ⟨x, rfl, -, hx⟩ := hx
  obtain ⟨y, rfl, -, hy⟩ := hy
  have h1 : rsplit1 '.' (a ++ '.' :: x) = some (a, x) := rsplit1_eq_some.2 ⟨rfl, hx⟩
  have h2 : rsplit1 '.' (b ++ '.' :: y) = some (b, y) := rsplit1_eq_some.2 ⟨rfl, hy⟩
  rw [h, h2] at h1
  cases h1
  exact ⟨rfl, rfl⟩

theorem matchSuffix_iff (s suf ext : Str) :
    matchSuffix s = some (suf, ext) ↔ s = suf ++ ext ∧ Spec.DotPart ext ∧ (Spec.DotPart suf ∨ suf = []) := by
  have hdrop : ∀ r : Str, r.takeWhile (· ≠ '.') ++ r.dropWhile (· ≠ '.') = r := fun r => List.takeWhile_append_dropWhile
  have hnot : ∀ r : Str, '.' ∉ r.takeWhile (· ≠ '.') := by
    intro r h
    have := List.all_eq_true.1 (takeWhile_all (fun c : Char => decide (c ≠ '.')) r) _ h
    simp at this
  constructor
  · intro h
    unfold matchSuffix at h
    split at h
    · rename_i r
      simp only at h
      split at h
      · rename_i hc
        cases h
        simp only [ne_eq, Bool.and_eq_true, decide_eq_true_eq] at hc
        exact ⟨by rw [List.cons_append, hdrop], (isExt_iff _).1 hc.2, .inl ⟨_, rfl, hc.1, hnot r⟩⟩
      · split at h
        · rename_i hc
          cases h
          exact ⟨rfl, (isExt_iff _).1 hc, .inr rfl⟩
        · cases h
    · cases h
  · rintro ⟨rfl, he, ⟨s, rfl, hs1, hs2⟩ | rfl⟩
    · obtain ⟨e, rfl, he1, he2⟩ := he
      have hr := takeWhile_run (x := fun c : Char => decide (c ≠ '.')) (w := s) (b := '.' :: e)
        (by simp only [List.all_eq_true, decide_eq_true_eq]; rintro c hc rfl; exact hs2 hc) (by intro c t h; cases h; simp)
      rw [List.cons_append, matchSuffix]
      rw [hr.1, hr.2, if_pos]
      simp only [ne_eq, Bool.and_eq_true, decide_eq_true_eq]
      exact ⟨hs1, (isExt_iff _).2 ⟨e, rfl, he1, he2⟩⟩
    · have he' := he
      obtain ⟨e, rfl, he1, he2⟩ := he
      have hr := takeWhile_run (x := fun c : Char => decide (c ≠ '.')) (w := e) (b := [])
        (by simp only [List.all_eq_true, decide_eq_true_eq]; rintro c hc rfl; exact he2 hc) (by intro c t h; cases h)
      rw [List.append_nil] at hr
      rw [List.nil_append, matchSuffix]
      rw [hr.2, if_neg (by simp [isExt]), if_pos ((isExt_iff _).2 he')]

theorem splitSuffix_iff (p pre suf ext : Str) : splitSuffix p = some (pre, suf, ext) ↔ Spec.SuffixExt p pre suf ext := by
  induction p generalizing pre suf ext with
  | nil =>
    refine ⟨fun h => by simp [splitSuffix] at h, fun h => ?_⟩
    have := h.eq
    obtain ⟨x, hx, -⟩ := h.ext
    rw [hx] at this
    simp at this
  | cons c p ih =>
    rw [splitSuffix]
    rcases hm : matchSuffix (c :: p) with _ | ⟨suf1, ext1⟩
    · simp only [Option.map_eq_some_iff, Prod.exists, Prod.mk.injEq]
      constructor
      · rintro ⟨pre', suf', ext', hs, rfl, rfl, rfl⟩
        have hi := (ih _ _ _).1 hs
        refine ⟨by rw [hi.eq]; simp, hi.ext, hi.suf.imp_right fun ⟨h0, h1⟩ => ⟨h0, fun u v huv hv => ?_⟩⟩
        cases u with
        | nil =>
          rw [List.nil_append] at huv
          have : matchSuffix (c :: p) = some (v, ext') := by
            rw [matchSuffix_iff]
            refine ⟨?_, hi.ext, .inl hv⟩
            rw [← huv, hi.eq, h0]; simp
          rw [hm] at this; cases this
        | cons d u =>
          rw [List.cons_append, List.cons.injEq] at huv
          exact h1 u v huv.2 hv
      · intro h
        cases pre with
        | nil =>
          have : matchSuffix (c :: p) = some (suf, ext) := by
            rw [matchSuffix_iff]
            exact ⟨h.eq, h.ext, h.suf.imp_right fun hh => hh.1⟩
          rw [hm] at this; cases this
        | cons d pre =>
          have he := h.eq
          rw [List.cons_append, List.cons_append, List.cons.injEq] at he
          refine ⟨pre, suf, ext, (ih _ _ _).2 ⟨he.2, h.ext, h.suf.imp_right fun ⟨h0, h1⟩ => ⟨h0, fun u v huv hv => ?_⟩⟩, by rw [he.1], rfl, rfl⟩
          exact h1 (d :: u) v (by rw [huv]; rfl) hv
    · obtain ⟨m1, m2, m3⟩ := (matchSuffix_iff _ _ _).1 hm
      simp only [Option.some.injEq, Prod.mk.injEq]
      constructor
      · rintro ⟨rfl, rfl, rfl⟩
        refine ⟨m1, m2, m3.imp_right fun h => ⟨h, fun u v huv hv => ?_⟩⟩
        obtain ⟨x, rfl, -⟩ := hv
        simp at huv
      · intro h
        obtain ⟨h1, h2⟩ := dotPart_unique (h.eq.symm.trans m1) h.ext m2
        subst h2
        rcases h.suf with ⟨x, rfl, -⟩ | ⟨rfl, h3⟩
        · rcases m3 with ⟨y, hy, -, hy2⟩ | rfl
          · rw [hy] at h1
            cases pre with
            | nil => exact ⟨rfl, by rw [hy, ← h1]; rfl, rfl⟩
            | cons d pre =>
              rw [List.cons_append, List.cons.injEq] at h1
              exact absurd (by rw [← h1.2]; simp) hy2
          · simp at h1
        · rw [List.append_nil] at h1
          subst h1
          rcases m3 with m3 | rfl
          · exact absurd m3 (h3 [] _ rfl)
          · exact ⟨rfl, rfl, rfl⟩

/-- `substitute_suffixes`: all known paths with an extension, with all known suffixes, and without suffix. -/
theorem C57_suffixes (H : Str → Int) (g : Guesser) (hg : Reached H g) (hp : ∀ h p, (h, p) ∈ g.known → '%' ∉ p) :
    ∃ g', g.substituteSuffixes H = (g', .ok ()) ∧ Spec.Guesses H g g' (fun q => ∃ h p pre suf ext suf', (h, p) ∈ g.known ∧
      Spec.SuffixExt p pre suf ext ∧ (suf' = [] ∨ ∃ h' p' pre' ext', (h', p') ∈ g.known ∧ Spec.SuffixExt p' pre' suf' ext') ∧
      q = pre ++ suf' ++ ext) := by
  have hmem : ∀ x, x ∈ g.known.values.filterMap splitSuffix ↔ ∃ h p, (h, p) ∈ g.known ∧ Spec.SuffixExt p x.1 x.2.1 x.2.2 := by
    intro x
    simp only [List.mem_filterMap, mem_values]
    constructor
    · rintro ⟨p, ⟨h, hh⟩, hs⟩; exact ⟨h, p, hh, (splitSuffix_iff _ _ _ _).1 hs⟩
    · rintro ⟨h, p, hh, hs⟩; exact ⟨p, ⟨h, hh⟩, (splitSuffix_iff _ _ _ _).2 hs⟩
  have hfmt : ∀ (pre ext s : Str), '%' ∉ pre → '%' ∉ ext → pyFormat (pre ++ "%s".toList ++ ext) [.str s] = .ok (pre ++ s ++ ext) := by
    intro pre ext s h1 h2
    have e : pre ++ "%s".toList ++ ext = pre ++ '%' :: 's' :: ext := by rw [List.append_assoc]; rfl
    rw [pyFormat, e, fmtGo_lit _ _ _ h1, fmtGo_s, fmtGo_nil _ h2]
    simp [Except.map]
  have hpct : ∀ h p pre suf ext, (h, p) ∈ g.known → Spec.SuffixExt p pre suf ext → '%' ∉ pre ∧ '%' ∉ ext := by
    intro h p pre suf ext hh hs
    have := hp h p hh
    rw [hs.eq] at this
    simp only [List.mem_append, not_or] at this
    exact ⟨this.1.1, this.2⟩
  unfold Guesser.substituteSuffixes
  simp only
  refine checkFormats_guesses H g hg.inv.1 _ _ _ ?_ fun q => ?_
  · intro fmt hf a ha
    obtain ⟨x, hx, rfl⟩ := List.mem_map.1 hf
    obtain ⟨s, hs, rfl⟩ := List.mem_map.1 ha
    obtain ⟨h, p, hh, he⟩ := (hmem x).1 hx
    exact ⟨_, hfmt _ _ s (hpct h p _ _ _ hh he).1 (hpct h p _ _ _ hh he).2⟩
  · constructor
    · rintro ⟨fmt, hf, a, ha, hq⟩
      obtain ⟨x, hx, rfl⟩ := List.mem_map.1 hf
      obtain ⟨s, hs, rfl⟩ := List.mem_map.1 ha
      obtain ⟨h, p, hh, he⟩ := (hmem x).1 hx
      rw [hfmt _ _ s (hpct h p _ _ _ hh he).1 (hpct h p _ _ _ hh he).2] at hq
      cases hq
      refine ⟨h, p, _, _, _, s, hh, he, ?_, rfl⟩
      rw [List.mem_dedup, List.mem_cons, List.mem_filter, List.mem_map] at hs
      refine hs.imp_right ?_
      rintro ⟨⟨y, hy, rfl⟩, -⟩
      obtain ⟨h', p', hh', he'⟩ := (hmem y).1 hy
      exact ⟨h', p', _, _, hh', he'⟩
    · rintro ⟨h, p, pre, suf, ext, suf', hh, he, hs, rfl⟩
      refine ⟨_, List.mem_map.2 ⟨(pre, suf, ext), (hmem _).2 ⟨h, p, hh, he⟩, rfl⟩, [.str suf'], List.mem_map.2 ⟨suf', ?_, rfl⟩,
        hfmt _ _ _ (hpct h p _ _ _ hh he).1 (hpct h p _ _ _ hh he).2⟩
      rw [List.mem_dedup, List.mem_cons]
      by_cases h0 : suf' = []
      · exact .inl h0
      · right
        rcases hs with hs | ⟨h', p', pre', ext', hh', he'⟩
        · exact absurd hs h0
        · exact List.mem_filter.2 ⟨List.mem_map.2 ⟨(pre', suf', ext'), (hmem _).2 ⟨h', p', hh', he'⟩, rfl⟩, by simpa using h0⟩

/-! ## Characters -/

theorem matchCharacter_iff (p char : Str) : matchCharacter p = some char ↔ Spec.CharacterFile p char := by
  unfold matchCharacter Spec.CharacterFile
  have key : ∀ s : Str, (matchDir s).map (·.1) = some char ↔ Spec.Name char ∧ ∃ r, s = char ++ '/' :: r := by
    intro s
    rw [Option.map_eq_some_iff]
    constructor
    · rintro ⟨⟨n, r⟩, h, rfl⟩
      exact ⟨((matchDir_iff _ _ _).1 h).2, r, ((matchDir_iff _ _ _).1 h).1⟩
    · rintro ⟨h1, r, h2⟩
      exact ⟨(char, r), (matchDir_iff _ _ _).2 ⟨h2, h1⟩, rfl⟩
  have hne : ∀ s t : Str, "assets/characters/".toList ++ s ≠ "data/characters/".toList ++ t := by
    intro s t h
    have := congrArg List.head? h
    exact absurd this (by simp)
  rcases h1 : afterPrefix "assets/characters/".toList p with _ | s
  · rw [afterPrefix_none] at h1
    rw [Option.none_or]
    rcases h2 : afterPrefix "data/characters/".toList p with _ | s
    · rw [afterPrefix_none] at h2
      simp only [reduceCtorEq, false_iff]
      rintro ⟨-, r, h | h⟩
      · exact h1 (char ++ '/' :: r) (by rw [h, List.append_assoc])
      · exact h2 (char ++ '/' :: r) (by rw [h, List.append_assoc])
    · rw [afterPrefix_iff] at h2
      simp only
      rw [key]
      refine and_congr_right fun _ => ⟨fun ⟨r, hr⟩ => ⟨r, .inr (by rw [h2, hr, List.append_assoc])⟩, ?_⟩
      rintro ⟨r, h | h⟩
      · exact absurd (by rw [h, List.append_assoc]) (h1 (char ++ '/' :: r))
      · rw [h2, List.append_assoc] at h
        exact ⟨r, List.append_cancel_left h⟩
  · rw [afterPrefix_iff] at h1
    rw [Option.some_or]
    simp only
    rw [key]
    refine and_congr_right fun _ => ⟨fun ⟨r, hr⟩ => ⟨r, .inl (by rw [h1, hr, List.append_assoc])⟩, ?_⟩
    rintro ⟨r, h | h⟩
    · rw [h1, List.append_assoc] at h
      exact ⟨r, List.append_cancel_left h⟩
    · rw [h1, List.append_assoc] at h
      exact absurd h (hne _ _)

/-- `substitute_character`: the files of characters, with the name of the character replaced everywhere in the path (even inside
other names) by the name of another character. -/
theorem C57_character (H : Str → Int) (g : Guesser) (hg : Reached H g) (hp : ∀ h p, (h, p) ∈ g.known → '{' ∉ p) :
    Spec.Guesses H g (g.substituteCharacter H) (fun q => ∃ h p char h' p' char' n, (h, p) ∈ g.known ∧ Spec.CharacterFile p char ∧
      (h', p') ∈ g.known ∧ Spec.CharacterFile p' char' ∧ Spec.Replaced (fun w _ => w = char) p (List.replicate n char') q) := by
  unfold Guesser.substituteCharacter
  simp only
  generalize hms : (g.known.values.filterMap fun p => (matchCharacter p).map fun c => (p, c)) = ms
  rw [foldl_checkIter H (fun fmt : Str => (ms.map (·.2)).dedup.map fun s => replaceGo "{}".toList s 0 fmt)]
  have hmem : ∀ p c, (p, c) ∈ ms ↔ ∃ h, (h, p) ∈ g.known ∧ Spec.CharacterFile p c := by
    intro p c
    rw [← hms]
    simp only [List.mem_filterMap, mem_values, Option.map_eq_some_iff, Prod.mk.injEq]
    constructor
    · rintro ⟨_, ⟨h, hh⟩, _, hc, rfl, rfl⟩; exact ⟨h, hh, (matchCharacter_iff _ _).1 hc⟩
    · rintro ⟨h, hh, hc⟩; exact ⟨p, ⟨h, hh⟩, c, (matchCharacter_iff _ _).2 hc, rfl, rfl⟩
  refine checkIter_guesses H _ hg.inv.1 _ _ fun q => ?_
  simp only [List.mem_flatMap, mem_sortedSet, List.mem_map, List.mem_dedup, Prod.exists, exists_eq_right]
  constructor
  · rintro ⟨_, ⟨p, c, hpc, rfl⟩, c', ⟨p', hpc'⟩, rfl⟩
    obtain ⟨h, hh, hc⟩ := (hmem _ _).1 hpc
    obtain ⟨h', hh', hc'⟩ := (hmem _ _).1 hpc'
    rw [replaceGo_subn c]
    obtain ⟨t, ht⟩ := replaced_exists (literal_matches c hc.1.1) "{}".toList p (List.replicate _ c') List.length_replicate
    rw [replaced_braces (literal_matches c hc.1.1) p (hp h p hh) c' _ t ht fun x hx => List.eq_of_mem_replicate hx]
    exact ⟨h, p, c, h', p', c', _, hh, hc, hh', hc', ht⟩
  · rintro ⟨h, p, c, h', p', c', n, hh, hc, hh', hc', hr⟩
    refine ⟨_, ⟨p, c, (hmem _ _).2 ⟨h, hh, hc⟩, rfl⟩, c', ⟨p', (hmem _ _).2 ⟨h', hh', hc'⟩⟩, ?_⟩
    rw [replaceGo_subn c]
    exact replaced_braces (literal_matches c hc.1.1) p (hp h p hh) c' _ q hr fun x hx => List.eq_of_mem_replicate hx

/-! ## Skins -/

theorem combinations_mem {α : Type} (l : List α) (n : Nat) (c : List α) : c ∈ combinations l n ↔ c.Sublist l ∧ c.length = n := by
  induction l generalizing n c with
  | nil =>
    cases n with
    | zero =>
      simp only [combinations, List.mem_singleton, List.sublist_nil]
      exact ⟨fun h => ⟨h, by rw [h]; rfl⟩, fun h => h.1⟩
    | succ n =>
      simp only [combinations, List.not_mem_nil, List.sublist_nil, false_iff]
      rintro ⟨rfl, h⟩; cases h
  | cons x l ih =>
    cases n with
    | zero =>
      simp only [combinations, List.mem_singleton]
      constructor
      · rintro rfl; exact ⟨List.nil_sublist _, rfl⟩
      · rintro ⟨-, h⟩; exact List.length_eq_zero_iff.1 h
    | succ n =>
      simp only [combinations, List.mem_append, List.mem_map, ih, List.sublist_cons_iff]
      constructor
      · rintro (⟨d, ⟨h1, h2⟩, rfl⟩ | ⟨h1, h2⟩)
        · exact ⟨.inr ⟨d, rfl, h1⟩, by simp [h2]⟩
        · exact ⟨.inl h1, h2⟩
      · rintro ⟨h1 | ⟨d, rfl, h1⟩, h2⟩
        · exact .inr ⟨h1, h2⟩
        · exact .inl ⟨d, ⟨h1, by simpa using h2⟩, rfl⟩

theorem matchSkin_matches : MatchesOf matchSkin Spec.SkinHere := by
  refine ⟨fun s n h => ?_, ?_⟩
  · unfold matchSkin at h
    split at h
    · rename_i hb
      obtain ⟨t, rfl⟩ := startsWith_iff.1 hb
      cases h
      exact ⟨_, t, rfl, rfl, .inl rfl⟩
    · rcases ha : afterPrefix "skin".toList s with _ | r
      · rw [ha] at h; cases h
      · rw [ha] at h
        rw [afterPrefix_iff] at ha
        simp only at h
        split at h
        · rename_i hd
          cases h
          refine ⟨"skin".toList ++ r.takeWhile isDig, r.dropWhile isDig, ?_, ?_, .inr ⟨⟨_, rfl, ?_, ?_⟩, ?_⟩⟩
          · rw [ha, List.append_assoc, List.takeWhile_append_dropWhile]
          · rw [List.length_append]; rfl
          · intro h0; rw [h0] at hd; exact hd rfl
          · intro c hc
            exact (isDig_iff c).1 (List.all_eq_true.1 (takeWhile_all isDig r) c hc)
          · have := (headNot_iff isDig _).1 (headNot_dropWhile isDig r)
            exact fun c hc => (isDig_not c).1 (this c hc)
        · cases h
  · rintro w r (rfl | ⟨⟨ds, rfl, hd1, hd2⟩, hr⟩)
    · refine ⟨by decide, ?_⟩
      unfold matchSkin
      rw [if_pos (startsWith_iff.2 ⟨r, rfl⟩)]
      rfl
    · refine ⟨by simp, ?_⟩
      unfold matchSkin
      rw [if_neg, List.append_assoc, (afterPrefix_iff _ _ _).2 rfl]
      · simp only
        have ht := takeWhile_run (x := isDig) (w := ds) (b := r)
          (by simp only [List.all_eq_true]; exact fun c hc => (isDig_iff c).2 (hd2 c hc))
          ((headNot_iff isDig r).2 fun c hc => (isDig_not c).2 (hr c hc))
        rw [ht.1, if_pos (by simpa using hd1), List.length_append]
        rfl
      · rw [startsWith_iff]
        rintro ⟨t, ht⟩
        rw [List.append_assoc] at ht
        have := congrArg List.head? ht
        exact absurd this (by simp)

theorem skinHere_slash (skin b : Str) : Spec.SkinHere skin ('/' :: b) ↔ Spec.SkinDirName skin := by
  unfold Spec.SkinHere Spec.SkinDirName
  refine or_congr_right (and_iff_left ?_)
  intro c hc
  simp at hc; subst hc
  unfold Spec.Digit; decide

theorem matchSkinPath_iff (s char skin : Str) : matchSkinPath s = some (char, skin) ↔ ∃ b, Spec.SkinAt s [] char skin b := by
  have hsk : "/skins/".toList = '/' :: "skins/".toList := by decide +kernel
  unfold matchSkinPath Spec.SkinAt
  constructor
  · intro h
    rcases h1 : afterPrefix "/characters/".toList s with _ | s1
    · rw [h1] at h; cases h
    rw [h1] at h; simp only at h
    rcases h2 : matchDir s1 with _ | ⟨ch, s2⟩
    · rw [h2] at h; cases h
    rw [h2] at h; simp only at h
    rcases h3 : afterPrefix "skins/".toList s2 with _ | s3
    · rw [h3] at h; cases h
    rw [h3] at h; simp only at h
    rcases h4 : matchSkin s3 with _ | n
    · rw [h4] at h; cases h
    rw [h4] at h; simp only at h
    split at h
    · rename_i hsl
      cases h
      rw [afterPrefix_iff] at h1 h3
      rw [matchDir_iff] at h2
      obtain ⟨w, r, h5, h6, h7⟩ := matchSkin_matches.1 _ _ h4
      rw [h5, ← h6, List.drop_left] at hsl
      cases r with
      | nil => cases hsl
      | cons c r =>
        simp only [List.head?_cons, Option.some.injEq] at hsl
        subst hsl
        refine ⟨r, ?_, h2.2, ?_⟩
        · rw [h5, ← h6, List.take_left, h1, h2.1, h3, h5, hsk]
          simp only [List.append_assoc, List.nil_append, List.cons_append]
        · rw [h5, ← h6, List.take_left]
          exact (skinHere_slash w r).1 h7
    · cases h
  · rintro ⟨b, h1, h2, h3⟩
    have e : s = "/characters/".toList ++ (char ++ '/' :: ("skins/".toList ++ (skin ++ '/' :: b))) := by
      rw [h1, hsk]
      simp only [List.append_assoc, List.nil_append, List.cons_append]
    rw [(afterPrefix_iff _ _ _).2 e]
    simp only
    rw [(matchDir_iff _ _ _).2 ⟨rfl, h2⟩]
    simp only
    rw [(afterPrefix_iff _ _ _).2 rfl]
    simp only
    rw [(matchSkin_matches.2 skin ('/' :: b) ((skinHere_slash _ _).2 h3)).2]
    simp only
    rw [List.drop_left, List.take_left, if_pos (by rfl)]

theorem searchSkinPath_iff (p char skin : Str) : searchSkinPath p = some (char, skin) ↔ ∃ a b, Spec.SkinAt p a char skin b ∧
    ∀ a' char' skin' b', Spec.SkinAt p a' char' skin' b' → a.length ≤ a'.length := by
  have hcons : ∀ (c : Char) (p a char skin b : Str), Spec.SkinAt (c :: p) (c :: a) char skin b ↔ Spec.SkinAt p a char skin b := by
    intro c p a char skin b
    unfold Spec.SkinAt
    simp only [List.cons_append, List.cons.injEq, true_and]
  have hsplit : ∀ (c d : Char) (p a char skin b : Str), Spec.SkinAt (c :: p) (d :: a) char skin b → c = d := by
    intro c d p a char skin b h
    have := h.1
    simp only [List.cons_append, List.cons.injEq] at this
    exact this.1
  induction p with
  | nil =>
    simp only [searchSkinPath, reduceCtorEq, false_iff]
    rintro ⟨a, b, ⟨h, -⟩, -⟩
    have := congrArg List.length h
    simp at this
  | cons c p ih =>
    rw [searchSkinPath]
    rcases hm : matchSkinPath (c :: p) with _ | ⟨ch1, sk1⟩
    · rw [Option.none_or]
      refine ih.trans ?_
      have hno : ∀ char skin b, ¬ Spec.SkinAt (c :: p) [] char skin b := by
        intro char skin b h
        rw [(matchSkinPath_iff _ _ _).2 ⟨b, h⟩] at hm; cases hm
      constructor
      · rintro ⟨a, b, h1, h2⟩
        refine ⟨c :: a, b, (hcons _ _ _ _ _ _).2 h1, ?_⟩
        intro a' ch' sk' b' h'
        cases a' with
        | nil => exact absurd h' (hno _ _ _)
        | cons d a' =>
          cases hsplit _ _ _ _ _ _ _ h'
          have := h2 _ _ _ _ ((hcons _ _ _ _ _ _).1 h')
          simpa using this
      · rintro ⟨a, b, h1, h2⟩
        cases a with
        | nil => exact absurd h1 (hno _ _ _)
        | cons d a =>
          cases hsplit _ _ _ _ _ _ _ h1
          refine ⟨a, b, (hcons _ _ _ _ _ _).1 h1, fun a' ch' sk' b' h' => ?_⟩
          have := h2 _ _ _ _ ((hcons c _ _ _ _ _).2 h')
          simpa using this
    · rw [Option.some_or, ← hm, matchSkinPath_iff]
      constructor
      · rintro ⟨b, h⟩
        exact ⟨[], b, h, fun a' _ _ _ _ => by simp⟩
      · rintro ⟨a, b, h1, h2⟩
        obtain ⟨b1, hb1⟩ := (matchSkinPath_iff _ _ _).1 hm
        have := h2 _ _ _ _ hb1
        have ha : a = [] := by simpa using this
        subst ha
        exact ⟨b, h1⟩

theorem skinPaths_mem (known : List Str) (p char skin : Str) : (p, char, skin) ∈ skinPaths known ↔ p ∈ known ∧ Spec.SkinFile p char skin := by
  unfold skinPaths Spec.SkinFile
  rw [List.mem_filterMap]
  constructor
  · rintro ⟨p', hp', h⟩
    rcases hs : searchSkinPath p' with _ | ⟨ch, sk⟩
    · rw [hs] at h; cases h
    · rw [hs] at h
      simp only at h
      split at h
      · cases h
      · rename_i hne
        cases h
        exact ⟨hp', hne, (searchSkinPath_iff _ _ _).1 hs⟩
  · rintro ⟨hp, hne, h⟩
    refine ⟨p, hp, ?_⟩
    rw [(searchSkinPath_iff _ _ _).2 h]
    simp only
    rw [if_neg hne]

theorem checkSkinFormats_ok (H : Str → Int) (skins : List Str) (fmts : List (Str × Nat)) (g : Guesser)
    (h : ∀ x ∈ fmts, ∀ c ∈ combinations skins x.2, ∃ q, pyFormat x.1 (c.map .str) = .ok q) :
    ∃ ps, g.checkSkinFormats H skins fmts = (g.checkIter H ps, .ok ()) ∧
      ∀ q, q ∈ ps ↔ ∃ x ∈ fmts, ∃ c ∈ combinations skins x.2, pyFormat x.1 (c.map .str) = .ok q := by
  induction fmts generalizing g with
  | nil => exact ⟨[], rfl, by simp⟩
  | cons fmt fmts ih =>
    obtain ⟨ps, h1, h2⟩ := map_ok_of (fun c : List Str => pyFormat fmt.1 (c.map .str)) (combinations skins fmt.2) (h fmt List.mem_cons_self)
    obtain ⟨qs, h3, h4⟩ := ih (g.checkIter H ps) fun f hf => h f (List.mem_cons_of_mem _ hf)
    refine ⟨ps ++ qs, ?_, fun q => ?_⟩
    · rw [Guesser.checkSkinFormats, checkGen_ok H _ ps g h1]
      simp only
      rw [h3, (C46_calls H g _ _).1]
    · simp only [List.mem_append, h2, h4, List.mem_cons, exists_eq_or_imp]

/-- Skins of a character, from its known files -/
def skinsOf (ps : List (Str × Str × Str)) (char : Str) : List Str := ((ps.filter fun x => x.2.1 = char).map (·.2.2)).dedup

/-- Formats of the files of a character -/
def skinFormatsOf (ps : List (Str × Str × Str)) (char : Str) : List (Str × Nat) :=
  ((ps.filter fun x => x.2.1 = char).map fun x => subn matchSkin "%s".toList 0 x.1).dedup

theorem checkSkinChars_ok (H : Str → Int) (ps : List (Str × Str × Str)) (chars : List Str) (g : Guesser)
    (h : ∀ char ∈ chars, ∀ x ∈ skinFormatsOf ps char, ∀ c ∈ combinations (skinsOf ps char) x.2, ∃ q, pyFormat x.1 (c.map .str) = .ok q) :
    ∃ qs, g.checkSkinChars H ps chars = (g.checkIter H qs, .ok ()) ∧
      ∀ q, q ∈ qs ↔ ∃ char ∈ chars, ∃ x ∈ skinFormatsOf ps char, ∃ c ∈ combinations (skinsOf ps char) x.2, pyFormat x.1 (c.map .str) = .ok q := by
  induction chars generalizing g with
  | nil => exact ⟨[], rfl, by simp⟩
  | cons char chars ih =>
    obtain ⟨as, h1, h2⟩ := checkSkinFormats_ok H (skinsOf ps char) (skinFormatsOf ps char) g (h char List.mem_cons_self)
    obtain ⟨bs, h3, h4⟩ := ih (g.checkIter H as) fun f hf => h f (List.mem_cons_of_mem _ hf)
    refine ⟨as ++ bs, ?_, fun q => ?_⟩
    · rw [Guesser.checkSkinChars]
      unfold skinsOf skinFormatsOf at h1
      simp only [h1]
      rw [h3, (C46_calls H g _ _).1]
    · simp only [List.mem_append, h2, h4, List.mem_cons, exists_eq_or_imp]

/-- `substitute_skin_numbers`: the files of skins, with all their skins replaced by known skins of the character, always different ones and
in the order of the set of skins. -/
theorem C57_skins (H : Str → Int) (g : Guesser) (hg : Reached H g) (hp : ∀ h p, (h, p) ∈ g.known → '%' ∉ p) :
    ∃ skins : Str → List Str, (∀ char, (skins char).Nodup ∧ ∀ s, s ∈ skins char ↔ ∃ h p, (h, p) ∈ g.known ∧ Spec.SkinFile p char s) ∧
    ∃ g', g.substituteSkins H = (g', .ok ()) ∧ Spec.Guesses H g g' (fun q => ∃ h p char skin vs, (h, p) ∈ g.known ∧
      Spec.SkinFile p char skin ∧ vs.Sublist (skins char) ∧ Spec.Replaced Spec.SkinHere p vs q) := by
  generalize hps : skinPaths g.known.values = ps
  have hmem : ∀ p char skin, (p, char, skin) ∈ ps ↔ (∃ h, (h, p) ∈ g.known) ∧ Spec.SkinFile p char skin := by
    intro p char skin
    rw [← hps, skinPaths_mem, mem_values]
  have hfm : ∀ char x, x ∈ skinFormatsOf ps char ↔
      ∃ h p skin, (h, p) ∈ g.known ∧ Spec.SkinFile p char skin ∧ x = subn matchSkin "%s".toList 0 p := by
    intro char x
    simp only [skinFormatsOf, List.mem_dedup, List.mem_map, List.mem_filter, decide_eq_true_eq, Prod.exists]
    constructor
    · rintro ⟨p, ch, sk, ⟨hm, rfl⟩, rfl⟩
      obtain ⟨⟨h, hh⟩, hs⟩ := (hmem _ _ _).1 hm
      exact ⟨h, p, sk, hh, hs, rfl⟩
    · rintro ⟨h, p, sk, hh, hs, rfl⟩
      exact ⟨p, char, sk, ⟨(hmem _ _ _).2 ⟨⟨h, hh⟩, hs⟩, rfl⟩, rfl⟩
  have hrep : ∀ h p, (h, p) ∈ g.known → ∀ vs : List Str, vs.length = (subn matchSkin "%s".toList 0 p).2 →
      ∃ t, pyFormat (subn matchSkin "%s".toList 0 p).1 (vs.map .str) = .ok t ∧ Spec.Replaced Spec.SkinHere p vs t := by
    intro h p hh vs hv
    obtain ⟨t, ht⟩ := replaced_exists matchSkin_matches "%s".toList p vs hv
    exact ⟨t, replaced_fmt matchSkin_matches p (hp h p hh) vs t ht, ht⟩
  refine ⟨skinsOf ps, fun char => ⟨List.nodup_dedup _, fun s => ?_⟩, ?_⟩
  · simp only [skinsOf, List.mem_dedup, List.mem_map, List.mem_filter, decide_eq_true_eq, Prod.exists]
    constructor
    · rintro ⟨p, ch, sk, ⟨hm, rfl⟩, rfl⟩
      obtain ⟨⟨h, hh⟩, hs⟩ := (hmem _ _ _).1 hm
      exact ⟨h, p, hh, hs⟩
    · rintro ⟨h, p, hh, hs⟩
      exact ⟨p, char, s, ⟨(hmem _ _ _).2 ⟨⟨h, hh⟩, hs⟩, rfl⟩, rfl⟩
  · unfold Guesser.substituteSkins
    simp only [hps]
    obtain ⟨qs, h1, h2⟩ := checkSkinChars_ok H ps (ps.map (·.2.1)).dedup g (by
      intro char _ x hx c hc
      obtain ⟨h, p, sk, hh, -, rfl⟩ := (hfm _ _).1 hx
      obtain ⟨t, ht, -⟩ := hrep h p hh c ((combinations_mem _ _ _).1 hc).2
      exact ⟨t, ht⟩)
    refine ⟨_, h1, checkIter_guesses H g hg.inv.1 qs _ fun q => ?_⟩
    rw [h2]
    constructor
    · rintro ⟨char, -, x, hx, c, hc, hq⟩
      obtain ⟨h, p, sk, hh, hs, rfl⟩ := (hfm _ _).1 hx
      obtain ⟨hc1, hc2⟩ := (combinations_mem _ _ _).1 hc
      obtain ⟨t, ht, hr⟩ := hrep h p hh c hc2
      rw [ht] at hq
      cases hq
      exact ⟨h, p, char, sk, c, hh, hs, hc1, hr⟩
    · rintro ⟨h, p, char, sk, vs, hh, hs, hv, hr⟩
      refine ⟨char, ?_, _, (hfm _ _).2 ⟨h, p, sk, hh, hs, rfl⟩, vs, (combinations_mem _ _ _).2 ⟨hv, ?_⟩, ?_⟩
      · rw [List.mem_dedup, List.mem_map]
        exact ⟨(p, char, sk), (hmem _ _ _).2 ⟨⟨h, hh⟩, hs⟩, rfl⟩
      · exact replaced_count matchSkin_matches _ p vs q hr
      · exact replaced_fmt matchSkin_matches p (hp h p hh) vs q hr

/-- A path with the same skin twice is never found from other ones (only from itself): what is found has different skins. -/
theorem C57_skins_once (H : Str → Int) (g : Guesser) (hg : Reached H g) (hp : ∀ h p, (h, p) ∈ g.known → '%' ∉ p) (k : Int) (hk : k ∈ g.unknown)
    (q : Str) (hq : (g.substituteSkins H).1.known.get? k = some q) :
    ∃ h p vs, (h, p) ∈ g.known ∧ Spec.Replaced Spec.SkinHere p vs q ∧ vs.Nodup := by
  obtain ⟨skins, hs, g', h1, h2⟩ := C57_skins H g hg hp
  rw [h1] at hq
  obtain ⟨⟨h, p, char, skin, vs, hh, hf, hv, hr⟩, -⟩ := h2.sound hg k hk q hq
  exact ⟨h, p, vs, hh, hr, hv.nodup (hs char).1⟩

/-! ## Groups of skins -/

/-- The number written with the digits `ds` -/
def Spec.decimal (ds : Str) : Nat := ds.foldl (fun n c => 10 * n + (c.toNat - '0'.toNat)) 0

/-- A known file of the skin `i` of `char` -/
def Spec.SkinNumber (known : Dict Int Str) (char : Str) (i : Nat) : Prop := char ≠ "sightward".toList ∧ Spec.Name char ∧
  ∃ h ds r, (h, "assets/characters/".toList ++ char ++ "/skins/skin".toList ++ ds ++ '/' :: r) ∈ known ∧ ds ≠ [] ∧ (∀ c ∈ ds, Spec.Digit c) ∧
    i = Spec.decimal ds

theorem digitsGo_decimal (ds : Str) (h : ∀ c ∈ ds, Spec.Digit c) (acc : Nat) (prev : Bool) (hp : prev = true ∨ ds ≠ []) :
    digitsGo 10 acc prev ds = some (ds.foldl (fun n c => 10 * n + (c.toNat - '0'.toNat)) acc) := by
  have hv : ∀ c ∈ "0123456789".toList, c ≠ '_' ∧ digitVal 10 c = some (c.toNat - '0'.toNat) := by decide +kernel
  induction ds generalizing acc prev with
  | nil =>
    rcases hp with rfl | hp
    · rfl
    · exact absurd rfl hp
  | cons c ds ih =>
    obtain ⟨h1, h2⟩ := hv c (h c List.mem_cons_self)
    rw [digitsGo, if_neg h1, h2]
    simp only
    rw [ih (fun d hd => h d (List.mem_cons_of_mem _ hd)) _ true (.inl rfl), Nat.mul_comm]
    rfl

theorem int10_decimal (ds : Str) (h : ∀ c ∈ ds, Spec.Digit c) (h0 : ds ≠ []) : int10 ds = some (Spec.decimal ds : Int) := by
  have hv : ∀ c ∈ "0123456789".toList, c ≠ '-' ∧ c ≠ '+' ∧ isSpace c = false := by decide +kernel
  have hg := digitsGo_decimal ds h 0 false (.inr h0)
  unfold int10
  rw [strip_eq_self fun c hc => (hv c (h c hc)).2.2]
  split
  · exact absurd rfl (hv _ (h _ List.mem_cons_self)).1
  · exact absurd rfl (hv _ (h _ List.mem_cons_self)).2.1
  · rw [hg]; rfl

theorem matchSkinNumber_iff (p char : Str) (i : Nat) : matchSkinNumber p = some (char, i) ↔ Spec.Name char ∧ ∃ ds r,
    p = "assets/characters/".toList ++ char ++ "/skins/skin".toList ++ ds ++ '/' :: r ∧ ds ≠ [] ∧ (∀ c ∈ ds, Spec.Digit c) ∧ i = Spec.decimal ds := by
  have hsk : "/skins/skin".toList = '/' :: "skins/skin".toList := by decide +kernel
  unfold matchSkinNumber
  constructor
  · intro h
    rcases h1 : afterPrefix "assets/characters/".toList p with _ | s1
    · rw [h1] at h; cases h
    rw [h1] at h; simp only at h
    rcases h2 : matchDir s1 with _ | ⟨ch, s2⟩
    · rw [h2] at h; cases h
    rw [h2] at h; simp only at h
    rcases h3 : afterPrefix "skins/skin".toList s2 with _ | s3
    · rw [h3] at h; cases h
    rw [h3] at h; simp only at h
    split at h
    · rename_i hc
      cases h
      rw [Bool.and_eq_true, decide_eq_true_eq, decide_eq_true_eq] at hc
      rw [afterPrefix_iff] at h1 h3
      rw [matchDir_iff] at h2
      have hd : ∀ c ∈ s3.takeWhile isDig, Spec.Digit c := fun c hc => (isDig_iff c).1 (List.all_eq_true.1 (takeWhile_all isDig s3) c hc)
      have e : s3 = s3.takeWhile isDig ++ s3.drop (s3.takeWhile isDig).length := by
        conv_lhs => rw [← List.take_append_drop (s3.takeWhile isDig).length s3]
        rw [← List.prefix_iff_eq_take.1 (List.takeWhile_prefix isDig)]
      rcases hr : s3.drop (s3.takeWhile isDig).length with _ | ⟨c, r⟩
      · rw [hr] at hc; cases hc.2
      · rw [hr] at hc e
        have hc2 : c = '/' := by simpa using hc.2
        subst hc2
        refine ⟨h2.2, _, r, ?_, hc.1, hd, ?_⟩
        · rw [h1, h2.1, h3, hsk]
          conv_lhs => rw [e]
          simp only [List.append_assoc, List.cons_append]
        · rw [int10_decimal _ hd hc.1]; rfl
    · cases h
  · rintro ⟨h1, ds, r, rfl, h2, h3, rfl⟩
    have e : "assets/characters/".toList ++ char ++ "/skins/skin".toList ++ ds ++ '/' :: r =
        "assets/characters/".toList ++ (char ++ '/' :: ("skins/skin".toList ++ (ds ++ '/' :: r))) := by
      rw [hsk]
      simp only [List.append_assoc, List.cons_append]
    rw [(afterPrefix_iff _ _ _).2 e]
    simp only
    rw [(matchDir_iff _ _ _).2 ⟨rfl, h1⟩]
    simp only
    rw [(afterPrefix_iff _ _ _).2 rfl]
    simp only
    have ht := takeWhile_run (x := isDig) (w := ds) (b := '/' :: r)
      (by simp only [List.all_eq_true]; exact fun c hc => (isDig_iff c).2 (h3 c hc)) (by intro c t h; cases h; decide)
    rw [ht.1, List.drop_left, if_pos (by simpa using h2), int10_decimal ds h3 h2]
    rfl

theorem charSkins_mem (known : Dict Int Str) (char : Str) (i : Nat) : (char, i) ∈ charSkins known.values ↔ Spec.SkinNumber known char i := by
  unfold charSkins Spec.SkinNumber
  rw [List.mem_filterMap]
  constructor
  · rintro ⟨p, hp, h⟩
    obtain ⟨k, hk⟩ := mem_values.1 hp
    rcases hm : matchSkinNumber p with _ | ⟨ch, n⟩
    · rw [hm] at h; cases h
    · rw [hm] at h
      simp only at h
      split at h
      · cases h
      · rename_i hne
        cases h
        obtain ⟨h1, ds, r, rfl, h2⟩ := (matchSkinNumber_iff _ _ _).1 hm
        exact ⟨hne, h1, k, ds, r, hk, h2⟩
  · rintro ⟨hne, h1, k, ds, r, hk, h2⟩
    refine ⟨_, mem_values.2 ⟨k, hk⟩, ?_⟩
    rw [(matchSkinNumber_iff _ char i).2 ⟨h1, ds, r, rfl, h2⟩]
    simp only
    rw [if_neg hne]

theorem skinGroupNames_mem (char : Str) (skins : List Nat) (hs : skins.Nodup) (q : Str) : q ∈ skinGroupNames char skins ↔
    ∃ names : List Str, names ≠ [] ∧ names.Nodup ∧ names.Pairwise (· ≤ ·) ∧
      (∀ n ∈ names, ∃ i ∈ skins, n = "_skins_skin".toList ++ showNat 10 i) ∧ q = "data/".toList ++ char ++ names.flatten ++ ".bin".toList := by
  unfold skinGroupNames
  generalize hl : (skins.map fun i => "_skins_skin".toList ++ showNat 10 i).insertionSort (· ≤ ·) = l
  have hmem : ∀ n, n ∈ l ↔ ∃ i ∈ skins, n = "_skins_skin".toList ++ showNat 10 i := by
    intro n
    rw [← hl, (List.perm_insertionSort _ _).mem_iff, List.mem_map]
    exact exists_congr fun i => and_congr_right fun _ => eq_comm
  have hsort : l.Pairwise (· ≤ ·) := hl ▸ List.pairwise_insertionSort _ _
  have hnd : l.Nodup := by
    rw [← hl, (List.perm_insertionSort _ _).nodup_iff]
    refine hs.map fun i j hij => ?_
    exact showNat_inj (by omega) (by omega) (List.append_cancel_left hij)
  simp only [List.mem_flatMap, List.mem_range, List.mem_map, combinations_mem]
  constructor
  · rintro ⟨n, -, c, ⟨h1, h2⟩, rfl⟩
    exact ⟨c, (by rintro rfl; cases h2), h1.nodup hnd, hsort.sublist h1, fun x hx => (hmem x).1 (h1.subset hx), rfl⟩
  · rintro ⟨c, h0, h1, h2, h3, rfl⟩
    have hsub : c.Sublist l := List.sublist_of_subperm_of_pairwise (r := (· ≤ ·))
      (List.subperm_of_subset h1 fun x hx => (hmem x).2 (h3 x hx)) h2 hsort
    have hpos := List.length_pos_iff.2 h0
    have := hsub.length_le
    exact ⟨c.length - 1, by omega, c, ⟨hsub, by omega⟩, rfl⟩

/-- `guess_skin_groups_bin`: for each character with known skins, the files of all groups of its skins, in alphabetic order, including skin 0. -/
theorem C57_skin_groups (H : Str → Int) (g : Guesser) (hg : Reached H g) :
    Spec.Guesses H g (g.guessSkinGroups H) (fun q => ∃ (char : Str) (names : List Str), (∃ i, Spec.SkinNumber g.known char i) ∧ names ≠ [] ∧
      names.Nodup ∧ names.Pairwise (· ≤ ·) ∧
      (∀ n ∈ names, ∃ i, (i = 0 ∨ Spec.SkinNumber g.known char i) ∧ n = "_skins_skin".toList ++ showNat 10 i) ∧
      q = "data/".toList ++ char ++ names.flatten ++ ".bin".toList) := by
  unfold Guesser.guessSkinGroups
  simp only
  rw [foldl_checkIter H (fun char : Str =>
    skinGroupNames char (0 :: ((charSkins g.known.values).filter fun x => x.1 = char).map (·.2)).dedup)]
  refine checkIter_guesses H _ hg.inv.1 _ _ fun q => ?_
  simp only [List.mem_flatMap, skinGroupNames_mem _ _ (List.nodup_dedup _), List.mem_dedup, List.mem_map, List.mem_cons, List.mem_filter,
    decide_eq_true_eq, Prod.exists, exists_and_right, exists_eq_right, charSkins_mem]
  exact exists_congr fun char => ⟨fun ⟨h1, names, h2⟩ => ⟨names, h1, h2⟩, fun ⟨names, h1, h2⟩ => ⟨h1, names, h2⟩⟩

/-! ## Files of the client -/

/-- `guess_from_lcu_hashes`: game files converted by the client, with the extension of game files. -/
theorem C57_lcu (H : Str → Int) (g : Guesser) (hg : Reached H g) (paths : List Str) :
    Spec.Guesses H g (g.guessFromLcu H paths) (fun q => ∃ x e, ((∃ y, x = "assets/".toList ++ y) ∨ ∃ y, x = "data/".toList ++ y) ∧
      "plugins/rcp-be-lol-game-data/global/default/".toList ++ x ++ '.' :: e ∈ paths ∧
      ((e = "png".toList ∨ e = "jpg".toList) ∧ q = x ++ ".dds".toList ∨ e = "json".toList ∧ q = x ++ ".json".toList)) := by
  have hcand : ∀ p q, lcuCandidate p = some q ↔ ∃ x e, ((∃ y, x = "assets/".toList ++ y) ∨ ∃ y, x = "data/".toList ++ y) ∧
      p = "plugins/rcp-be-lol-game-data/global/default/".toList ++ x ++ '.' :: e ∧
      ((e = "png".toList ∨ e = "jpg".toList) ∧ q = x ++ ".dds".toList ∨ e = "json".toList ∧ q = x ++ ".json".toList) := by
    intro p q
    unfold lcuCandidate splitLcuExt
    have n1 : ¬ "png".toList = "json".toList := by decide +kernel
    have n2 : ¬ "jpg".toList = "json".toList := by decide +kernel
    constructor
    · intro h
      rcases h1 : afterPrefix "plugins/rcp-be-lol-game-data/global/default/".toList p with _ | s
      · rw [h1] at h; cases h
      rw [h1] at h; simp only at h
      rcases h2 : rsplit1 '.' s with _ | ⟨x, e⟩
      · rw [h2] at h; cases h
      rw [h2] at h; simp only at h
      rw [afterPrefix_iff] at h1
      rw [rsplit1_eq_some] at h2
      by_cases he : (e = "png".toList || e = "jpg".toList || e = "json".toList) = true
      · rw [if_pos he] at h
        simp only at h
        by_cases hx : (startsWith x "assets/".toList || startsWith x "data/".toList) = true
        · rw [if_pos hx, Option.some.injEq] at h
          rw [Bool.or_eq_true, startsWith_iff, startsWith_iff] at hx
          refine ⟨x, e, hx, by rw [h1, h2.1, List.append_assoc], ?_⟩
          simp only [Bool.or_eq_true, decide_eq_true_eq] at he
          rcases he with he | he
          · left
            refine ⟨he, ?_⟩
            rw [if_neg (by rcases he with rfl | rfl <;> assumption)] at h
            exact h.symm
          · right
            rw [if_pos he] at h
            exact ⟨he, h.symm⟩
        · rw [if_neg hx] at h; cases h
      · rw [if_neg he] at h; cases h
    · rintro ⟨x, e, hx, rfl, he⟩
      rw [List.append_assoc, (afterPrefix_iff _ _ _).2 rfl]
      simp only
      have hd : '.' ∉ e := by
        rcases he with ⟨rfl | rfl, -⟩ | ⟨rfl, -⟩ <;> decide +kernel
      rw [rsplit1_eq_some.2 ⟨rfl, hd⟩]
      simp only
      rw [if_pos (by
        simp only [Bool.or_eq_true, decide_eq_true_eq]
        rcases he with ⟨he, -⟩ | ⟨he, -⟩
        · exact .inl he
        · exact .inr he)]
      simp only
      rw [if_pos (by rwa [Bool.or_eq_true, startsWith_iff, startsWith_iff])]
      rcases he with ⟨he, rfl⟩ | ⟨he, rfl⟩
      · rw [if_neg (by rcases he with rfl | rfl <;> assumption)]
      · rw [if_pos he]
  have hfold : ∀ (ps : List Str) (g : Guesser), g.guessFromLcu H ps = g.checkIter H (ps.filterMap lcuCandidate) := by
    intro ps
    unfold Guesser.guessFromLcu
    induction ps with
    | nil => intro g; rfl
    | cons p ps ih =>
      intro g
      rw [List.foldl_cons, ih]
      rcases hc : lcuCandidate p with _ | q
      · rw [List.filterMap_cons_none hc]
      · rw [List.filterMap_cons_some hc]
        simp only
        rw [← checkIter_single, ← (C46_calls H g _ _).1]
        rfl
  rw [hfold]
  refine checkIter_guesses H _ hg.inv.1 _ _ fun q => ?_
  simp only [List.mem_filterMap, hcand]
  constructor
  · rintro ⟨_, hp, x, e, hx, rfl, he⟩; exact ⟨x, e, hx, hp, he⟩
  · rintro ⟨x, e, hx, hp, he⟩; exact ⟨_, hp, x, e, hx, rfl, he⟩

/-! ## Examples -/

/-- Suffixes, replaced languages (all the codes of the path), and a path with two skins -/
example : Spec.SuffixExt "a/b.fr_fr.txt".toList "a/b".toList ".fr_fr".toList ".txt".toList ∧
    Spec.Replaced (fun w _ => w ∈ Spec.languages) "fr_fr/x".toList [ "de_de".toList] "de_de/x".toList ∧
    Spec.SkinFile "assets/characters/ashe/skins/skin02/ashe_skin02.dds".toList "ashe".toList "skin02".toList := by
  refine ⟨⟨by decide +kernel, ⟨"txt".toList, by decide +kernel, by decide, by decide +kernel⟩, .inl ⟨"fr_fr".toList, by decide +kernel, by decide, by decide +kernel⟩⟩,
    ?_, ?_⟩
  · obtain ⟨t, ht⟩ := replaced_exists matchLang_matches "{}".toList "fr_fr/x".toList ["de_de".toList] (by decide +kernel)
    have := replaced_braces matchLang_matches _ (by decide +kernel) "de_de".toList _ t ht (by simp)
    rwa [show t = "de_de/x".toList by rw [← this]; decide +kernel] at ht
  · exact ⟨by decide +kernel, (searchSkinPath_iff _ _ _).1 (by decide +kernel)⟩

/-- The suffix may contain a slash: the extension of a directory is taken for a suffix. -/
example : Spec.SuffixExt "a.b/c.txt".toList "a".toList ".b/c".toList ".txt".toList :=
  ⟨by decide +kernel, ⟨"txt".toList, by decide +kernel, by decide, by decide +kernel⟩, .inl ⟨"b/c".toList, by decide +kernel, by decide, by decide +kernel⟩⟩

/-- What the methods find, for hashes being lengths. With a single known skin a path with two skins cannot even be found again. -/
example : let H : Str → Int := fun s => s.length
    let g1 := Guesser.init [(1, "plugins/ab/x".toList), (2, "plugins/c/yy/z".toList)] [11, 13, 15, 27]
    let g2 := Guesser.init [(1, "data/characters/ashe/ashe.bin".toList), (2, "assets/characters/vi/x".toList), (9, "a.b.c".toList)] [3, 25, 30]
    let g3 := Guesser.init [(1, "assets/characters/a/skins/skin02/a_skin02.dds".toList), (2, "assets/characters/a/skins/base/a.dds".toList)] [43, 32, 34, 45]
    (g1.substitutePlugin H).1.known.get? 11 = some "plugins/c/x".toList ∧
    (g2.substituteSuffixes H).1.known.get? 3 = some "a.c".toList ∧
    (g2.substituteCharacter H).known.get? 25 = some "data/characters/vi/vi.bin".toList ∧
    (g3.substituteSkins H).1.known.get? 43 = some "assets/characters/a/skins/skin02/a_base.dds".toList ∧
    (g3.substituteSkins H).1.known.get? 45 = none ∧
    (g3.guessSkinGroups H).known.get? 34 = some "data/a_skins_skin0_skins_skin2.bin".toList ∧
    (g3.guessFromLcu H ["plugins/rcp-be-lol-game-data/global/default/assets/some_long_name_of_a_fil.png".toList]).known.get? 34 = some "assets/some_long_name_of_a_fil.dds".toList := by
  decide +kernel

end Cdtb
