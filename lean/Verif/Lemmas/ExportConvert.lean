import Verif.Lemmas.ExportJobs
/-! Lemmas on exported files: the steps of a conversion and its specification. -/
namespace Cdtb
set_option autoImplicit false
open Py

variable {lib : ConvLib}

theorem converts_copy {p o : Str} {d : Bytes} {r : Spec.Result} : Spec.Converts lib .copy p d o r ↔ o = p ∧ r = .file d :=
  ⟨fun h => by cases h; exact ⟨rfl, rfl⟩, by rintro ⟨rfl, rfl⟩; exact .copy _ _⟩

theorem converts_image {p o : Str} {d : Bytes} {r : Spec.Result} : Spec.Converts lib .image p d o r ↔
    o = (splitext p).1 ++ ".png".toList ∧ ∃ b, r = .file b ∧ Spec.Writes (lib.image d) b :=
  ⟨fun h => by cases h with | image _ _ b hb => exact ⟨rfl, b, rfl, hb⟩, by rintro ⟨rfl, b, rfl, h⟩; exact .image _ _ _ h⟩

theorem converts_tex {p o : Str} {d : Bytes} {r : Spec.Result} : Spec.Converts lib .tex p d o r ↔
    o = (splitext p).1 ++ ".png".toList ∧ ∃ b dds, r = .file b ∧ texToDds d = .ok dds ∧ Spec.Writes (lib.image dds) b :=
  ⟨fun h => by cases h with | tex _ _ dds b h1 h2 => exact ⟨rfl, b, dds, rfl, h1, h2⟩,
    by rintro ⟨rfl, b, dds, rfl, h1, h2⟩; exact .tex _ _ _ _ h1 h2⟩

theorem converts_bin {p o : Str} {d : Bytes} {r : Spec.Result} : Spec.Converts lib .bin p d o r ↔
    (o = p ∧ r = .file d) ∨ (o = p ++ ".json".toList ∧ ∃ b, r = .file b ∧ Spec.Writes (binBody lib d) b) := by
  constructor
  · intro h
    cases h with
    | binCopy => exact Or.inl ⟨rfl, rfl⟩
    | binJson _ _ b bin s h1 h2 h3 => exact Or.inr ⟨rfl, b, rfl, by simpa only [binBody, h1, h2] using h3⟩
  · rintro (⟨rfl, rfl⟩ | ⟨rfl, b, rfl, h⟩)
    · exact .binCopy _ _
    · unfold binBody at h
      cases h1 : parseBin (some lib.version) d with
      | error e => rw [h1] at h; simp [writes_iff, bodyErr] at h
      | ok bin =>
        rw [h1] at h
        simp only at h
        cases h2 : bin.ser lib.binEnv with
        | error e => rw [h2] at h; simp [writes_iff, bodyErr] at h
        | ok s => rw [h2] at h; exact .binJson _ _ _ _ _ h1 h2 h

theorem forall₂_map_left {α β γ : Type} {R : β → γ → Prop} {f : α → β} {l : List α} {l' : List γ} :
    List.Forall₂ R (l.map f) l' ↔ List.Forall₂ (fun a c => R (f a) c) l l' := List.forall₂_map_left_iff

theorem converts_skn {p o : Str} {d : Bytes} {r : Spec.Result} : Spec.Converts lib .skn p d o r ↔
    (o = p ∧ r = .file d) ∨ (o = (splitext p).1 ∧ ∃ fl l, r = .dir l ∧ sknFiles lib d = .ok fl ∧ List.Forall₂ (FileOf lib) fl l) := by
  constructor
  · intro h
    cases h with
    | sknCopy => exact Or.inl ⟨rfl, rfl⟩
    | sknDir _ _ s files h1 h2 =>
      refine Or.inr ⟨rfl, s.entries.map fun e => (e.name ++ ".obj".toList, toObj lib.showF e), files, rfl, by simp only [sknFiles, h1], ?_⟩
      rw [forall₂_map_left]
      exact h2
  · rintro (⟨rfl, rfl⟩ | ⟨rfl, fl, l, rfl, h1, h2⟩)
    · exact .sknCopy _ _
    · unfold sknFiles at h1
      cases hp : parseSkn.run d with
      | error e => rw [hp] at h1; simp at h1
      | ok s =>
        rw [hp] at h1
        simp only [Except.ok.injEq] at h1
        subst h1
        rw [forall₂_map_left] at h2
        exact .sknDir _ _ s _ hp h2

theorem converts_rst {p o : Str} {d : Bytes} {r : Spec.Result} : Spec.Converts lib .rst p d o r ↔
    (o = p ∧ r = .file d) ∨ (o = p ++ ".json".toList ∧ ∃ b x, r = .file b ∧ (parseRst lib.rstEnv lib.version).run d = .ok x ∧
      Spec.Writes (lib.rstJson (rstEntries lib.rstHashes x) x.version) b) := by
  constructor
  · intro h
    cases h with
    | rstCopy => exact Or.inl ⟨rfl, rfl⟩
    | rstJson _ _ b x h1 h2 => exact Or.inr ⟨rfl, b, x, rfl, h1, h2⟩
  · rintro (⟨rfl, rfl⟩ | ⟨rfl, b, x, rfl, h1, h2⟩)
    · exact .rstCopy _ _
    · exact .rstJson _ _ _ _ h1 h2

theorem converts_atlas {p o : Str} {d : Bytes} {r : Spec.Result} : Spec.Converts lib .atlas p d o r ↔
    o = p ++ ".json".toList ∧ ∃ b, r = .file b ∧ Spec.Writes (jsonBody ((parseAtlas lib.gameHashes).run d) lib.atlasJson) b := by
  simp only [jsonBody_writes]
  constructor
  · intro h
    cases h with | atlas _ _ b a h1 h2 => exact ⟨rfl, b, rfl, a, h1, h2⟩
  · rintro ⟨rfl, b, rfl, a, h1, h2⟩; exact .atlas _ _ _ _ h1 h2

theorem converts_skins {p o : Str} {d : Bytes} {r : Spec.Result} : Spec.Converts lib .championSkin p d o r ↔
    o = p ++ ".json".toList ∧ ∃ b, r = .file b ∧ Spec.Writes (jsonBody (parseChampionSkins.run d) lib.skinJson) b := by
  simp only [jsonBody_writes]
  constructor
  · intro h
    cases h with | skins _ _ b a h1 h2 => exact ⟨rfl, b, rfl, a, h1, h2⟩
  · rintro ⟨rfl, b, rfl, a, h1, h2⟩; exact .skins _ _ _ _ h1 h2

/-- The step that makes a converted path -/
def StepOf (lib : ConvLib) (output : Str) (c : Converter) (p : Str) (d : Bytes) (o : Str) : Prop :=
  (∃ err body, OutStep.file (pjoin output o) err body ∈ c.steps lib output p d ∧ ¬ Spec.IsTree c p o ∧
    ∀ r, Spec.Converts lib c p d o r ↔ ∃ b, r = .file b ∧ Spec.Writes body b) ∨
  (∃ files, OutStep.dir (pjoin output o) files ∈ c.steps lib output p d ∧ Spec.IsTree c p o ∧
    ∀ r, Spec.Converts lib c p d o r ↔ ∃ fl l, r = .dir l ∧ files = .ok fl ∧ List.Forall₂ (FileOf lib) fl l) ∨
  ((∃ e, OutStep.fail e ∈ c.steps lib output p d) ∧ ¬ Spec.IsTree c p o ∧ (∀ r, ¬ Spec.Converts lib c p d o r) ∧
    ∀ x, OwnAll (c.steps lib output p d) x → pjoin output o ≠ x ∧ ¬ Spec.DirOf (pjoin output o) x)

/-- The kind of path of a step -/
def StepPath (output : Str) (c : Converter) (p : Str) : OutStep → Prop
  | .file x _ _ => ∃ o ∈ c.convertedPaths p, x = pjoin output o ∧ ¬ Spec.IsTree c p o
  | .fail _ => True
  | .dir x _ => ∃ o ∈ c.convertedPaths p, x = pjoin output o ∧ Spec.IsTree c p o

theorem writes_singleton {d b : Bytes} : Spec.Writes [.write d] b ↔ b = d := by simp [writes_iff, bodyErr, bodyBytes]

theorem pjoin_json {output p : Str} (h : Spec.Named p) (x : Str) : pjoin output p ++ x = pjoin output (p ++ x) := by
  rcases pjoin_append output p x with h' | h'
  · exact h'
  · exact absurd h' h.ne_nil

theorem not_tree {c : Converter} {p o : Str} (h : c ≠ .skn) : ¬ Spec.IsTree c p o := fun h' => h h'.1

theorem json_ne {p : Str} : p ++ ".json".toList ≠ p := by
  intro h; have := congrArg List.length h; simp at this

theorem stepOf (output : Str) {c : Converter} {p : Str} (d : Bytes) (hp : Spec.Ordinary c p) {o : Str} (ho : o ∈ c.convertedPaths p) :
    StepOf lib output c p d o := by
  cases c with
  | copy =>
    simp only [Converter.convertedPaths, List.mem_singleton] at ho
    subst ho
    refine Or.inl ⟨id, [.write d], by simp [Converter.steps], not_tree (by simp), fun r => ?_⟩
    rw [converts_copy]
    simp [writes_singleton]
  | image =>
    simp only [Converter.convertedPaths, List.mem_singleton] at ho
    subst ho
    refine Or.inl ⟨imageErr, lib.image d, by simp [Converter.steps], not_tree (by simp), fun r => ?_⟩
    rw [converts_image]
    simp
  | tex =>
    simp only [Converter.convertedPaths, List.mem_singleton] at ho
    subst ho
    cases ht : texToDds d with
    | error e =>
      refine Or.inr (Or.inr ⟨⟨e, by simp [Converter.steps, ht]⟩, not_tree (by simp), fun r => ?_, ?_⟩)
      · rw [converts_tex]; simp [ht]
      · rintro x ⟨s, hs, hq⟩
        simp only [Converter.steps, ht, List.mem_singleton] at hs
        subst hs
        exact hq.elim
    | ok dds =>
      refine Or.inl ⟨imageErr, lib.image dds, by simp [Converter.steps, ht], not_tree (by simp), fun r => ?_⟩
      rw [converts_tex]
      simp [ht]
  | atlas =>
    simp only [Converter.convertedPaths, List.mem_singleton] at ho
    subst ho
    refine Or.inl ⟨id, jsonBody ((parseAtlas lib.gameHashes).run d) lib.atlasJson,
      by simp only [Converter.steps, List.mem_singleton, pjoin_json hp.named], not_tree (by simp), fun r => ?_⟩
    rw [converts_atlas]
    simp
  | championSkin =>
    simp only [Converter.convertedPaths, List.mem_singleton] at ho
    subst ho
    refine Or.inl ⟨id, jsonBody (parseChampionSkins.run d) lib.skinJson,
      by simp only [Converter.steps, List.mem_singleton, pjoin_json hp.named], not_tree (by simp), fun r => ?_⟩
    rw [converts_skins]
    simp
  | bin =>
    simp only [Converter.convertedPaths, List.mem_cons, List.not_mem_nil, or_false] at ho
    rcases ho with rfl | rfl
    · refine Or.inl ⟨id, [.write d], by simp [Converter.steps], not_tree (by simp), fun r => ?_⟩
      rw [converts_bin]
      simp only [writes_singleton, true_and, json_ne.symm, false_and, or_false, exists_eq_right]
    · refine Or.inl ⟨id, binBody lib d, by simp only [Converter.steps, List.mem_cons, pjoin_json hp.named, true_or, or_true],
        not_tree (by simp), fun r => ?_⟩
      rw [converts_bin]
      simp only [json_ne, false_and, false_or, true_and]
  | skn =>
    simp only [Converter.convertedPaths, List.mem_cons, List.not_mem_nil, or_false] at ho
    have hne : p ≠ (splitext p).1 := by
      have := hp.distinct
      simp only [Converter.convertedPaths, List.nodup_cons, List.mem_singleton] at this
      exact this.1
    rcases ho with rfl | rfl
    · refine Or.inl ⟨id, [.write d], by simp [Converter.steps], fun h => hne h.2, fun r => ?_⟩
      rw [converts_skn]
      simp only [writes_singleton, true_and, hne, false_and, or_false, exists_eq_right]
    · refine Or.inr (Or.inl ⟨sknFiles lib d, by simp [Converter.steps], ⟨rfl, rfl⟩, fun r => ?_⟩)
      rw [converts_skn]
      simp only [hne.symm, false_and, false_or, true_and]
  | rst =>
    simp only [Converter.convertedPaths, List.mem_cons, List.not_mem_nil, or_false] at ho
    rcases ho with rfl | rfl
    · refine Or.inl ⟨id, [.write d], by simp [Converter.steps], not_tree (by simp), fun r => ?_⟩
      rw [converts_rst]
      simp only [writes_singleton, true_and, json_ne.symm, false_and, or_false, exists_eq_right]
    · cases hr : (parseRst lib.rstEnv lib.version).run d with
      | error e =>
        refine Or.inr (Or.inr ⟨⟨e, by simp [Converter.steps, hr]⟩, not_tree (by simp), fun r => ?_, ?_⟩)
        · rw [converts_rst]; simp only [json_ne, false_and, false_or, true_and, hr]; simp
        · rintro x ⟨s, hs, hq⟩
          simp only [Converter.steps, hr, List.mem_cons, List.not_mem_nil, or_false] at hs
          rcases hs with rfl | rfl
          · simp only [OutStep.Own] at hq
            subst hq
            rw [← pjoin_json hp.named]
            refine ⟨json_ne, ?_⟩
            rintro (h | ⟨r, h⟩)
            · exact Spec.Named.not_root ⟨pjoin output p ++ ".jso".toList, 'n', by simp, by decide⟩ h
            · have := congrArg List.length h; simp at this
          · exact hq.elim
      | ok x =>
        refine Or.inl ⟨id, lib.rstJson (rstEntries lib.rstHashes x) x.version,
          by simp only [Converter.steps, hr, List.mem_cons, pjoin_json hp.named, true_or, or_true], not_tree (by simp), fun r => ?_⟩
        rw [converts_rst]
        simp only [json_ne, false_and, false_or, true_and, hr, Except.ok.injEq, exists_eq_left', exists_and_left]

theorem stepPath (output : Str) {c : Converter} {p : Str} (d : Bytes) (hp : Spec.Ordinary c p) {s : OutStep} (hs : s ∈ c.steps lib output p d) :
    StepPath output c p s := by
  have file : ∀ {o err body}, o ∈ c.convertedPaths p → ¬ Spec.IsTree c p o → s = .file (pjoin output o) err body → StepPath output c p s := by
    rintro o err body ho ht rfl
    exact ⟨o, ho, rfl, ht⟩
  cases c with
  | copy => exact file (o := p) (by simp [Converter.convertedPaths]) (not_tree (by simp)) (List.mem_singleton.1 hs)
  | image => exact file (o := (splitext p).1 ++ ".png".toList) (List.mem_singleton.2 rfl) (not_tree (by simp)) (List.mem_singleton.1 hs)
  | tex =>
    simp only [Converter.steps] at hs
    split at hs
    · rw [List.mem_singleton.1 hs]; trivial
    · exact file (o := (splitext p).1 ++ ".png".toList) (List.mem_singleton.2 rfl) (not_tree (by simp)) (List.mem_singleton.1 hs)
  | atlas =>
    simp only [Converter.steps, pjoin_json hp.named] at hs
    exact file (o := p ++ ".json".toList) (List.mem_singleton.2 rfl) (not_tree (by simp)) (List.mem_singleton.1 hs)
  | championSkin =>
    simp only [Converter.steps, pjoin_json hp.named] at hs
    exact file (o := p ++ ".json".toList) (List.mem_singleton.2 rfl) (not_tree (by simp)) (List.mem_singleton.1 hs)
  | bin =>
    simp only [Converter.steps, pjoin_json hp.named, List.mem_cons, List.not_mem_nil, or_false] at hs
    rcases hs with hs | hs
    · exact file (o := p) (by simp [Converter.convertedPaths]) (not_tree (by simp)) hs
    · exact file (o := p ++ ".json".toList) (by simp only [Converter.convertedPaths, List.mem_cons, true_or, or_true]) (not_tree (by simp)) hs
  | skn =>
    simp only [Converter.steps, List.mem_cons, List.not_mem_nil, or_false] at hs
    have hne : p ≠ (splitext p).1 := by
      have := hp.distinct
      simp only [Converter.convertedPaths, List.nodup_cons, List.mem_singleton] at this
      exact this.1
    rcases hs with hs | rfl
    · exact file (o := p) (by simp [Converter.convertedPaths]) (fun h => hne h.2) hs
    · exact ⟨(splitext p).1, by simp [Converter.convertedPaths], rfl, rfl, rfl⟩
  | rst =>
    simp only [Converter.steps, pjoin_json hp.named, List.mem_cons, List.not_mem_nil, or_false] at hs
    rcases hs with hs | hs
    · exact file (o := p) (by simp [Converter.convertedPaths]) (not_tree (by simp)) hs
    · split at hs
      · rw [hs]; trivial
      · exact file (o := p ++ ".json".toList) (by simp only [Converter.convertedPaths, List.mem_cons, true_or, or_true]) (not_tree (by simp)) hs

theorem named_converted {c : Converter} {p o : Str} (hp : Spec.Named p) (ho : o ∈ c.convertedPaths p) : Spec.Named o := by
  have hj : Spec.Named (p ++ ".json".toList) := ⟨p ++ ".jso".toList, 'n', by simp, by decide⟩
  have hg : Spec.Named ((splitext p).1 ++ ".png".toList) := ⟨(splitext p).1 ++ ".pn".toList, 'g', by simp, by decide⟩
  cases c <;> simp only [Converter.convertedPaths, List.mem_cons, List.not_mem_nil, or_false] at ho
  case skn => rcases ho with rfl | rfl; exacts [hp, hp.stem]
  case bin => rcases ho with rfl | rfl; exacts [hp, hj]
  case rst => rcases ho with rfl | rfl; exacts [hp, hj]
  all_goals subst ho; assumption

theorem steps_own {output : Str} {c : Converter} {p : Str} {d : Bytes} (hp : Spec.Ordinary c p) {q : Str}
    (h : OwnAll (c.steps lib output p d) q) : Spec.Owns output c p q := by
  obtain ⟨s, hs, hq⟩ := h
  have hsp := stepPath output d hp hs
  cases s with
  | file x err body =>
    obtain ⟨o, ho, hx, -⟩ := hsp
    exact ⟨o, ho, Or.inl (by rw [← hx]; exact hq)⟩
  | fail e => exact hq.elim
  | dir x files =>
    obtain ⟨o, ho, hx, ht⟩ := hsp
    refine ⟨o, ho, ?_⟩
    rw [← hx]
    rcases hq with rfl | ⟨n, rfl⟩
    · exact Or.inl rfl
    · exact Or.inr ⟨ht, n, rfl⟩

theorem steps_local {output : Str} {c : Converter} {p : Str} {d : Bytes} (ho : output ≠ []) (hp : Spec.Ordinary c p) (hn : Spec.NamesOk c d) :
    ∀ s ∈ c.steps lib output p d, s.Local := by
  intro s hs
  have hsp := stepPath output d hp hs
  cases s with
  | file x err body =>
    obtain ⟨o, ho', rfl, -⟩ := hsp
    exact ⟨(named_converted hp.named ho').pjoin, dirname_nonempty (pjoin_slash ho)⟩
  | fail e => trivial
  | dir x files =>
    obtain ⟨o, ho', rfl, ht⟩ := hsp
    refine ⟨(named_converted hp.named ho').pjoin, ?_⟩
    obtain ⟨rfl, -⟩ := ht
    simp only [Converter.steps, List.mem_cons, List.not_mem_nil, or_false, reduceCtorEq, false_or, OutStep.dir.injEq] at hs
    rintro fl rfl a ha
    have hs2 := hs.2
    unfold sknFiles at hs2
    cases hk : parseSkn.run d with
    | error e => rw [hk] at hs2; simp at hs2
    | ok s =>
      rw [hk] at hs2
      simp only [Except.ok.injEq] at hs2
      subst hs2
      obtain ⟨e, he, rfl⟩ := List.mem_map.1 ha
      have := hn rfl s hk e he
      simp [this]

theorem steps_apart {output : Str} {c : Converter} {p : Str} {d : Bytes} (hp : Spec.Ordinary c p) :
    (c.steps lib output p d).Pairwise fun s t => ApartSets s.Own t.Own := by
  have hnp : Spec.Named (pjoin output p) := hp.named.pjoin
  have hj : ApartSets (· = pjoin output p) (· = pjoin output p ++ ".json".toList) := by
    have := (apart_ext (t := "json".toList) (c := '.') hnp (by decide) ⟨".jso".toList, 'n', rfl, by decide⟩).symm
    intro x y hx hy
    exact this x y (Or.inl hx) hy
  cases c with
  | copy => exact List.pairwise_singleton _ _
  | image => exact List.pairwise_singleton _ _
  | atlas => exact List.pairwise_singleton _ _
  | championSkin => exact List.pairwise_singleton _ _
  | tex =>
    simp only [Converter.steps]
    split <;> exact List.pairwise_singleton _ _
  | bin =>
    simp only [Converter.steps, List.pairwise_cons, List.mem_singleton, forall_eq, List.not_mem_nil, false_imp_iff, implies_true,
      List.Pairwise.nil, and_true]
    exact hj
  | rst =>
    simp only [Converter.steps, List.pairwise_cons, List.mem_singleton, forall_eq, List.not_mem_nil, false_imp_iff, implies_true,
      List.Pairwise.nil, and_true]
    split
    · intro x y _ hy; exact hy.elim
    · exact hj
  | skn =>
    simp only [Converter.steps, List.pairwise_cons, List.mem_singleton, forall_eq, List.not_mem_nil, false_imp_iff, implies_true,
      List.Pairwise.nil, and_true]
    have hne : p ≠ (splitext p).1 := by
      have := hp.distinct
      simp only [Converter.convertedPaths, List.nodup_cons, List.mem_singleton] at this
      exact this.1
    rcases splitext_cases p with hs | ⟨dir, stem, ext, he, hd, hs, hex, hdx, hc, hsp⟩
    · rw [hs] at hne; simp at hne
    · have hns : Spec.Named (splitext p).1 := hp.named.stem
      have happ := splitext_append p
      have hext : (splitext p).2 = '.' :: ext := by rw [hsp]
      rw [hext] at happ
      have hx : pjoin output p = pjoin output (splitext p).1 ++ '.' :: ext := by rw [pjoin_json hns, happ]
      have hnx : Spec.Named ('.' :: ext) := by
        obtain ⟨q, c, hq, hc⟩ := hp.named
        rcases List.eq_nil_or_concat ext with rfl | ⟨e', c', rfl⟩
        · exact ⟨[], '.', rfl, by decide⟩
        · refine ⟨'.' :: e', c', by simp, ?_⟩
          rintro rfl
          simp at hex
      rw [show OutStep.Own (.file (pjoin output p) id [.write d]) = (· = pjoin output (splitext p).1 ++ '.' :: ext) from by
        funext q; simp only [OutStep.Own, hx]]
      exact apart_ext hns.pjoin (by decide) hnx

theorem steps_dropLast {output : Str} {c : Converter} {p : Str} {d : Bytes} : ∀ s ∈ (c.steps lib output p d).dropLast, s.err lib = none := by
  intro s hs
  cases c <;> simp only [Converter.steps] at hs
  case tex => split at hs <;> simp at hs
  all_goals simp only [List.dropLast_singleton, List.not_mem_nil, List.dropLast_cons_cons, List.mem_singleton] at hs
  all_goals subst hs; simp [OutStep.err, bodyErr]

end Cdtb
