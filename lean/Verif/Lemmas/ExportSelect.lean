import Verif.Spec.ExportSelect
import Verif.Lemmas.WadCmd
import Verif.Props.C54
/-!
# Conversions and selection of exported files
-/
namespace Cdtb
set_option autoImplicit false
open Py Spec

/-! ## Patterns -/

theorem all_ne_nl {s : Str} : s.all (· ≠ '\n') = true ↔ '\n' ∉ s := by
  rw [List.all_eq_true]
  constructor
  · intro h hm
    exact absurd rfl (of_decide_eq_true (h _ hm))
  · intro h x hx
    exact decide_eq_true fun e => h (e ▸ hx)

theorem searchAfter_iff {pre s : Str} {rest : Str → Bool} : searchAfter pre rest s = true ↔ ∃ a b, s = a ++ pre ++ b ∧ rest b = true := by
  induction s with
  | nil =>
    simp only [searchAfter, Bool.and_eq_true, List.isEmpty_iff]
    constructor
    · rintro ⟨rfl, h⟩; exact ⟨[], [], rfl, h⟩
    · rintro ⟨a, b, h, hb⟩
      obtain ⟨h1, rfl⟩ := List.append_eq_nil_iff.1 h.symm
      exact ⟨(List.append_eq_nil_iff.1 h1).2, hb⟩
  | cons c s ih =>
    simp only [searchAfter, Bool.or_eq_true, Bool.and_eq_true, ih]
    constructor
    · rintro (⟨h1, h2⟩ | ⟨a, b, rfl, hb⟩)
      · obtain ⟨t, ht⟩ := startsWith_iff.1 h1
        rw [ht, List.drop_left] at h2
        exact ⟨[], t, by rw [ht]; rfl, h2⟩
      · exact ⟨c :: a, b, rfl, hb⟩
    · rintro ⟨a, b, h, hb⟩
      cases a with
      | nil =>
        left
        rw [h, List.nil_append, List.drop_left]
        exact ⟨startsWith_iff.2 ⟨b, rfl⟩, hb⟩
      | cons x a =>
        right
        simp only [List.cons_append, List.cons.injEq] at h
        exact ⟨a, b, h.2, hb⟩

theorem anyThen_iff {suffix s : Str} (hs : suffix.getLast? ≠ none ∧ suffix.getLast? ≠ some '\n') :
    anyThen suffix s = true ↔ ∃ mid post, s = mid ++ suffix ++ post ∧ '\n' ∉ mid ∧ Eol post := by
  have key : ∀ t : Str, (endsWith t suffix && (t.take (t.length - suffix.length)).all (· ≠ '\n')) = true ↔ ∃ mid, t = mid ++ suffix ∧ '\n' ∉ mid := by
    intro t
    rw [Bool.and_eq_true, endsWith_iff]
    constructor
    · rintro ⟨⟨m, rfl⟩, h⟩
      refine ⟨m, rfl, ?_⟩
      rw [List.length_append, Nat.add_sub_cancel, List.take_left] at h
      exact all_ne_nl.1 h
    · rintro ⟨m, rfl, h⟩
      refine ⟨⟨m, rfl⟩, ?_⟩
      rw [List.length_append, Nat.add_sub_cancel, List.take_left]
      exact all_ne_nl.2 h
  unfold anyThen
  simp only
  rw [key]
  unfold chopNl
  split
  · rename_i h
    obtain ⟨t, rfl⟩ := endsWith_iff.1 h
    rw [List.dropLast_concat]
    constructor
    · rintro ⟨m, rfl, hm⟩; exact ⟨m, ['\n'], rfl, hm, Or.inr rfl⟩
    · rintro ⟨m, post, h, hm, rfl | rfl⟩
      · exfalso
        rw [List.append_nil] at h
        have := congrArg List.getLast? h
        rw [List.getLast?_concat, List.getLast?_append] at this
        cases hl : suffix.getLast? with
        | none => exact hs.1 hl
        | some c =>
          rw [hl] at this
          exact hs.2 (by rw [hl]; exact this.symm)
      · exact ⟨m, List.append_cancel_right h, hm⟩
  · rename_i h
    constructor
    · rintro ⟨m, rfl, hm⟩; exact ⟨m, [], by simp, hm, Or.inl rfl⟩
    · rintro ⟨m, post, rfl, hm, rfl | rfl⟩
      · exact ⟨m, by simp, hm⟩
      · exact absurd (endsWith_iff.2 ⟨_, rfl⟩) h

theorem fileUnder_iff {dir suffix path : Str} (hs : suffix.getLast? ≠ none ∧ suffix.getLast? ≠ some '\n') :
    searchAfter dir (anyThen suffix) path = true ↔ FileUnder dir suffix path := by
  rw [searchAfter_iff]
  constructor
  · rintro ⟨a, b, rfl, h⟩
    obtain ⟨mid, post, rfl, hm, hp⟩ := (anyThen_iff hs).1 h
    exact ⟨a, mid, post, by simp, hm, hp⟩
  · rintro ⟨a, mid, post, rfl, hm, hp⟩
    exact ⟨a, mid ++ suffix ++ post, by simp, (anyThen_iff hs).2 ⟨mid, post, rfl, hm, hp⟩⟩

theorem isAtlas_iff {path : Str} : isAtlas path = true ↔ AtlasPath path := by
  unfold isAtlas AtlasPath
  rw [Bool.or_eq_true, fileUnder_iff (by decide +kernel), fileUnder_iff (by decide +kernel)]

theorem isGameBin_iff {path : Str} : isGameBin path = true ↔ FileUnder "game/".toList ".bin".toList path :=
  fileUnder_iff (by decide +kernel)

theorem optionalDirs_iff {pre s : Str} {rest : Str → Bool} :
    optionalDirs pre rest s = true ↔ ∃ dirs b, s = dirs ++ pre ++ b ∧ (dirs = [] ∨ ∃ d, dirs = d ++ ['/'] ∧ '\n' ∉ d) ∧ rest b = true := by
  unfold optionalDirs
  rw [Bool.or_eq_true, Bool.and_eq_true, searchAfter_iff]
  constructor
  · rintro (⟨h1, h2⟩ | ⟨a, b, rfl, h⟩)
    · obtain ⟨t, rfl⟩ := startsWith_iff.1 h1
      rw [List.drop_left] at h2
      exact ⟨[], t, rfl, Or.inl rfl, h2⟩
    · rw [Bool.and_eq_true] at h
      refine ⟨a ++ ['/'], b, by simp, Or.inr ⟨a, rfl, ?_⟩, h.2⟩
      have hl : (a ++ '/' :: pre ++ b).length - b.length - pre.length - 1 = a.length := by simp; omega
      rw [hl, List.append_assoc, List.take_left] at h
      exact all_ne_nl.1 h.1
  · rintro ⟨dirs, b, rfl, rfl | ⟨d, rfl, hd⟩, h⟩
    · left
      rw [List.nil_append, List.drop_left]
      exact ⟨startsWith_iff.2 ⟨b, rfl⟩, h⟩
    · right
      refine ⟨d, b, by simp, ?_⟩
      have hl : (d ++ ['/'] ++ pre ++ b).length - b.length - pre.length - 1 = d.length := by simp; omega
      rw [Bool.and_eq_true, hl, List.append_assoc, List.append_assoc, List.take_left]
      exact ⟨all_ne_nl.2 hd, h⟩

theorem isMenuText_iff {path : Str} : isMenuText path = true ↔ MenuPath path := by
  unfold isMenuText MenuPath
  rw [searchAfter_iff]
  have h1 : (".txt".toList).getLast? ≠ none ∧ (".txt".toList).getLast? ≠ some '\n' := by decide +kernel
  have h2 : (".stringtable".toList).getLast? ≠ none ∧ (".stringtable".toList).getLast? ≠ some '\n' := by decide +kernel
  generalize "game/".toList = game
  generalize "data/menu/".toList = menu
  generalize ".txt".toList = x at *
  generalize ".stringtable".toList = y at *
  constructor
  · rintro ⟨a, b, rfl, h⟩
    obtain ⟨dirs, c, rfl, hd, h⟩ := optionalDirs_iff.1 h
    rw [Bool.or_eq_true] at h
    rcases h with h | h
    · obtain ⟨mid, post, rfl, hm, hp⟩ := (anyThen_iff h1).1 h
      exact ⟨a, dirs, mid, x, post, by simp, hd, hm, Or.inl rfl, hp⟩
    · obtain ⟨mid, post, rfl, hm, hp⟩ := (anyThen_iff h2).1 h
      exact ⟨a, dirs, mid, y, post, by simp, hd, hm, Or.inr rfl, hp⟩
  · rintro ⟨pre, dirs, mid, ext, post, rfl, hd, hm, he, hp⟩
    refine ⟨pre, dirs ++ menu ++ (mid ++ ext ++ post), by simp, optionalDirs_iff.2 ⟨dirs, _, rfl, hd, ?_⟩⟩
    rw [Bool.or_eq_true]
    rcases he with rfl | rfl
    · exact Or.inl ((anyThen_iff h1).2 ⟨mid, post, rfl, hm, hp⟩)
    · exact Or.inr ((anyThen_iff h2).2 ⟨mid, post, rfl, hm, hp⟩)

/-! ## Converters -/

/-- Ends of the paths of each converter -/
def endings : Converter → List Str
  | .image => [".dds".toList, ".tga".toList]
  | .tex => [".tex".toList]
  | .atlas => [".cdtb".toList, ".cdtb\n".toList, "/atlas_info.bin".toList, "/atlas_info.bin\n".toList]
  | .bin => [".bin".toList, ".bin\n".toList]
  | .skn => [".skn".toList]
  | .rst => [".txt".toList, ".txt\n".toList, ".stringtable".toList, ".stringtable\n".toList]
  | .championSkin => [".info".toList]
  | .copy => []

theorem eol_ends {s suffix post path : Str} (h : path = s ++ suffix ++ post) (hp : Eol post) : suffix <:+ path ∨ suffix ++ ['\n'] <:+ path := by
  rcases hp with rfl | rfl
  · exact Or.inl ⟨s, by rw [h]; simp⟩
  · exact Or.inr ⟨s, by rw [h]; simp⟩

theorem fileUnder_ends {dir suffix path : Str} (h : FileUnder dir suffix path) : suffix <:+ path ∨ suffix ++ ['\n'] <:+ path := by
  obtain ⟨pre, mid, post, rfl, -, hp⟩ := h
  exact eol_ends (s := pre ++ dir ++ mid) (by simp) hp

theorem isHandled_ends {c : Converter} {path : Str} (hc : c ≠ .copy) (h : c.isHandled path = true) : ∃ s ∈ endings c, s <:+ path := by
  cases c with
  | copy => exact absurd rfl hc
  | image =>
    simp only [Converter.isHandled, List.contains_iff_mem] at h
    refine ⟨(splitext path).2, h, ⟨(splitext path).1, splitext_append path⟩⟩
  | tex =>
    obtain ⟨t, rfl⟩ := endsWith_iff.1 h
    exact ⟨_, by simp [endings], ⟨t, rfl⟩⟩
  | atlas =>
    rcases isAtlas_iff.1 h with h | h <;> rcases fileUnder_ends h with h | h
    · exact ⟨_, List.mem_cons_self .., h⟩
    · exact ⟨_, List.mem_cons_of_mem _ (List.mem_cons_self ..), h⟩
    · exact ⟨_, List.mem_cons_of_mem _ (List.mem_cons_of_mem _ (List.mem_cons_self ..)), h⟩
    · exact ⟨_, List.mem_cons_of_mem _ (List.mem_cons_of_mem _ (List.mem_cons_of_mem _ (List.mem_cons_self ..))), h⟩
  | bin =>
    rcases fileUnder_ends (isGameBin_iff.1 h) with h | h
    · exact ⟨_, List.mem_cons_self .., h⟩
    · exact ⟨_, List.mem_cons_of_mem _ (List.mem_cons_self ..), h⟩
  | skn =>
    obtain ⟨t, rfl⟩ := endsWith_iff.1 h
    exact ⟨_, by simp [endings], ⟨t, rfl⟩⟩
  | rst =>
    obtain ⟨pre, dirs, mid, ext, post, rfl, -, -, rfl | rfl, hp⟩ := isMenuText_iff.1 h <;> rcases eol_ends rfl hp with h | h
    · exact ⟨_, List.mem_cons_self .., h⟩
    · exact ⟨_, List.mem_cons_of_mem _ (List.mem_cons_self ..), h⟩
    · exact ⟨_, List.mem_cons_of_mem _ (List.mem_cons_of_mem _ (List.mem_cons_self ..)), h⟩
    · exact ⟨_, List.mem_cons_of_mem _ (List.mem_cons_of_mem _ (List.mem_cons_of_mem _ (List.mem_cons_self ..))), h⟩
  | championSkin =>
    simp only [Converter.isHandled, decide_eq_true_eq] at h
    exact ⟨_, List.mem_cons_self .., ⟨"game/global/champions/championskins".toList, by rw [h]; decide +kernel⟩⟩

theorem endings_apart (c c' : Converter) (hne : c ≠ c') (hab : ¬ (c = .atlas ∧ c' = .bin)) (hba : ¬ (c = .bin ∧ c' = .atlas)) :
    ∀ s ∈ endings c, ∀ s' ∈ endings c', ¬ s <:+ s' ∧ ¬ s' <:+ s := by
  cases c <;> cases c' <;> first
    | exact absurd rfl hne
    | exact absurd (And.intro (Eq.refl Converter.atlas) (Eq.refl Converter.bin)) hab
    | exact absurd (And.intro (Eq.refl Converter.bin) (Eq.refl Converter.atlas)) hba
    | decide +kernel

/-- Converters handle different files, except the ones of atlases and of bin files. -/
theorem isHandled_exclusive {c c' : Converter} {path : Str} (hc : c ≠ .copy) (hc' : c' ≠ .copy) (hne : c ≠ c')
    (hab : ¬ (c = .atlas ∧ c' = .bin)) (hba : ¬ (c = .bin ∧ c' = .atlas)) (h : c.isHandled path = true) : c'.isHandled path = false := by
  by_contra h'
  rw [Bool.not_eq_false] at h'
  obtain ⟨s, hs, hp⟩ := isHandled_ends hc h
  obtain ⟨s', hs', hp'⟩ := isHandled_ends hc' h'
  have key : ∀ s ∈ endings c, ∀ s' ∈ endings c', ¬ s <:+ s' ∧ ¬ s' <:+ s := by
    clear h h' hp hp' hs hs'
    exact endings_apart c c' hne hab hba
  rcases List.suffix_or_suffix_of_suffix hp hp' with h | h
  · exact (key s hs s' hs').1 h
  · exact (key s hs s' hs').2 h

theorem isHandled_iff {c : Converter} {path : Str} (hc : c ≠ .copy) :
    (c.isHandled path = true ∧ ¬ (c = .bin ∧ isAtlas path = true)) ↔ Handles path c := by
  cases c with
  | copy => exact absurd rfl hc
  | image =>
    simp only [Converter.isHandled, Handles, hasExt_iff, List.contains_iff_mem]
    simp
  | tex => simp [Converter.isHandled, Handles, endsWith_iff]
  | atlas => simp [Converter.isHandled, Handles, isAtlas_iff]
  | bin => simp [Converter.isHandled, Handles, isAtlas_iff, isGameBin_iff]
  | skn => simp [Converter.isHandled, Handles, endsWith_iff]
  | rst => simp [Converter.isHandled, Handles, isMenuText_iff]
  | championSkin =>
    simp only [Converter.isHandled, Handles, decide_eq_true_eq, reduceCtorEq, false_and, not_false_eq_true, and_true]

theorem getConverter_handles {c : Converter} {path : Str} (h : Handles path c) : getConverter patchConverters path = c := by
  have hc : c ≠ .copy := by rintro rfl; exact h
  obtain ⟨h1, h2⟩ := (isHandled_iff hc).2 h
  have hx : ∀ c', c' ≠ .copy → c ≠ c' → ¬ (c = .atlas ∧ c' = .bin) → ¬ (c = .bin ∧ c' = .atlas) → c'.isHandled path = false :=
    fun c' a b d e => isHandled_exclusive hc a b d e h1
  unfold getConverter patchConverters
  cases c with
  | copy => exact absurd rfl hc
  | image => simp only [List.find?_cons, h1, Option.getD_some]
  | tex =>
    have a1 := hx .image (by decide) (by decide) (by decide) (by decide)
    simp only [List.find?_cons, h1, a1, Option.getD_some]
  | atlas =>
    have a1 := hx .image (by decide) (by decide) (by decide) (by decide)
    have a2 := hx .tex (by decide) (by decide) (by decide) (by decide)
    simp only [List.find?_cons, h1, a1, a2, Option.getD_some]
  | bin =>
    have a1 := hx .image (by decide) (by decide) (by decide) (by decide)
    have a2 := hx .tex (by decide) (by decide) (by decide) (by decide)
    have a3 : Converter.isHandled .atlas path = false := Bool.eq_false_iff.2 fun h => h2 ⟨rfl, h⟩
    simp only [List.find?_cons, h1, a1, a2, a3, Option.getD_some]
  | skn =>
    have a1 := hx .image (by decide) (by decide) (by decide) (by decide)
    have a2 := hx .tex (by decide) (by decide) (by decide) (by decide)
    have a3 := hx .atlas (by decide) (by decide) (by decide) (by decide)
    have a4 := hx .bin (by decide) (by decide) (by decide) (by decide)
    simp only [List.find?_cons, h1, a1, a2, a3, a4, Option.getD_some]
  | rst =>
    have a1 := hx .image (by decide) (by decide) (by decide) (by decide)
    have a2 := hx .tex (by decide) (by decide) (by decide) (by decide)
    have a3 := hx .atlas (by decide) (by decide) (by decide) (by decide)
    have a4 := hx .bin (by decide) (by decide) (by decide) (by decide)
    have a5 := hx .skn (by decide) (by decide) (by decide) (by decide)
    simp only [List.find?_cons, h1, a1, a2, a3, a4, a5, Option.getD_some]
  | championSkin =>
    have a1 := hx .image (by decide) (by decide) (by decide) (by decide)
    have a2 := hx .tex (by decide) (by decide) (by decide) (by decide)
    have a3 := hx .atlas (by decide) (by decide) (by decide) (by decide)
    have a4 := hx .bin (by decide) (by decide) (by decide) (by decide)
    have a5 := hx .skn (by decide) (by decide) (by decide) (by decide)
    have a6 := hx .rst (by decide) (by decide) (by decide) (by decide)
    simp only [List.find?_cons, h1, a1, a2, a3, a4, a5, a6, Option.getD_some]

theorem getConverter_copy {path : Str} (h : ∀ c, ¬ Handles path c) : getConverter patchConverters path = .copy := by
  have hx : ∀ c : Converter, c ≠ .copy → c ≠ .bin → c.isHandled path = false := by
    intro c hc hb
    by_contra h1
    rw [Bool.not_eq_false] at h1
    exact h c ((isHandled_iff hc).1 ⟨h1, fun h => hb h.1⟩)
  have hb : Converter.isHandled .bin path = false := by
    by_contra h1
    rw [Bool.not_eq_false] at h1
    refine h .bin ((isHandled_iff (by simp)).1 ⟨h1, fun ⟨_, h2⟩ => ?_⟩)
    exact Bool.eq_false_iff.1 (hx .atlas (by decide) (by decide)) h2
  have a1 := hx .image (by decide) (by decide)
  have a2 := hx .tex (by decide) (by decide)
  have a3 := hx .atlas (by decide) (by decide)
  have a5 := hx .skn (by decide) (by decide)
  have a6 := hx .rst (by decide) (by decide)
  have a7 := hx .championSkin (by decide) (by decide)
  unfold getConverter patchConverters
  simp only [List.find?_cons, List.find?_nil, hb, a1, a2, a3, a5, a6, a7, Option.getD_none]

theorem handles_unique {path : Str} {c c' : Converter} (h : Handles path c) (h' : Handles path c') : c = c' := by
  rw [← getConverter_handles h, getConverter_handles h']

theorem getConverter_iff {path : Str} {c : Converter} : getConverter patchConverters path = c ↔ HandledBy path c := by
  constructor
  · rintro rfl
    by_cases h : ∃ c, Handles path c
    · obtain ⟨c, h⟩ := h
      rw [getConverter_handles h]
      exact Or.inl h
    · have h' : ∀ c, ¬ Handles path c := fun c hc => h ⟨c, hc⟩
      rw [getConverter_copy h']
      exact Or.inr ⟨rfl, h'⟩
  · rintro (h | ⟨rfl, h⟩)
    · exact getConverter_handles h
    · exact getConverter_copy h

/-! ## Names of converted files -/

theorem root_iff {path root : Str} : Root path root ↔ root = (splitext path).1 := by
  constructor
  · rintro (⟨e, he, h⟩ | ⟨h, rfl⟩)
    · have := hasExt_root he
      rw [this] at h
      exact (List.append_cancel_right h).symm
    · exact (not_hasExt_root h).symm
  · rintro rfl
    by_cases h : ∃ e, HasExt path e
    · obtain ⟨e, he⟩ := h
      exact Or.inl ⟨e, he, hasExt_root he⟩
    · have h' : ∀ e, ¬ HasExt path e := fun e he => h ⟨e, he⟩
      exact Or.inr ⟨h', not_hasExt_root h'⟩

theorem exportedAs_iff {path q : Str} : ExportedAs path q ↔ q ∈ convertedPaths patchConverters path := by
  unfold convertedPaths
  constructor
  · intro h
    cases h with
    | image h hr =>
      rw [root_iff] at hr
      subst hr
      rcases h with h | h <;> rw [getConverter_iff.2 h] <;> exact List.mem_singleton.2 rfl
    | json h =>
      rcases h with h | h | h | h <;> rw [getConverter_iff.2 h]
      · exact List.mem_singleton.2 rfl
      · exact List.mem_cons_of_mem _ (List.mem_singleton.2 rfl)
      · exact List.mem_cons_of_mem _ (List.mem_singleton.2 rfl)
      · exact List.mem_singleton.2 rfl
    | meshes h hr =>
      rw [root_iff] at hr
      subst hr
      rw [getConverter_iff.2 h]
      exact List.mem_cons_of_mem _ (List.mem_singleton.2 rfl)
    | same h =>
      rcases h with h | h | h | h <;> rw [getConverter_iff.2 h] <;> exact List.mem_cons_self ..
  · have hr : Root path (splitext path).1 := root_iff.2 rfl
    cases hc : getConverter patchConverters path with
    | copy =>
      intro h
      rw [List.mem_singleton.1 h]
      exact .same (Or.inl (getConverter_iff.1 hc))
    | image =>
      intro h
      rw [List.mem_singleton.1 h]
      exact .image (Or.inl (getConverter_iff.1 hc)) hr
    | tex =>
      intro h
      rw [List.mem_singleton.1 h]
      exact .image (Or.inr (getConverter_iff.1 hc)) hr
    | atlas =>
      intro h
      rw [List.mem_singleton.1 h]
      exact .json (Or.inl (getConverter_iff.1 hc))
    | bin =>
      intro h
      rcases List.mem_cons.1 h with rfl | h
      · exact .same (Or.inr (Or.inl (getConverter_iff.1 hc)))
      · rw [List.mem_singleton.1 h]
        exact .json (Or.inr (Or.inl (getConverter_iff.1 hc)))
    | skn =>
      intro h
      rcases List.mem_cons.1 h with rfl | h
      · exact .same (Or.inr (Or.inr (Or.inl (getConverter_iff.1 hc))))
      · rw [List.mem_singleton.1 h]
        exact .meshes (getConverter_iff.1 hc) hr
    | rst =>
      intro h
      rcases List.mem_cons.1 h with rfl | h
      · exact .same (Or.inr (Or.inr (Or.inr (getConverter_iff.1 hc))))
      · rw [List.mem_singleton.1 h]
        exact .json (Or.inr (Or.inr (Or.inl (getConverter_iff.1 hc))))
    | championSkin =>
      intro h
      rw [List.mem_singleton.1 h]
      exact .json (Or.inr (Or.inr (Or.inr (getConverter_iff.1 hc))))

/-! ## Game files -/

/-- An extension can be added to a name that does not end with dots. -/
theorem splitext_add {p e : Str} {c : Char} (h1 : '/' ∉ e) (h2 : '.' ∉ e) (hc : p.getLast? = some c) (hs : c ≠ '/') (hd : c ≠ '.') :
    splitext (p ++ '.' :: e) = (p, '.' :: e) := by
  obtain ⟨dir, base, rfl, hdir, hb⟩ := exists_dirPrefix p
  refine splitext_ext hdir hb h1 h2 ⟨c, ?_, hd⟩
  cases hbl : base.getLast? with
  | none =>
    rw [List.getLast?_eq_none_iff] at hbl
    subst hbl
    rw [List.append_nil] at hc
    rcases hdir with rfl | ⟨d, rfl⟩
    · simp at hc
    · rw [List.getLast?_concat, Option.some.injEq] at hc
      exact absurd hc.symm hs
  | some x =>
    rw [List.getLast?_append, hbl] at hc
    have : x = c := by simpa using hc
    exact this ▸ List.mem_of_getLast? hbl

/-- An extension can be changed. -/
theorem splitext_root_add {p e x : Str} (h1 : '/' ∉ e) (h2 : '.' ∉ e) (h : HasExt p x) :
    splitext ((splitext p).1 ++ '.' :: e) = ((splitext p).1, '.' :: e) := by
  rw [hasExt_iff] at h
  rcases splitext_cases p with h' | ⟨dir, stem, ext, -, hd, hs, -, -, hne, h'⟩
  · rw [h'] at h; exact nomatch h
  · rw [h']
    exact splitext_ext hd hs h1 h2 hne

theorem getLast_of_suffix {s p : Str} {c : Char} (h : s <:+ p) (hs : s.getLast? = some c) : p.getLast? = some c := by
  obtain ⟨t, rfl⟩ := h
  rw [List.getLast?_append, hs]
  rfl

/-- Converted paths do not end with dots or slashes. -/
theorem endings_last (c : Converter) : ∀ s ∈ endings c, ∃ x, s.getLast? = some x ∧ x ≠ '/' ∧ x ≠ '.' := by
  cases c <;> simp only [endings, List.forall_mem_cons, List.not_mem_nil, false_imp_iff, implies_true, and_true]
  · exact ⟨⟨'s', by decide +kernel⟩, ⟨'a', by decide +kernel⟩⟩
  · exact ⟨'x', by decide +kernel⟩
  · exact ⟨⟨'b', by decide +kernel⟩, ⟨'\n', by decide +kernel⟩, ⟨'n', by decide +kernel⟩, ⟨'\n', by decide +kernel⟩⟩
  · exact ⟨⟨'n', by decide +kernel⟩, ⟨'\n', by decide +kernel⟩⟩
  · exact ⟨'n', by decide +kernel⟩
  · exact ⟨⟨'t', by decide +kernel⟩, ⟨'\n', by decide +kernel⟩, ⟨'e', by decide +kernel⟩, ⟨'\n', by decide +kernel⟩⟩
  · exact ⟨'o', by decide +kernel⟩

theorem handles_last {path : Str} {c : Converter} (h : Handles path c) : ∃ x, path.getLast? = some x ∧ x ≠ '/' ∧ x ≠ '.' := by
  have hc : c ≠ .copy := by rintro rfl; exact h
  obtain ⟨s, hs, hp⟩ := isHandled_ends hc ((isHandled_iff hc).2 h).1
  obtain ⟨x, hx, h1⟩ := endings_last c s hs
  exact ⟨x, getLast_of_suffix hp hx, h1⟩

theorem handledBy_handles {path : Str} {c : Converter} (h : HandledBy path c) (hc : c ≠ .copy) : Handles path c := by
  rcases h with h | ⟨rfl, -⟩
  · exact h
  · exact absurd rfl hc

theorem json_ext {path : Str} {c : Converter} (h : HandledBy path c) (hc : c ≠ .copy) : (splitext (path ++ ".json".toList)).2 = ".json".toList := by
  obtain ⟨x, hx, h1, h2⟩ := handles_last (handledBy_handles h hc)
  have : ".json".toList = '.' :: "json".toList := rfl
  rw [this, splitext_add (by decide +kernel) (by decide +kernel) hx h1 h2]

theorem png_ext {path : Str} {c : Converter} (h : HandledBy path c) (hc : c ≠ .copy) :
    (splitext ((splitext path).1 ++ ".png".toList)).2 = ".png".toList := by
  have : ".png".toList = '.' :: "png".toList := rfl
  rw [this]
  by_cases he : ∃ e, HasExt path e
  · obtain ⟨e, he⟩ := he
    rw [splitext_root_add (by decide +kernel) (by decide +kernel) he]
  · rw [not_hasExt_root fun e h => he ⟨e, h⟩]
    obtain ⟨x, hx, h1, h2⟩ := handles_last (handledBy_handles h hc)
    rw [splitext_add (by decide +kernel) (by decide +kernel) hx h1 h2]

theorem keptExt_png : [".png".toList, ".skn".toList, ".txt".toList, ".stringtable".toList, ".json".toList, ".ttf".toList, ".otf".toList].contains
    ".png".toList = true := by decide +kernel
theorem keptExt_json : [".png".toList, ".skn".toList, ".txt".toList, ".stringtable".toList, ".json".toList, ".ttf".toList, ".otf".toList].contains
    ".json".toList = true := by decide +kernel
theorem keptExt_skn : [".png".toList, ".skn".toList, ".txt".toList, ".stringtable".toList, ".json".toList, ".ttf".toList, ".otf".toList].contains
    ".skn".toList = true := by decide +kernel

theorem filterPathGo_true (l : List Str) : (∀ p ∈ l, (splitext p).2 ≠ ".bin".toList) → filterPathGo true l = true := by
  induction l with
  | nil => intro _; rfl
  | cons p l ih =>
    intro h
    unfold filterPathGo
    simp only
    rw [if_neg (h p (by simp)), Bool.true_or]
    exact ih fun q hq => h q (by simp [hq])

theorem filterPathGo_kept {b : Bool} {p : Str} {l : List Str} (h1 : (splitext p).2 ≠ ".bin".toList)
    (h2 : [".png".toList, ".skn".toList, ".txt".toList, ".stringtable".toList, ".json".toList, ".ttf".toList, ".otf".toList].contains (splitext p).2 = true) :
    filterPathGo b (p :: l) = filterPathGo true l := by
  conv_lhs => unfold filterPathGo
  simp only
  rw [if_neg h1, h2, Bool.or_true]

theorem filterPathGo_bin {b : Bool} {p : Str} {l : List Str} (h1 : (splitext p).2 = ".bin".toList) :
    filterPathGo b (p :: l) = !containsSub p "_skins_".toList := by
  conv_lhs => unfold filterPathGo
  simp only
  rw [if_pos h1]

theorem filterPathGo_next {b : Bool} {p : Str} {l : List Str} (h1 : (splitext p).2 ≠ ".bin".toList) :
    ∃ b', filterPathGo b (p :: l) = filterPathGo b' l := by
  conv => enter [1, b']; lhs; unfold filterPathGo
  simp only
  rw [if_neg h1]
  exact ⟨_, rfl⟩

theorem skins_bin {p : Str} (h : (splitext p).2 = ".bin".toList) : (!containsSub p "_skins_".toList) = true ↔ ¬ SkinsBin p := by
  unfold SkinsBin
  rw [hasExt_iff, Bool.not_eq_true', Bool.eq_false_iff, Ne, containsSub_infix]
  exact not_congr ⟨fun h' => ⟨h, h'⟩, And.right⟩

theorem skins_not {p : Str} (h : (splitext p).2 ≠ ".bin".toList) : ¬ SkinsBin p := fun h' => h (hasExt_iff.1 h'.1)

theorem json_ne_bin : ".json".toList ≠ ".bin".toList := by decide +kernel
theorem png_ne_bin : ".png".toList ≠ ".bin".toList := by decide +kernel
theorem skn_ne_bin : ".skn".toList ≠ ".bin".toList := by decide +kernel

theorem ext_suffix (p : Str) : (splitext p).2 <:+ p := ⟨(splitext p).1, splitext_append p⟩

theorem filterPath_iff {path : Str} : filterPath patchConverters path = true ↔ KeptInGame path := by
  unfold filterPath convertedPaths
  have huniq : ∀ {c c'}, HandledBy path c → HandledBy path c' → c = c' := fun h h' => by
    rw [← getConverter_iff.2 h, getConverter_iff.2 h']
  cases hc : getConverter patchConverters path with
  | image =>
    have h := getConverter_iff.1 hc
    refine iff_of_true ?_ (.image (Or.inl h))
    have he := png_ext h (by decide)
    exact filterPathGo_kept (by rw [he]; exact png_ne_bin) (by rw [he]; exact keptExt_png)
  | tex =>
    have h := getConverter_iff.1 hc
    refine iff_of_true ?_ (.image (Or.inr h))
    have he := png_ext h (by decide)
    exact filterPathGo_kept (by rw [he]; exact png_ne_bin) (by rw [he]; exact keptExt_png)
  | atlas =>
    have h := getConverter_iff.1 hc
    refine iff_of_true ?_ (.json (Or.inl h))
    have he := json_ext h (by decide)
    exact filterPathGo_kept (by rw [he]; exact json_ne_bin) (by rw [he]; exact keptExt_json)
  | championSkin =>
    have h := getConverter_iff.1 hc
    refine iff_of_true ?_ (.json (Or.inr (Or.inr h)))
    have he := json_ext h (by decide)
    exact filterPathGo_kept (by rw [he]; exact json_ne_bin) (by rw [he]; exact keptExt_json)
  | rst =>
    have h := getConverter_iff.1 hc
    refine iff_of_true ?_ (.json (Or.inr (Or.inl h)))
    have he := json_ext h (by decide)
    have hb : (splitext path).2 ≠ ".bin".toList := by
      intro hb
      obtain ⟨s, hs, hp⟩ := isHandled_ends (c := .rst) (by decide) ((isHandled_iff (by decide)).2 (handledBy_handles h (by decide))).1
      have key := endings_apart .rst .bin (by decide) (by decide) (by decide) s hs ".bin".toList (List.mem_cons_self ..)
      rcases List.suffix_or_suffix_of_suffix hp (hb ▸ ext_suffix path) with h | h
      · exact key.1 h
      · exact key.2 h
    obtain ⟨b', hb'⟩ := filterPathGo_next (b := false) (l := [path ++ ".json".toList]) hb
    refine hb'.trans ?_
    exact filterPathGo_kept (by rw [he]; exact json_ne_bin) (by rw [he]; exact keptExt_json)
  | bin =>
    have h := getConverter_iff.1 hc
    have he := json_ext h (by decide)
    have hk : KeptInGame path ↔ ¬ SkinsBin path := by
      constructor
      · intro hk
        cases hk with
        | image h' => rcases h' with h' | h' <;> exact nomatch huniq h h'
        | json h' => rcases h' with h' | h' | h' <;> exact nomatch huniq h h'
        | bin _ h' => exact h'
        | skn h' => exact nomatch huniq h h'
        | same h' => exact nomatch huniq h h'
        | otherBin h' => exact nomatch huniq h h'
      · exact .bin h
    rw [hk]
    by_cases hb : (splitext path).2 = ".bin".toList
    · exact (by rw [← skins_bin hb]; exact iff_of_eq (congrArg (· = true) (filterPathGo_bin hb)))
    · refine iff_of_true ?_ (skins_not hb)
      obtain ⟨b', hb'⟩ := filterPathGo_next (b := false) (l := [path ++ ".json".toList]) hb
      refine hb'.trans ?_
      exact filterPathGo_kept (by rw [he]; exact json_ne_bin) (by rw [he]; exact keptExt_json)
  | skn =>
    have h := getConverter_iff.1 hc
    obtain ⟨r, hr⟩ : ∃ r, path = r ++ ".skn".toList := handledBy_handles h (by decide)
    have hk : KeptInGame path ↔ HasExt path "skn".toList ∧ ¬ SkinsBin r := by
      constructor
      · intro hk
        cases hk with
        | image h' => rcases h' with h' | h' <;> exact nomatch huniq h h'
        | json h' => rcases h' with h' | h' | h' <;> exact nomatch huniq h h'
        | bin h' => exact nomatch huniq h h'
        | skn _ h1 h2 h3 =>
          rw [hr] at h1
          exact ⟨h2, List.append_cancel_right h1 ▸ h3⟩
        | same h' => exact nomatch huniq h h'
        | otherBin h' => exact nomatch huniq h h'
      · exact fun h' => .skn h hr h'.1 h'.2
    rw [hk]
    by_cases he : HasExt path "skn".toList
    · have he' : (splitext path).2 = ".skn".toList := hasExt_iff.1 he
      have hroot : (splitext path).1 = r := by
        have := hasExt_root he
        conv_lhs at this => rw [hr]
        exact (List.append_cancel_right this).symm
      have h1 : filterPathGo false [path, (splitext path).1] = filterPathGo true [r] := by
        rw [filterPathGo_kept (by rw [he']; exact skn_ne_bin) (by rw [he']; exact keptExt_skn), hroot]
      refine (iff_of_eq (congrArg (· = true) h1)).trans ?_
      by_cases hb : (splitext r).2 = ".bin".toList
      · rw [filterPathGo_bin hb, skins_bin hb]
        exact ⟨fun h => ⟨he, h⟩, And.right⟩
      · exact iff_of_true (filterPathGo_true _ (by simpa using hb)) ⟨he, skins_not hb⟩
    · refine iff_of_false ?_ fun h' => he h'.1
      have hn : (splitext path).2 = [] := by
        rcases splitext_cases path with h' | ⟨dir, stem, ext, hp, hd, hs, hx, hdot, hne, h'⟩
        · rw [h']
        · exfalso
          apply he
          rw [hasExt_iff, h']
          have h1 : rsplit1 '.' path = some (dir ++ stem, ext) := rsplit1_eq_some.2 ⟨hp, hdot⟩
          have h2 : rsplit1 '.' path = some (r, "skn".toList) := rsplit1_eq_some.2 ⟨hr, by decide +kernel⟩
          rw [h1] at h2
          simp only [Option.some.injEq, Prod.mk.injEq] at h2
          rw [h2.2]
      have hroot : (splitext path).1 = path := not_hasExt_root (not_hasExt_iff.2 hn)
      have h0 : ∀ l, filterPathGo false (path :: l) = filterPathGo false l := by
        intro l
        conv_lhs => unfold filterPathGo
        simp only
        rw [hn, if_neg (by decide +kernel)]
        have : [".png".toList, ".skn".toList, ".txt".toList, ".stringtable".toList, ".json".toList, ".ttf".toList, ".otf".toList].contains [] = false := by
          decide +kernel
        rw [this]; rfl
      have h1 : filterPathGo false [path, (splitext path).1] = false := by rw [hroot, h0, h0]; rfl
      exact fun h => nomatch h1.symm.trans h
  | copy =>
    have h := getConverter_iff.1 hc
    have hk : KeptInGame path ↔ (∃ e, HasExt path e ∧ e ∈ ["png".toList, "txt".toList, "stringtable".toList, "json".toList, "ttf".toList, "otf".toList]) ∨
        (HasExt path "bin".toList ∧ ¬ SkinsBin path) := by
      constructor
      · intro hk
        cases hk with
        | image h' => rcases h' with h' | h' <;> exact nomatch huniq h h'
        | json h' => rcases h' with h' | h' | h' <;> exact nomatch huniq h h'
        | bin h' => exact nomatch huniq h h'
        | skn h' => exact nomatch huniq h h'
        | same _ h1 h2 => exact Or.inl ⟨_, h1, h2⟩
        | otherBin _ h1 h2 => exact Or.inr ⟨h1, h2⟩
      · rintro (⟨e, h1, h2⟩ | ⟨h1, h2⟩)
        · exact .same h h1 h2
        · exact .otherBin h h1 h2
    rw [hk]
    by_cases hb : (splitext path).2 = ".bin".toList
    · have h1 : filterPathGo false [path] = !containsSub path "_skins_".toList := filterPathGo_bin hb
      refine (iff_of_eq (congrArg (· = true) h1)).trans ((skins_bin hb).trans ?_)
      constructor
      · exact fun h => Or.inr ⟨hasExt_iff.2 hb, h⟩
      · rintro (⟨e, h1, h2⟩ | ⟨h1, h2⟩)
        · exfalso
          rw [hasExt_iff, hb] at h1
          have : e = "bin".toList := (List.cons.inj h1).2.symm
          subst this
          revert h2; decide +kernel
        · exact h2
    · have h1 : filterPathGo false [path] = [".png".toList, ".skn".toList, ".txt".toList, ".stringtable".toList, ".json".toList, ".ttf".toList,
          ".otf".toList].contains (splitext path).2 := by
        unfold filterPathGo
        simp only
        rw [if_neg hb, Bool.false_or]
        rfl
      refine (iff_of_eq (congrArg (· = true) h1)).trans ?_
      have hns : (splitext path).2 ≠ ".skn".toList := by
        intro hs
        rcases h with h | ⟨-, h⟩
        · exact h
        · exact h .skn ⟨(splitext path).1, by
            have := splitext_append path
            rw [hs] at this; exact this.symm⟩
      rw [List.contains_iff_mem]
      constructor
      · intro hm
        left
        simp only [List.mem_cons, List.not_mem_nil, or_false] at hm
        rcases hm with h | h | h | h | h | h | h
        · exact ⟨"png".toList, hasExt_iff.2 h, by decide +kernel⟩
        · exact absurd h hns
        · exact ⟨"txt".toList, hasExt_iff.2 h, by decide +kernel⟩
        · exact ⟨"stringtable".toList, hasExt_iff.2 h, by decide +kernel⟩
        · exact ⟨"json".toList, hasExt_iff.2 h, by decide +kernel⟩
        · exact ⟨"ttf".toList, hasExt_iff.2 h, by decide +kernel⟩
        · exact ⟨"otf".toList, hasExt_iff.2 h, by decide +kernel⟩
      · rintro (⟨e, h1, h2⟩ | ⟨h1, -⟩)
        · rw [hasExt_iff.1 h1]
          have key : ∀ e ∈ ["png".toList, "txt".toList, "stringtable".toList, "json".toList, "ttf".toList, "otf".toList], '.' :: e ∈
              [".png".toList, ".skn".toList, ".txt".toList, ".stringtable".toList, ".json".toList, ".ttf".toList, ".otf".toList] := by decide +kernel
          exact key e h2
        · exact absurd (hasExt_iff.1 h1) hb

end Cdtb
