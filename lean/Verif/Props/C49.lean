import Verif.Model.Tools
import Verif.Lemmas.Path
/-!
# C49  Asset path conversion lowercases and maps textures to PNG

`Py.lower` lowercases ASCII letters.
-/
namespace Cdtb
set_option autoImplicit false
open Py

/-- A texture path: a directory (empty or ending in `/`), a name that is not only dots, and a `.dds`
or `.tex` extension in any case. -/
structure IsTexture (path dir stem : Str) : Prop where
  eq : ∃ ext, path = dir ++ stem ++ '.' :: ext ∧ (lower ext = "dds".toList ∨ lower ext = "tex".toList)
  dir_ok : DirPrefix dir
  stem_ok : '/' ∉ stem
  visible : ∃ c ∈ stem, c ≠ '.'

theorem no_slash_of_lower {e : Str} (h : lower e = "dds".toList ∨ lower e = "tex".toList) : '/' ∉ e ∧ '.' ∉ e := by
  constructor
  · rw [← mem_lower_iff (by decide) (by decide)]; rcases h with h | h <;> rw [h] <;> decide
  · rw [← mem_lower_iff (by decide) (by decide)]; rcases h with h | h <;> rw [h] <;> decide

theorem lower_visible {s : Str} (h : ∃ c ∈ s, c ≠ '.') : ∃ c ∈ lower s, c ≠ '.' := by
  obtain ⟨c, h1, h2⟩ := h
  exact ⟨lowerChar c, List.mem_map.2 ⟨c, h1, rfl⟩, by rwa [ne_eq, lowerChar_eq_iff (by decide) (by decide)]⟩

/-- Textures become PNG, in the lowercased directory, with the lowercased name. -/
theorem C49_texture {path dir stem : Str} (h : IsTexture path dir stem) :
    convertCdragonPath path = lower dir ++ lower stem ++ ".png".toList := by
  obtain ⟨⟨ext, rfl, he⟩, hd, hs, hv⟩ := h
  obtain ⟨h1, h2⟩ := no_slash_of_lower he
  have hl : lower (dir ++ stem ++ '.' :: ext) = lower dir ++ lower stem ++ '.' :: lower ext := by
    rw [lower_append, lower_append, lower_cons]; rfl
  unfold convertCdragonPath
  rw [hl, splitext_ext (lower_dirPrefix hd) (by rwa [mem_lower_iff (by decide) (by decide)])
    (by rwa [mem_lower_iff (by decide) (by decide)]) (by rwa [mem_lower_iff (by decide) (by decide)]) (lower_visible hv)]
  rcases he with he | he <;> rw [he] <;> rfl

/-- Any other path is only lowercased: other extensions are kept, and `.dds` as a whole name is not
an extension. -/
theorem C49_other {path : Str} (h : ∀ dir stem, ¬IsTexture path dir stem) : convertCdragonPath path = lower path := by
  unfold convertCdragonPath
  rw [splitext_lower]
  rcases splitext_cases path with h1 | ⟨dir, stem, ext, rfl, hd, hs, he, hdot, hv, h2⟩
  · rw [h1]; simp [lower]
  · rw [h2]
    simp only
    rw [if_neg]
    · rw [← lower_append]
    intro hx
    refine h dir stem ⟨⟨ext, rfl, ?_⟩, hd, hs, hv⟩
    rw [lower_cons] at hx
    rcases hx with hx | hx
    · left; exact (List.cons.inj hx).2
    · right; exact (List.cons.inj hx).2

/-- The result is always lowercase. -/
theorem C49_lower (path : Str) : lower (convertCdragonPath path) = convertCdragonPath path := by
  by_cases h : ∃ dir stem, IsTexture path dir stem
  · obtain ⟨dir, stem, h⟩ := h
    rw [C49_texture h, lower_append, lower_append, lower_idem, lower_idem]; rfl
  · rw [C49_other (by simpa using h), lower_idem]

/-- Converting twice is converting once. -/
theorem C49_idempotent (path : Str) : convertCdragonPath (convertCdragonPath path) = convertCdragonPath path := by
  rw [C49_other, C49_lower]
  rintro dir stem ⟨⟨ext, heq, he⟩, hd, hs, hv⟩
  obtain ⟨h1, h2⟩ := no_slash_of_lower he
  have hsp := splitext_ext hd hs h1 h2 hv
  rw [← heq] at hsp
  by_cases h : ∃ dir stem, IsTexture path dir stem
  · obtain ⟨dir', stem', h⟩ := h
    have h3 := splitext_ext (dir := lower dir') (stem := lower stem') (ext := "png".toList) (lower_dirPrefix h.dir_ok)
      (by rw [mem_lower_iff (by decide) (by decide)]; exact h.stem_ok) (by decide) (by decide) (lower_visible h.visible)
    rw [C49_texture h] at hsp
    change splitext (lower dir' ++ lower stem' ++ '.' :: "png".toList) = _ at hsp
    rw [h3] at hsp
    have : ext = "png".toList := by
      have := congrArg Prod.snd hsp; simp only [List.cons.injEq, true_and] at this; exact this.symm
    rw [this] at he
    revert he; decide
  · have hn : ∀ dir stem, ¬IsTexture path dir stem := by simpa using h
    rw [C49_other hn, splitext_lower] at hsp
    have h3 := splitext_append path
    rcases splitext_cases path with h4 | ⟨dir', stem', ext', rfl, hd', hs', he', hdot', hv', h4⟩
    · rw [h4] at hsp
      have := congrArg Prod.snd hsp
      simp [lower] at this
    · rw [h4] at hsp
      have hx := congrArg Prod.snd hsp
      simp only [lower_cons, List.cons.injEq] at hx
      refine hn dir' stem' ⟨⟨ext', rfl, ?_⟩, hd', hs', hv'⟩
      rw [← lower_idem, hx.2]; exact he

/-- The directory part is the lowercased directory, and the name has no `/`. -/
theorem C49_directory {dir base : Str} (hd : DirPrefix dir) (hb : '/' ∉ base) :
    ∃ base', convertCdragonPath (dir ++ base) = lower dir ++ base' ∧ '/' ∉ base' := by
  by_cases h : ∃ dir' stem, IsTexture (dir ++ base) dir' stem
  · obtain ⟨dir', stem, h⟩ := h
    rw [C49_texture h]
    obtain ⟨⟨ext, heq, he⟩, hd', hs, hv⟩ := h
    obtain ⟨h1, h2⟩ := no_slash_of_lower he
    have : dir = dir' := by
      have e1 : rsplit1 '/' (dir ++ base) = rsplit1 '/' (dir' ++ (stem ++ '.' :: ext)) := by
        rw [heq, List.append_assoc]
      have hb' : '/' ∉ stem ++ '.' :: ext := by simp [hs, h1]
      rcases hd with rfl | ⟨d, rfl⟩ <;> rcases hd' with rfl | ⟨d', rfl⟩
      · rfl
      · rw [rsplit1_eq_none.2 (by simpa using hb),
          rsplit1_eq_some (a := d') (b := stem ++ '.' :: ext) |>.2 ⟨by simp, hb'⟩] at e1
        cases e1
      · rw [rsplit1_eq_some (a := d) (b := base) |>.2 ⟨by simp, hb⟩, rsplit1_eq_none.2 (by simpa using hb')] at e1
        cases e1
      · rw [rsplit1_eq_some (a := d) (b := base) |>.2 ⟨by simp, hb⟩,
          rsplit1_eq_some (a := d') (b := stem ++ '.' :: ext) |>.2 ⟨by simp, hb'⟩] at e1
        cases e1; rfl
    subst this
    refine ⟨lower stem ++ ".png".toList, by simp, ?_⟩
    simp only [List.mem_append, not_or]
    exact ⟨by rwa [mem_lower_iff (by decide) (by decide)], by decide⟩
  · rw [C49_other (by simpa using h), lower_append]
    exact ⟨lower base, rfl, by rwa [mem_lower_iff (by decide) (by decide)]⟩

/-- Non-vacuity -/
example : IsTexture "ASSETS/Foo.b.DDS".toList "ASSETS/".toList "Foo.b".toList :=
  ⟨⟨"DDS".toList, rfl, Or.inl rfl⟩, Or.inr ⟨"ASSETS".toList, rfl⟩, by decide, ⟨'F', by decide, by decide⟩⟩

example : convertCdragonPath "ASSETS/Foo.b.DDS".toList = "assets/foo.b.png".toList ∧
    convertCdragonPath "a.dds/.TEX".toList = "a.dds/.tex".toList ∧
    convertCdragonPath "A/B.Skn".toList = "a/b.skn".toList := by decide +kernel

end Cdtb
