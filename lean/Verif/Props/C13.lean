import Verif.Model.Wad
import Verif.Lemmas.Hex
import Verif.Lemmas.Path
import Mathlib.Data.List.TakeWhile
/-!
# C13 Sanitized paths
-/
namespace Cdtb
set_option autoImplicit false
open Py Spec

/-- The extension a sanitized path must end with: its own, or `.cdtb` and the guessed one. -/
def wantedExt (p : Str) (guessed : Option Str) : Str :=
  if (splitext p).2 ≠ [] then (splitext p).2
  else ".cdtb".toList ++ match guessed with
    | none => []
    | some [] => []
    | some e => '.' :: e

/-- The path with its extension. -/
def withExt (p : Str) (guessed : Option Str) : Str :=
  if (splitext p).2 ≠ [] then p else p ++ wantedExt p guessed

theorem sanitizePath_eq (w : WadEntry) (p : Str) (hp : w.path = some p) (hne : p ≠ []) :
    sanitizePath w =
      if 250 ≤ (basename (withExt p w.ext)).length then
        { w with path := some (pjoin (dirname (withExt p w.ext))
          (sliceTo (basename (withExt p w.ext)) (250 - 17 - ((wantedExt p w.ext).length : Int)) ++ ['.'] ++
            hexW 16 w.pathHash ++ wantedExt p w.ext)) }
      else { w with path := some (withExt p w.ext) } := by
  have hext : (".cdtb".toList ++ (if noExt w.ext then [] else '.' :: w.ext.getD [])) =
      ".cdtb".toList ++ match w.ext with
        | none => []
        | some [] => []
        | some e => '.' :: e := by
    rcases w.ext with _ | _ | ⟨c, cs⟩ <;> simp [noExt]
  unfold sanitizePath
  rw [hp]
  simp only
  rw [if_neg (by simpa [List.isEmpty_iff] using hne)]
  unfold withExt wantedExt dirname basename
  by_cases he : (splitext p).2 = []
  · simp only [he, List.isEmpty_nil, if_true, ne_eq, not_true_eq_false, if_false, hext]
  · have : (splitext p).2.isEmpty = false := by simpa [List.isEmpty_iff] using he
    simp only [this, ne_eq, he, not_false_eq_true, if_true, Bool.false_eq_true, if_false]

/-- Files without a path are left alone; only the path changes. -/
theorem C13_only_path (w : WadEntry) :
    ((w.path = none ∨ w.path = some []) → sanitizePath w = w) ∧
    (∃ p, sanitizePath w = { w with path := p }) := by
  constructor
  · rintro (h | h) <;> unfold sanitizePath <;> rw [h] <;> rfl
  · rcases hp : w.path with _ | p
    · exact ⟨none, by unfold sanitizePath; rw [hp]; cases w; simp_all⟩
    · by_cases hne : p = []
      · subst hne
        exact ⟨some [], by unfold sanitizePath; rw [hp]; cases w; simp_all⟩
      · rw [sanitizePath_eq w p hp hne]
        split <;> exact ⟨_, rfl⟩

theorem rstripChar_last {c : Char} {s : Str} (h : ∃ x ∈ s, x ≠ c) :
    ∃ t x, rstripChar c s = t ++ [x] ∧ x ≠ c := by
  unfold rstripChar
  have hne : s.reverse.dropWhile (· = c) ≠ [] := by
    intro h0
    obtain ⟨x, hx, hxc⟩ := h
    have h1 := List.takeWhile_append_dropWhile (p := fun y => decide (y = c)) (l := s.reverse)
    rw [h0, List.append_nil] at h1
    have h2 : x ∈ s.reverse.takeWhile (fun y => decide (y = c)) := h1.symm ▸ List.mem_reverse.2 hx
    exact hxc (by simpa using List.mem_takeWhile_imp h2)
  rcases hd : s.reverse.dropWhile (· = c) with _ | ⟨x, t⟩
  · exact absurd hd hne
  · refine ⟨t.reverse, x, by simp, ?_⟩
    have := List.head_dropWhile_not (p := fun y => decide (y = c)) (l := s.reverse) hne
    simp only [hd, List.head_cons] at this
    simpa using this

/-- Joining a directory given by `os.path.split` and a plain name, then splitting, gives both back. -/
theorem psplit_pjoin {dir name : Str} (hd : DirPrefix dir) (hn : '/' ∉ name) :
    psplit (pjoin (dirOf dir) name) = (dirOf dir, name) := by
  have hst : startsWith name ['/'] = false := by
    unfold startsWith
    rcases name with _ | ⟨c, cs⟩
    · rfl
    · simp only [List.mem_cons, not_or] at hn
      simp [List.isPrefixOf, hn.1]
  unfold pjoin
  rw [hst]
  simp only [Bool.false_eq_true, if_false]
  by_cases hall : dir.all (· = '/') = true
  · have hdo : dirOf dir = dir := by unfold dirOf; rw [if_pos hall]
    rw [hdo]
    have : (dir.isEmpty || endsWith dir ['/']) = true := by
      rcases hd with rfl | ⟨d, rfl⟩
      · rfl
      · simp [endsWith]
    rw [if_pos this, psplit_dir hd hn, hdo]
  · have hdo : dirOf dir = rstripChar '/' dir := by unfold dirOf; rw [if_neg hall]
    have hex : ∃ x ∈ dir, x ≠ '/' := by
      rw [Bool.not_eq_true, List.all_eq_false] at hall
      obtain ⟨x, h1, h2⟩ := hall
      exact ⟨x, h1, by simpa using h2⟩
    obtain ⟨t, x, ht, hx⟩ := rstripChar_last hex
    rw [hdo, ht]
    have : ((t ++ [x]).isEmpty || endsWith (t ++ [x]) ['/']) = false := by
      simp [endsWith, List.isSuffixOf, List.isPrefixOf, Ne.symm hx]
    rw [this]
    simp only [Bool.false_eq_true, if_false]
    rw [psplit_dir (Or.inr ⟨t ++ [x], rfl⟩) hn]
    congr 1
    unfold dirOf
    rw [if_neg (by simp [hx])]
    unfold rstripChar
    simp [hx]

/-- Joining a plain name keeps it as the last component. -/
theorem pjoin_dir {a name : Str} (hn : '/' ∉ name) : ∃ d, DirPrefix d ∧ pjoin a name = d ++ name := by
  have hst : startsWith name ['/'] = false := by
    unfold startsWith
    rcases name with _ | ⟨c, cs⟩
    · rfl
    · simp only [List.mem_cons, not_or] at hn
      simp [List.isPrefixOf, hn.1]
  unfold pjoin
  rw [hst]
  simp only [Bool.false_eq_true, if_false]
  split
  · rename_i h
    refine ⟨a, ?_, rfl⟩
    rw [Bool.or_eq_true] at h
    rcases h with h | h
    · left; simpa [List.isEmpty_iff] using h
    · right
      unfold endsWith at h
      obtain ⟨t, ht⟩ := List.isSuffixOf_iff_suffix.1 h
      exact ⟨t, ht.symm⟩
  · exact ⟨a ++ ['/'], Or.inr ⟨a, rfl⟩, by simp⟩

theorem wantedExt_no_slash (p : Str) (g : Option Str) (hext : ∀ e, g = some e → '/' ∉ e) : '/' ∉ wantedExt p g := by
  unfold wantedExt
  rcases splitext_cases p with h | ⟨dir, stem, ext, -, -, -, he, -, -, h⟩
  · rw [h]
    simp only [ne_eq, not_true_eq_false, if_false]
    have h0 : '/' ∉ ".cdtb".toList := by decide
    rcases g with _ | _ | ⟨c, cs⟩
    · simpa using h0
    · simpa using h0
    · have := hext _ rfl
      simp only [List.mem_append, List.mem_cons, not_or] at this ⊢
      exact ⟨h0, by decide, this⟩
  · rw [h]
    simp only [ne_eq, reduceCtorEq, not_false_eq_true, if_true, List.mem_cons, not_or]
    exact ⟨by decide, he⟩

/-- Shape of the path with its extension. -/
theorem withExt_shape (p : Str) (g : Option Str) (hext : ∀ e, g = some e → '/' ∉ e) :
    ∃ dir stem, DirPrefix dir ∧ '/' ∉ stem ∧ withExt p g = dir ++ (stem ++ wantedExt p g) ∧
      dirname p = dirOf dir ∧ dirname (withExt p g) = dirOf dir ∧
      basename (withExt p g) = stem ++ wantedExt p g ∧
      ((splitext p).2 = [] → basename p = stem) ∧
      ((splitext p).2 ≠ [] → (∃ c ∈ stem, c ≠ '.') ∧ ∃ e, '/' ∉ e ∧ '.' ∉ e ∧ wantedExt p g = '.' :: e) := by
  have hw := wantedExt_no_slash p g hext
  rcases splitext_cases p with h | ⟨dir, stem, ext, hp, hd, hs, he, hdot, hv, h⟩
  · obtain ⟨dir, base, hp, hd, hb⟩ := exists_dirPrefix p
    have hwe : withExt p g = dir ++ (base ++ wantedExt p g) := by
      unfold withExt; rw [h]; simp only [ne_eq, not_true_eq_false, if_false]; rw [← List.append_assoc, ← hp]
    have hb' : '/' ∉ base ++ wantedExt p g := by simp [hb, hw]
    refine ⟨dir, base, hd, hb, hwe, ?_, ?_, ?_, ?_, ?_⟩
    · rw [hp, dirname, psplit_dir hd hb]
    · rw [hwe, dirname, psplit_dir hd hb']
    · rw [hwe, basename, psplit_dir hd hb']
    · intro _; rw [hp, basename, psplit_dir hd hb]
    · rw [h]; intro h; exact absurd rfl h
  · have hwx : wantedExt p g = '.' :: ext := by
      unfold wantedExt; rw [h]; simp
    have hwe : withExt p g = dir ++ (stem ++ wantedExt p g) := by
      unfold withExt; rw [hwx, h]; simp [hp]
    have hb' : '/' ∉ stem ++ wantedExt p g := by simp [hs, hw]
    refine ⟨dir, stem, hd, hs, hwe, ?_, ?_, ?_, ?_, ?_⟩
    · have : p = dir ++ (stem ++ wantedExt p g) := by rw [hwx, hp]; simp
      rw [this, dirname, psplit_dir hd hb']
    · rw [hwe, dirname, psplit_dir hd hb']
    · rw [hwe, basename, psplit_dir hd hb']
    · rw [h]; intro h; cases h
    · intro _; exact ⟨hv, ext, he, hdot, hwx⟩

theorem sliceTo_subset {s : Str} {k : Int} {c : Char} (h : c ∈ sliceTo s k) : c ∈ s := by
  unfold sliceTo at h
  split at h <;> exact List.mem_of_mem_take h

/-- The new name of a long path. -/
theorem long_name (w : WadEntry) (p : Str) (hp : w.path = some p) (hne : p ≠ [])
    (hext : ∀ e, w.ext = some e → '/' ∉ e) (hh : w.pathHash < 2 ^ 64)
    (hlong : 250 ≤ (basename (withExt p w.ext)).length) :
    ∃ p' hex, (sanitizePath w).path = some p' ∧ Hex16 hex w.pathHash ∧ dirname p' = dirname p ∧
      basename p' = sliceTo (basename (withExt p w.ext)) (250 - 17 - ((wantedExt p w.ext).length : Int)) ++ ['.'] ++
        hex ++ wantedExt p w.ext ∧
      ∃ d, DirPrefix d ∧ p' = d ++ basename p' := by
  have hhex := hex16_hexW hh
  obtain ⟨dir, stem, hd, hs, hwe, h1, h2, h3, -, -⟩ := withExt_shape p w.ext hext
  have hw := wantedExt_no_slash p w.ext hext
  rw [sanitizePath_eq w p hp hne, if_pos hlong]
  set name := sliceTo (basename (withExt p w.ext)) (250 - 17 - ((wantedExt p w.ext).length : Int)) ++ ['.'] ++
    hexW 16 w.pathHash ++ wantedExt p w.ext with hname
  have hn : '/' ∉ name := by
    rw [hname]
    simp only [List.mem_append, not_or, List.mem_singleton]
    refine ⟨⟨⟨fun h => ?_, by decide⟩, hhex.no_special.1⟩, hw⟩
    have := sliceTo_subset h
    rw [h3] at this
    simp [hs, hw] at this
  refine ⟨_, hexW 16 w.pathHash, rfl, hhex, ?_, ?_, ?_⟩
  · rw [h2, dirname, psplit_pjoin hd hn, h1]
  · rw [h2, basename, psplit_pjoin hd hn]
  · obtain ⟨d, hd', hj⟩ := pjoin_dir (a := dirname (withExt p w.ext)) hn
    refine ⟨d, hd', ?_⟩
    rw [hj, basename, psplit_dir hd' hn]

/-- The result ends with the wanted extension and is in the same directory; a path with an extension
keeps it. -/
theorem C13_extension (w : WadEntry) (p : Str) (hp : w.path = some p) (hne : p ≠ [])
    (hext : ∀ e, w.ext = some e → '/' ∉ e) (hh : w.pathHash < 2 ^ 64) :
    ∃ p', (sanitizePath w).path = some p' ∧ wantedExt p w.ext <:+ p' ∧ dirname p' = dirname p ∧
      ((splitext p).2 ≠ [] → (splitext p').2 = (splitext p).2) := by
  obtain ⟨dir, stem, hd, hs, hwe, h1, h2, h3, -, h5⟩ := withExt_shape p w.ext hext
  have hwx : (splitext p).2 ≠ [] → wantedExt p w.ext = (splitext p).2 := by
    intro h; unfold wantedExt; rw [if_pos h]
  by_cases hlong : 250 ≤ (basename (withExt p w.ext)).length
  · obtain ⟨p', hex, e1, e2, e3, e4, d, hd', e5⟩ := long_name w p hp hne hext hh hlong
    refine ⟨p', e1, ?_, e3, ?_⟩
    · rw [e5, e4, ← List.append_assoc]; exact List.suffix_append _ _
    · intro hx
      obtain ⟨-, e, he1, he2, he3⟩ := h5 hx
      have hsl : '/' ∉ sliceTo (basename (withExt p w.ext)) (250 - 17 - ((wantedExt p w.ext).length : Int)) := by
        intro h
        have := sliceTo_subset h
        rw [h3, he3] at this
        simp [hs, he1] at this
      have hv : ∃ c ∈ hex, c ≠ '.' := by
        rcases hx : hex with _ | ⟨c, cs⟩
        · have := e2.length; rw [hx] at this; simp at this
        · exact ⟨c, List.mem_cons_self .., fun h => e2.no_special.2 (by rw [hx, h]; exact List.mem_cons_self ..)⟩
      obtain ⟨c, hc, hcd⟩ := hv
      have := splitext_ext (dir := d)
        (stem := sliceTo (basename (withExt p w.ext)) (250 - 17 - ((wantedExt p w.ext).length : Int)) ++ ['.'] ++ hex)
        (ext := e) hd' (by simp only [List.mem_append, not_or, List.mem_singleton]; exact ⟨⟨hsl, by decide⟩, e2.no_special.1⟩) he1 he2 ⟨c, by simp [hc], hcd⟩
      rw [e5, e4, he3, ← List.append_assoc, ← he3, ← hwx hx]
      rw [← he3] at this
      rw [this]
  · have hsan : (sanitizePath w).path = some (withExt p w.ext) := by
      rw [sanitizePath_eq w p hp hne, if_neg hlong]
    refine ⟨_, hsan, ?_, by rw [h1, h2], ?_⟩
    · rw [hwe, ← List.append_assoc]; exact List.suffix_append _ _
    · intro hx
      have : withExt p w.ext = p := by unfold withExt; rw [if_pos hx]
      rw [this]

/-- Short names only get their extension. -/
theorem C13_short (w : WadEntry) (p : Str) (hp : w.path = some p) (hne : p ≠ [])
    (hshort : (basename (withExt p w.ext)).length < 250) :
    (sanitizePath w).path = some (withExt p w.ext) := by
  rw [sanitizePath_eq w p hp hne, if_neg (by omega)]

/-- Long names with a reasonable extension are cut to exactly 250 characters: the start of the name, the
hash and the extension. -/
theorem C13_long (w : WadEntry) (p : Str) (hp : w.path = some p) (hne : p ≠ [])
    (hext : ∀ e, w.ext = some e → '/' ∉ e) (hh : w.pathHash < 2 ^ 64)
    (hlong : 250 ≤ (basename (withExt p w.ext)).length) (he : (wantedExt p w.ext).length ≤ 233) :
    ∃ p' hex start, (sanitizePath w).path = some p' ∧ Hex16 hex w.pathHash ∧ dirname p' = dirname p ∧
      start <+: basename (withExt p w.ext) ∧ basename p' = start ++ ['.'] ++ hex ++ wantedExt p w.ext ∧
      (basename p').length = 250 := by
  obtain ⟨p', hex, e1, e2, e3, e4, -⟩ := long_name w p hp hne hext hh hlong
  refine ⟨p', hex, _, e1, e2, e3, ?_, e4, ?_⟩
  · unfold sliceTo; split <;> exact List.take_prefix _ _
  · have hl := e2.length
    rw [e4]
    unfold sliceTo
    rw [if_pos (by omega)]
    simp only [List.length_append, List.length_take, List.length_singleton, hl]
    omega

/-- Boundary: with an extension longer than 233 characters the slice bound is negative, and the new name is
250 characters longer than the old one. -/
theorem C13_boundary (w : WadEntry) (p : Str) (hp : w.path = some p) (hne : p ≠ [])
    (hext : ∀ e, w.ext = some e → '/' ∉ e) (hh : w.pathHash < 2 ^ 64)
    (hlong : 250 ≤ (basename (withExt p w.ext)).length) (he : 233 < (wantedExt p w.ext).length) :
    ∃ p', (sanitizePath w).path = some p' ∧
      (basename p').length = (basename (withExt p w.ext)).length + 250 := by
  obtain ⟨dir, stem, hd, hs, hwe, h1, h2, h3, -, h5⟩ := withExt_shape p w.ext hext
  obtain ⟨p', hex, e1, e2, e3, e4, -⟩ := long_name w p hp hne hext hh hlong
  refine ⟨p', e1, ?_⟩
  have hl := e2.length
  have hb : (wantedExt p w.ext).length ≤ (basename (withExt p w.ext)).length := by rw [h3]; simp
  rw [e4]
  unfold sliceTo
  rw [if_neg (by omega)]
  simp only [List.length_append, List.length_take, List.length_singleton, hl]
  omega

/-- The limit: whenever the extension has at most 233 characters, the final name has at most 250. -/
theorem C13_limit (w : WadEntry) (p : Str) (hp : w.path = some p) (hne : p ≠ [])
    (hext : ∀ e, w.ext = some e → '/' ∉ e) (hh : w.pathHash < 2 ^ 64) (he : (wantedExt p w.ext).length ≤ 233) :
    ∃ p', (sanitizePath w).path = some p' ∧ (basename p').length ≤ 250 := by
  by_cases hlong : 250 ≤ (basename (withExt p w.ext)).length
  · obtain ⟨p', -, -, h1, -, -, -, -, h2⟩ := C13_long w p hp hne hext hh hlong he
    exact ⟨p', h1, by omega⟩
  · exact ⟨_, C13_short w p hp hne (by omega), by omega⟩

/-- Non-vacuity: a name without extension, one with, a long one, and two names that collide. -/
example :
    let w (p : Str) (ext : Option Str) : WadEntry :=
      { wadEntry 0xAB 0 0 0 0 false none none with path := some p, ext := ext }
    (sanitizePath (w "a/b".toList (some "png".toList))).path = some "a/b.cdtb.png".toList ∧
    (sanitizePath (w "a/b".toList none)).path = some "a/b.cdtb".toList ∧
    (sanitizePath (w "a/b.cdtb".toList none)).path = some "a/b.cdtb".toList ∧
    (sanitizePath (w "a/.b".toList none)).path = some "a/.b.cdtb".toList ∧
    (sanitizePath (w ("a/".toList ++ List.replicate 300 'x' ++ ".dds".toList) (some "dds".toList))).path =
      some ("a/".toList ++ List.replicate 229 'x' ++ ".00000000000000ab.dds".toList) ∧
    (sanitizePath (w ("a/".toList ++ List.replicate 245 'x' ++ ".dds".toList) none)).path =
      some ("a/".toList ++ List.replicate 245 'x' ++ ".dds".toList) ∧
    (sanitizePath (w ("a/".toList ++ List.replicate 246 'x' ++ ".dds".toList) none)).path =
      some ("a/".toList ++ List.replicate 229 'x' ++ ".00000000000000ab.dds".toList) := by decide +kernel

/-! ## Cases that meet the hypotheses -/

/-- `C13_boundary`: an extension of 240 characters makes the name longer -/
example :
    let p := "a/x.".toList ++ List.replicate 250 'y'
    let w : WadEntry := { wadEntry 0xAB 0 0 0 0 false none none with path := some p }
    250 ≤ (basename (withExt p w.ext)).length ∧ 233 < (wantedExt p w.ext).length ∧
    (sanitizePath w).path.map (fun q => (basename q).length) = some 502 := by decide +kernel

end Cdtb
