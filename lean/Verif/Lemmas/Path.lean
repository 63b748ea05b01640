import Verif.Py.Path
import Verif.Lemmas.Str
/-!
# Lemmas on `os.path` and `lower`
-/
namespace Cdtb.Py
set_option autoImplicit false

/-- A directory prefix of a path: nothing, or text ending with `/`. -/
def DirPrefix (d : Str) : Prop := d = [] ∨ ∃ d', d = d' ++ ['/']

/-- Every path is a directory prefix and a name. -/
theorem exists_dirPrefix (p : Str) : ∃ dir base, p = dir ++ base ∧ DirPrefix dir ∧ '/' ∉ base := by
  cases h : rsplit1 '/' p with
  | none => exact ⟨[], p, rfl, Or.inl rfl, rsplit1_eq_none.1 h⟩
  | some db =>
    obtain ⟨d, b⟩ := db
    obtain ⟨rfl, hb⟩ := rsplit1_eq_some.1 h
    exact ⟨d ++ ['/'], b, by simp, Or.inr ⟨d, rfl⟩, hb⟩

theorem splitext_dir {dir base : Str} (hd : DirPrefix dir) (hb : '/' ∉ base) :
    splitext (dir ++ base) = match rsplit1 '.' base with
      | some (stem, ext) => if stem.all (· = '.') then (dir ++ base, []) else (dir ++ stem, '.' :: ext)
      | none => (dir ++ base, []) := by
  unfold splitext
  rcases hd with rfl | ⟨d', rfl⟩
  · rw [rsplit1_eq_none.2 (by simpa using hb)]; simp only [List.nil_append]; rfl
  · have : rsplit1 '/' (d' ++ ['/'] ++ base) = some (d', base) := rsplit1_eq_some.2 ⟨by simp, hb⟩
    rw [this]; rfl

/-- A name with an extension. -/
theorem splitext_ext {dir stem ext : Str} (hd : DirPrefix dir) (hs : '/' ∉ stem) (he : '/' ∉ ext)
    (hdot : '.' ∉ ext) (hne : ∃ c ∈ stem, c ≠ '.') :
    splitext (dir ++ stem ++ '.' :: ext) = (dir ++ stem, '.' :: ext) := by
  rw [List.append_assoc, splitext_dir hd (by simp [hs, he])]
  rw [rsplit1_eq_some.2 ⟨rfl, hdot⟩]
  have : stem.all (· = '.') = false := by
    rw [List.all_eq_false]
    obtain ⟨c, h1, h2⟩ := hne
    exact ⟨c, h1, by simpa using h2⟩
  simp [this]

/-- Every path has an extension, or `splitext` gives none. -/
theorem splitext_cases (p : Str) :
    splitext p = (p, []) ∨
    ∃ dir stem ext, p = dir ++ stem ++ '.' :: ext ∧ DirPrefix dir ∧ '/' ∉ stem ∧ '/' ∉ ext ∧ '.' ∉ ext ∧
      (∃ c ∈ stem, c ≠ '.') ∧ splitext p = (dir ++ stem, '.' :: ext) := by
  obtain ⟨dir, base, rfl, hd, hb⟩ := exists_dirPrefix p
  cases h : rsplit1 '.' base with
  | none => left; rw [splitext_dir hd hb, h]
  | some se =>
    obtain ⟨stem, ext⟩ := se
    obtain ⟨rfl, he⟩ := rsplit1_eq_some.1 h
    by_cases hall : stem.all (· = '.') = true
    · left; rw [splitext_dir hd hb, h]; simp [hall]
    · right
      simp only [List.mem_append, List.mem_cons, not_or] at hb
      have hne : ∃ c ∈ stem, c ≠ '.' := by
        rw [Bool.not_eq_true, List.all_eq_false] at hall
        obtain ⟨c, h1, h2⟩ := hall
        exact ⟨c, h1, by simpa using h2⟩
      exact ⟨dir, stem, ext, by simp, hd, hb.1, hb.2.2, he, hne, by
        rw [← List.append_assoc]; exact splitext_ext hd hb.1 hb.2.2 he hne⟩

theorem splitext_append (p : Str) : (splitext p).1 ++ (splitext p).2 = p := by
  rcases splitext_cases p with h | ⟨dir, stem, ext, rfl, -, -, -, -, -, h⟩ <;> rw [h] <;> simp

/-- The directory of a path, as `os.path.split` gives it. -/
def dirOf (dir : Str) : Str := if dir.all (· = '/') then dir else rstripChar '/' dir

theorem psplit_dir {dir base : Str} (hd : DirPrefix dir) (hb : '/' ∉ base) :
    psplit (dir ++ base) = (dirOf dir, base) := by
  unfold psplit
  rcases hd with rfl | ⟨d', rfl⟩
  · rw [rsplit1_eq_none.2 (by simpa using hb)]; simp [dirOf]
  · have : rsplit1 '/' (d' ++ ['/'] ++ base) = some (d', base) := rsplit1_eq_some.2 ⟨by simp, hb⟩
    rw [this]
    simp only [dirOf]
    split <;> rfl

/-! ## lower -/

theorem lowerChar_ascii_cases (c : Char) : lowerChar c = c ∨ (65 ≤ c.toNat ∧ c.toNat ≤ 90 ∧ lowerChar c = Char.ofNat (c.toNat + 32)) := by
  have hA : 'A'.toNat = 65 := rfl
  have hZ : 'Z'.toNat = 90 := rfl
  unfold lowerChar
  rw [hA, hZ]
  split
  · rename_i h; exact Or.inr ⟨h.1, h.2, rfl⟩
  · left; rfl

theorem toNat_ofNat_small {n : Nat} (h : n < 128) : (Char.ofNat n).toNat = n := by
  have : ∀ n < 128, (Char.ofNat n).toNat = n := by decide +kernel
  exact this n h

theorem lowerChar_idem (c : Char) : lowerChar (lowerChar c) = lowerChar c := by
  rcases lowerChar_ascii_cases c with h | ⟨h1, h2, h⟩
  · rw [h, h]
  · rw [h]
    unfold lowerChar
    rw [if_neg]
    rw [toNat_ofNat_small (n := c.toNat + 32) (by omega)]
    have : 'Z'.toNat = 90 := rfl
    omega

theorem lower_idem (s : Str) : lower (lower s) = lower s := by
  simp [lower, lowerChar_idem]

theorem lowerChar_eq_iff {c d : Char} (hd : ¬(97 ≤ d.toNat ∧ d.toNat ≤ 122)) (hd' : ¬(65 ≤ d.toNat ∧ d.toNat ≤ 90)) :
    lowerChar c = d ↔ c = d := by
  rcases lowerChar_ascii_cases c with h | ⟨h1, h2, h⟩
  · rw [h]
  · rw [h]
    constructor
    · rintro rfl
      rw [toNat_ofNat_small (by omega)] at hd
      omega
    · rintro rfl; omega

theorem mem_lower_iff {s : Str} {d : Char} (hd : ¬(97 ≤ d.toNat ∧ d.toNat ≤ 122)) (hd' : ¬(65 ≤ d.toNat ∧ d.toNat ≤ 90)) :
    d ∈ lower s ↔ d ∈ s := by
  simp [lower, lowerChar_eq_iff hd hd']

theorem lower_append (a b : Str) : lower (a ++ b) = lower a ++ lower b := by simp [lower]

theorem lower_cons (a : Char) (b : Str) : lower (a :: b) = lowerChar a :: lower b := rfl

theorem rsplit1_lower {d : Char} (hd : ¬(97 ≤ d.toNat ∧ d.toNat ≤ 122)) (hd' : ¬(65 ≤ d.toNat ∧ d.toNat ≤ 90)) (s : Str) :
    rsplit1 d (lower s) = (rsplit1 d s).map fun p => (lower p.1, lower p.2) := by
  cases h : rsplit1 d s with
  | none => rw [Option.map_none, rsplit1_eq_none, mem_lower_iff hd hd']; exact rsplit1_eq_none.1 h
  | some p =>
    obtain ⟨a, b⟩ := p
    obtain ⟨rfl, hb⟩ := rsplit1_eq_some.1 h
    rw [Option.map_some, rsplit1_eq_some, mem_lower_iff hd hd']
    refine ⟨?_, hb⟩
    rw [lower_append, lower_cons, (lowerChar_eq_iff hd hd').2 rfl]

theorem lower_dirPrefix {d : Str} (h : DirPrefix d) : DirPrefix (lower d) := by
  rcases h with rfl | ⟨d', rfl⟩
  · left; rfl
  · right; exact ⟨lower d', by rw [lower_append]; rfl⟩

theorem splitext_lower (p : Str) : splitext (lower p) = (lower (splitext p).1, lower (splitext p).2) := by
  obtain ⟨dir, base, rfl, hd, hb⟩ := exists_dirPrefix p
  rw [lower_append, splitext_dir hd hb, splitext_dir (lower_dirPrefix hd) (by rwa [mem_lower_iff (by decide) (by decide)]),
    rsplit1_lower (by decide) (by decide)]
  cases rsplit1 '.' base with
  | none => simp [lower]
  | some se =>
    have : (lower se.1).all (· = '.') = se.1.all (· = '.') := by
      rw [lower, List.all_map]
      congr 1
      funext c
      simp [lowerChar_eq_iff (d := '.') (c := c) (by decide) (by decide)]
    simp only [Option.map_some, this]
    split
    · simp [lower]
    · rw [lower_append, lower_cons]; rfl

theorem lower_length (a : Str) : (lower a).length = a.length := by simp [lower]

end Cdtb.Py
