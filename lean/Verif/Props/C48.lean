import Verif.Model.Hashes
import Verif.Lemmas.Str
import Mathlib.Data.List.Dedup
import Mathlib.Tactic.IntervalCases
/-!
# C48  Word lists contain exactly the words of the paths
-/
namespace Cdtb
set_option autoImplicit false
open Py

/-! ## Specification -/

/-- Characters between words -/
def Spec.IsDelim (c : Char) : Prop := c = '/' ∨ c = '_' ∨ c = '.' ∨ c = '-'

/-- A part of a path: between two delimiters, or between the start of the path and a delimiter. The last part of a path, which
is not before a delimiter, is excluded. -/
def Spec.IsPart (path w : Str) : Prop := ∃ a d b, path = a ++ w ++ d :: b ∧ Spec.IsDelim d ∧ (∀ c ∈ w, ¬ Spec.IsDelim c) ∧
  (a = [] ∨ ∃ a' d', a = a' ++ [d'] ∧ Spec.IsDelim d')

/-- Numbers of three digits or more -/
def Spec.IsLarge (w : Str) : Prop := 3 ≤ w.length ∧ ∀ c ∈ w, c ∈ ['0', '1', '2', '3', '4', '5', '6', '7', '8', '9']

/-! ## Lemmas -/

theorem mem_splitChar_dropLast (c : Char) (s w : Str) : w ∈ (splitChar c s).dropLast ↔
    ∃ a b, s = a ++ w ++ c :: b ∧ c ∉ w ∧ (a = [] ∨ ∃ a', a = a' ++ [c]) := by
  induction hn : s.length using Nat.strong_induction_on generalizing s with
  | _ n ih =>
    subst hn
    rcases hs : split1 c s with _ | ⟨x, y⟩
    · have hc := split1_eq_none.1 hs
      rw [splitChar_of_not_mem hc]
      simp only [List.dropLast_singleton, List.not_mem_nil, false_iff]
      rintro ⟨a, b, rfl, _⟩
      exact hc (by simp)
    · obtain ⟨rfl, hx⟩ := split1_eq_some.1 hs
      rw [splitChar_append hx, List.dropLast_cons_of_ne_nil (splitChar_ne_nil _ _), List.mem_cons, ih y.length (by simp; omega) y rfl]
      constructor
      · rintro (rfl | ⟨a, b, rfl, h1, h2⟩)
        · exact ⟨[], y, by simp, hx, .inl rfl⟩
        · refine ⟨x ++ c :: a, b, by simp, h1, .inr ?_⟩
          rcases h2 with rfl | ⟨a', rfl⟩
          · exact ⟨x, by simp⟩
          · exact ⟨x ++ c :: a', by simp⟩
      · rintro ⟨a, b, he, h1, rfl | ⟨a', rfl⟩⟩
        · left
          have e1 := (split1_eq_some (c := c) (a := w) (b := b)).2 ⟨rfl, h1⟩
          rw [List.nil_append] at he
          rw [← he, (split1_eq_some (a := x) (b := y)).2 ⟨rfl, hx⟩] at e1
          simp at e1
          exact e1.1.symm
        · right
          rcases ha : split1 c a' with _ | ⟨u, v⟩
          · have hc := split1_eq_none.1 ha
            have e1 := (split1_eq_some (c := c) (a := a') (b := w ++ c :: b)).2 ⟨rfl, hc⟩
            rw [show a' ++ [c] ++ w ++ c :: b = a' ++ c :: (w ++ c :: b) by simp] at he
            rw [← he, (split1_eq_some (a := x) (b := y)).2 ⟨rfl, hx⟩] at e1
            simp at e1
            exact ⟨[], b, by simp [e1.2], h1, .inl rfl⟩
          · obtain ⟨rfl, hu⟩ := split1_eq_some.1 ha
            rw [show u ++ c :: v ++ [c] ++ w ++ c :: b = u ++ c :: (v ++ c :: (w ++ c :: b)) by simp] at he
            have e1 := (split1_eq_some (c := c) (a := u) (b := v ++ c :: (w ++ c :: b))).2 ⟨rfl, hu⟩
            rw [← he, (split1_eq_some (a := x) (b := y)).2 ⟨rfl, hx⟩] at e1
            simp at e1
            exact ⟨v ++ [c], b, by simp [e1.2], h1, .inr ⟨v, rfl⟩⟩

/-- The three replacements -/
def delimChar (c : Char) : Char := if c = '/' ∨ c = '_' ∨ c = '.' then '-' else c

theorem replace_delims (s : Str) : replaceChar '.' '-' (replaceChar '_' '-' (replaceChar '/' '-' s)) = s.map delimChar := by
  simp only [replaceChar, List.map_map]
  congr 1
  funext c
  simp only [Function.comp_apply, delimChar]
  by_cases h1 : c = '/'
  · simp [h1]
  · by_cases h2 : c = '_'
    · simp [h2]
    · by_cases h3 : c = '.'
      · simp [h3]
      · simp [h1, h2, h3]

theorem delimChar_eq (c : Char) : (delimChar c = '-' ↔ Spec.IsDelim c) ∧ (¬ Spec.IsDelim c → delimChar c = c) := by
  unfold delimChar Spec.IsDelim
  constructor
  · split
    · simp_all
      grind
    · grind
  · intro h
    rw [if_neg]
    grind

theorem mem_pathWords (path w : Str) : w ∈ pathWords path ↔ Spec.IsPart path w := by
  unfold pathWords
  rw [replace_delims, mem_splitChar_dropLast]
  constructor
  · rintro ⟨a, b, h1, h2, h3⟩
    obtain ⟨l, m, rfl, hl, hm⟩ := List.map_eq_append_iff.1 h1
    obtain ⟨a0, w0, rfl, ha, hw⟩ := List.map_eq_append_iff.1 hl
    obtain ⟨d, b0, rfl, hd, hb⟩ := List.map_eq_cons_iff.1 hm
    have hww : ∀ c ∈ w0, ¬ Spec.IsDelim c := by
      intro c hc hd
      apply h2
      rw [← hw, ← (delimChar_eq c).1.2 hd]
      exact List.mem_map_of_mem hc
    have hw' : w = w0 := by
      rw [← hw]
      conv_rhs => rw [← List.map_id w0]
      apply List.map_congr_left
      intro c hc
      exact (delimChar_eq c).2 (hww c hc)
    refine ⟨a0, d, b0, by rw [hw'], (delimChar_eq d).1.1 hd, by rw [hw']; exact hww, ?_⟩
    rcases h3 with rfl | ⟨a', rfl⟩
    · left; exact List.map_eq_nil_iff.1 ha
    · right
      obtain ⟨x, y, rfl, hx, hy⟩ := List.map_eq_append_iff.1 ha
      obtain ⟨d', z, rfl, hd', hz⟩ := List.map_eq_cons_iff.1 hy
      rw [List.map_eq_nil_iff] at hz
      subst hz
      exact ⟨x, d', rfl, (delimChar_eq d').1.1 hd'⟩
  · rintro ⟨a, d, b, rfl, h1, h2, h3⟩
    have hw : w.map delimChar = w := by
      conv_rhs => rw [← List.map_id w]
      apply List.map_congr_left
      intro c hc
      exact (delimChar_eq c).2 (h2 c hc)
    refine ⟨a.map delimChar, b.map delimChar, by simp [hw, (delimChar_eq d).1.2 h1], ?_, ?_⟩
    · intro hc
      exact h2 _ hc (Or.inr (Or.inr (Or.inr rfl)))
    · rcases h3 with rfl | ⟨a', d', rfl, h4⟩
      · left; rfl
      · right; exact ⟨a'.map delimChar, by simp [(delimChar_eq d').1.2 h4]⟩

theorem asciiDigit_iff (c : Char) : ('0'.toNat ≤ c.toNat && c.toNat ≤ '9'.toNat) = true ↔ c ∈ ['0', '1', '2', '3', '4', '5', '6', '7', '8', '9'] := by
  constructor
  · intro h
    simp only [Bool.and_eq_true, decide_eq_true_eq] at h
    have h1 : 48 ≤ c.toNat := h.1
    have h2 : c.toNat ≤ 57 := h.2
    have h3 : c = Char.ofNat c.toNat := (Char.ofNat_toNat c).symm
    rw [h3]
    generalize c.toNat = n at h1 h2
    interval_cases n <;> decide
  · intro h
    simp only [List.mem_cons, List.not_mem_nil, or_false] at h
    rcases h with rfl | rfl | rfl | rfl | rfl | rfl | rfl | rfl | rfl | rfl <;> decide

theorem isLargeNumber_iff (w : Str) : isLargeNumber w = true ↔ Spec.IsLarge w ∨ ∃ v, w = v ++ ['\n'] ∧ Spec.IsLarge v := by
  unfold isLargeNumber
  simp only [Bool.and_eq_true, decide_eq_true_eq, List.all_eq_true, ← asciiDigit_iff, Spec.IsLarge]
  rcases List.eq_nil_or_concat w with rfl | ⟨v, c, rfl⟩
  · simp [endsWith]
  · rw [List.concat_eq_append]
    by_cases hc : c = '\n'
    · subst hc
      have he : endsWith (v ++ ['\n']) ['\n'] = true := endsWith_iff.2 ⟨v, rfl⟩
      rw [if_pos he]
      simp only [List.dropLast_concat]
      constructor
      · rintro ⟨h1, h2⟩
        exact .inr ⟨v, rfl, h1, h2⟩
      · rintro (⟨h1, h2⟩ | ⟨u, hu, h1, h2⟩)
        · have := h2 '\n' (by simp)
          exact absurd this (by decide)
        · have := List.append_cancel_right hu
          subst this
          exact ⟨h1, h2⟩
    · have he : ¬ endsWith (v ++ [c]) ['\n'] = true := by
        rw [endsWith_iff]
        rintro ⟨t, ht⟩
        have := (List.append_inj' ht rfl).2
        simp at this
        exact hc this
      rw [if_neg he]
      constructor
      · exact fun h => .inl h
      · rintro (h | ⟨u, hu, _⟩)
        · exact h
        · exact absurd (endsWith_iff.2 ⟨u, hu⟩) he

instance strTotal' : Std.Total fun a b : Str => a ≤ b := ⟨fun a b => List.le_total a b⟩
instance strTrans' : IsTrans Str fun a b => a ≤ b := ⟨fun _ _ _ h1 h2 => List.le_trans h1 h2⟩

/-! ## Theorems -/

/-- `build_wordlist` returns the words of the paths, except numbers of three digits or more (and such numbers followed by a
line break), -/
theorem C48_words (paths : List Str) (w : Str) :
    w ∈ buildWordlist paths ↔ (∃ p ∈ paths, Spec.IsPart p w) ∧ ¬ Spec.IsLarge w ∧ ¬ ∃ v, w = v ++ ['\n'] ∧ Spec.IsLarge v := by
  unfold buildWordlist
  rw [(List.perm_insertionSort _ _).mem_iff, List.mem_filter, List.mem_dedup, List.mem_flatMap]
  simp only [mem_pathWords, Bool.not_eq_true', ← Bool.not_eq_true, isLargeNumber_iff, not_or]

/-- sorted and without repetitions. -/
theorem C48_sorted (paths : List Str) : (buildWordlist paths).Pairwise fun a b => a < b := by
  have h1 : (buildWordlist paths).Pairwise fun a b => a ≤ b := List.pairwise_insertionSort _ _
  have h2 : (buildWordlist paths).Nodup := by
    unfold buildWordlist
    rw [(List.perm_insertionSort _ _).nodup_iff]
    exact (List.nodup_dedup _).filter _
  have h3 := h1.and h2
  apply h3.imp
  rintro a b ⟨h4, h5⟩
  by_contra h
  exact h5 (List.le_antisymm h4 (List.not_lt.1 h))

/-- The list depends only on the set of paths. -/
theorem C48_set (paths paths' : List Str) (h : ∀ p, p ∈ paths ↔ p ∈ paths') : buildWordlist paths = buildWordlist paths' := by
  have hm : ∀ w, w ∈ buildWordlist paths ↔ w ∈ buildWordlist paths' := by
    intro w; rw [C48_words, C48_words]; simp [h]
  have hirr : ∀ l : List Str, l.Pairwise (fun a b => a < b) → l.Nodup := by
    intro l hl
    apply hl.imp
    rintro a b h rfl
    exact List.lt_irrefl a h
  have hperm : (buildWordlist paths).Perm (buildWordlist paths') :=
    (List.perm_ext_iff_of_nodup (hirr _ (C48_sorted _)) (hirr _ (C48_sorted _))).2 hm
  exact hperm.eq_of_pairwise (le := fun a b => a < b) (fun a b _ _ h1 h2 => absurd (List.lt_trans h1 h2) (List.lt_irrefl a)) (C48_sorted _) (C48_sorted _)

example : buildWordlist ["assets/my-file_12_345.tex".toList, "a/b.dds".toList, "a//c".toList] =
    [[], "12".toList, "a".toList, "assets".toList, "b".toList, "file".toList, "my".toList] := by decide +kernel

example : Spec.IsPart "my-file_12_345.tex".toList "file".toList :=
  ⟨"my-".toList, '_', "12_345.tex".toList, rfl, by unfold Spec.IsDelim; decide, by unfold Spec.IsDelim; decide +kernel,
    .inr ⟨"my".toList, '-', rfl, by unfold Spec.IsDelim; decide⟩⟩

end Cdtb
