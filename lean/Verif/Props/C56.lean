import Verif.Lemmas.Guess
import Verif.Lemmas.Regex
import Verif.Lemmas.Num
/-!
# C56  What word and number substitution find

`Spec.Guesses H g g' cands` (see C55): checking exactly the candidates `cands` changes the guesser `g` to `g'`.
-/
namespace Cdtb
set_option autoImplicit false
open Py

/-! ## Specification -/

/-- The end of a path, inside its basename and before an extension -/
def Spec.BeforeExt (b : Str) : Prop := '/' ∉ b ∧ ∃ u v, b = u ++ '.' :: v ∧ v ≠ []

/-- A digit -/
def Spec.Digit (c : Char) : Prop := c ∈ "0123456789".toList

/-- `path` is `a ++ d ++ b` where `d` is a whole number in the basename, before an extension -/
structure Spec.NumberIn (path a d b : Str) : Prop where
  eq : path = a ++ d ++ b
  nonempty : d ≠ []
  digits : ∀ c ∈ d, Spec.Digit c
  left : ∀ c ∈ a.getLast?, ¬ Spec.Digit c
  right : ∀ c ∈ b.head?, ¬ Spec.Digit c
  ext : Spec.BeforeExt b

/-- A word: no separator -/
def Spec.Word (w : Str) : Prop := w ≠ [] ∧ ∀ c ∈ w, c ∉ "/_.-".toList

/-- `n + 1` words separated by `-` or `_` -/
inductive Spec.Words : Nat → Str → Prop
  | one (w : Str) (h : Spec.Word w) : Spec.Words 0 w
  | more (n : Nat) (w s : Str) (c : Char) (h : Spec.Word w) (hc : c ∈ "-_".toList) (hs : Spec.Words n s) : Spec.Words (n + 1) (w ++ c :: s)

/-- `path` is `a ++ old ++ b` where `old` is `n + 1` whole words in the basename, before an extension -/
structure Spec.WordsIn (n : Nat) (path a old b : Str) : Prop where
  eq : path = a ++ old ++ b
  words : Spec.Words n old
  left : ∀ c ∈ a.getLast?, c ∈ "/_.-".toList
  right : ∀ c ∈ b.head?, c ∈ "/_.-".toList
  ext : Spec.BeforeExt b

/-! ## Formats -/

theorem fmtGo_lit (a r : Str) (args : List FArg) (ha : '%' ∉ a) :
    fmtGo none (a ++ r) args = (fmtGo none r args).map (a ++ ·) := by
  induction a with
  | nil => rw [List.nil_append]; cases fmtGo none r args <;> rfl
  | cons c a ih =>
    simp only [List.mem_cons, not_or] at ha
    rw [List.cons_append]
    simp only [fmtGo]
    rw [if_neg (Ne.symm ha.1), ih ha.2]
    cases fmtGo none r args <;> rfl

theorem fmtGo_nil (b : Str) (hb : '%' ∉ b) : fmtGo none b [] = .ok b := by
  have := fmtGo_lit b [] [] hb
  simpa [fmtGo, Except.map] using this

theorem fmtGo_s (r w : Str) (args : List FArg) : fmtGo none ('%' :: 's' :: r) (.str w :: args) = (fmtGo none r args).map (w ++ ·) := by
  simp only [fmtGo]
  rw [if_pos trivial, if_neg (by decide), if_neg (by decide), if_pos trivial]
  have : fmtPad false [] (FArg.str w).show = w := by simp [fmtPad, FArg.show, digitsGo]
  rw [this]
  cases fmtGo none r args <;> rfl

theorem fmtGo_d (r : Str) (n : Nat) : fmtGo none ('%' :: 'd' :: r) [.int n] = (fmtGo none r []).map (showNat 10 n ++ ·) := by
  simp only [fmtGo]
  rw [if_pos trivial, if_neg (by decide), if_neg (by decide), if_neg (by decide), if_pos trivial]
  have : fmtPad true [] (showNat 10 n) = showNat 10 n := by simp [fmtPad, digitsGo]
  rw [this]
  cases fmtGo none r [] <;> rfl

theorem checkGen_ok (H : Str → Int) (l : List (Res Str)) (ps : List Str) (g : Guesser) (h : l = ps.map .ok) :
    g.checkGen H l = (g.checkIter H ps, .ok ()) := by
  subst h
  rw [checkIter_eq]
  induction ps generalizing g with
  | nil => rfl
  | cons p ps ih => rw [List.map_cons, Guesser.checkGen, ih]; rfl

theorem map_ok_of {α β : Type} (f : α → Res β) (l : List α) (h : ∀ a ∈ l, ∃ b, f a = .ok b) :
    ∃ ps : List β, l.map f = ps.map .ok ∧ ∀ b, b ∈ ps ↔ ∃ a ∈ l, f a = .ok b := by
  induction l with
  | nil => exact ⟨[], rfl, by simp⟩
  | cons a l ih =>
    obtain ⟨b, hb⟩ := h a List.mem_cons_self
    obtain ⟨ps, h1, h2⟩ := ih fun a' ha' => h a' (List.mem_cons_of_mem _ ha')
    refine ⟨b :: ps, by rw [List.map_cons, List.map_cons, h1, hb], fun c => ?_⟩
    simp only [List.mem_cons, h2, exists_eq_or_imp, hb, Except.ok.injEq]
    rw [eq_comm (a := c)]

theorem checkFormats_ok (H : Str → Int) (args : List (List FArg)) (fmts : List Str) (g : Guesser)
    (h : ∀ fmt ∈ fmts, ∀ a ∈ args, ∃ q, pyFormat fmt a = .ok q) :
    ∃ ps, g.checkFormats H args fmts = (g.checkIter H ps, .ok ()) ∧ ∀ q, q ∈ ps ↔ ∃ fmt ∈ fmts, ∃ a ∈ args, pyFormat fmt a = .ok q := by
  induction fmts generalizing g with
  | nil => exact ⟨[], rfl, by simp⟩
  | cons fmt fmts ih =>
    obtain ⟨ps, h1, h2⟩ := map_ok_of (pyFormat fmt) args (h fmt List.mem_cons_self)
    obtain ⟨qs, h3, h4⟩ := ih (g.checkIter H ps) fun f hf => h f (List.mem_cons_of_mem _ hf)
    refine ⟨ps ++ qs, ?_, fun q => ?_⟩
    · rw [Guesser.checkFormats, checkGen_ok H _ ps g h1]
      simp only
      rw [h3, (C46_calls H g _ _).1]
    · simp only [List.mem_append, h2, h4, List.mem_cons, exists_eq_or_imp]

/-- The method succeeds and checks the candidates. -/
theorem checkFormats_guesses (H : Str → Int) (g : Guesser) (hn : g.unknown.Nodup) (args : List (List FArg)) (fmts : List Str)
    (cands : Str → Prop) (h : ∀ fmt ∈ fmts, ∀ a ∈ args, ∃ q, pyFormat fmt a = .ok q)
    (hc : ∀ q, (∃ fmt ∈ fmts, ∃ a ∈ args, pyFormat fmt a = .ok q) ↔ cands q) :
    ∃ g', g.checkFormats H args (sortedSet fmts) = (g', .ok ()) ∧ Spec.Guesses H g g' cands := by
  have hm : ∀ f, f ∈ sortedSet fmts ↔ f ∈ fmts := fun f => by
    simp only [sortedSet, (List.perm_insertionSort _ _).mem_iff, List.mem_dedup]
  obtain ⟨ps, h1, h2⟩ := checkFormats_ok H args (sortedSet fmts) g fun f hf => h f ((hm f).1 hf)
  refine ⟨_, h1, checkIter_guesses H g hn ps cands fun q => ?_⟩
  rw [h2, ← hc]
  simp only [hm]

/-! ## The end of basenames -/

theorem extAhead_iff (s : Str) : extAhead s = true ↔ Spec.BeforeExt s := by
  unfold Spec.BeforeExt
  induction s with
  | nil => simp [extAhead]
  | cons c r ih =>
    unfold extAhead
    by_cases hc : c = '/'
    · subst hc; simp
    · rw [if_neg hc]
      simp only [Bool.or_eq_true, Bool.and_eq_true, decide_eq_true_eq, ih, List.mem_cons, not_or]
      constructor
      · rintro (⟨⟨rfl, h2⟩, h3⟩ | ⟨h1, u, v, rfl, hv⟩)
        · exact ⟨⟨Ne.symm hc, h3⟩, [], r, rfl, h2⟩
        · exact ⟨⟨Ne.symm hc, h1⟩, c :: u, v, rfl, hv⟩
      · rintro ⟨⟨-, h1⟩, u, v, he, hv⟩
        cases u with
        | nil =>
          simp only [List.nil_append, List.cons.injEq] at he
          exact .inl ⟨⟨he.1, he.2 ▸ hv⟩, h1⟩
        | cons d u =>
          simp only [List.cons_append, List.cons.injEq] at he
          exact .inr ⟨h1, u, v, he.2, hv⟩

theorem extAhead_skip (c : Char) (r : Str) (h1 : c ≠ '/') (h2 : c ≠ '.') : extAhead (c :: r) = extAhead r := by
  rw [extAhead, if_neg h1]
  simp [h2]

theorem isDig_iff (c : Char) : isDig c = true ↔ Spec.Digit c := by
  unfold isDig Spec.Digit
  constructor
  · intro h
    simp only [Bool.and_eq_true, decide_eq_true_eq] at h
    obtain ⟨h1, h2⟩ := h
    have e : c = Char.ofNat c.toNat := (Char.ofNat_toNat c).symm
    have h1' : 48 ≤ c.toNat := h1
    have h2' : c.toNat ≤ 57 := h2
    rw [e]
    generalize c.toNat = n at *
    have : n = 48 ∨ n = 49 ∨ n = 50 ∨ n = 51 ∨ n = 52 ∨ n = 53 ∨ n = 54 ∨ n = 55 ∨ n = 56 ∨ n = 57 := by omega
    rcases this with rfl | rfl | rfl | rfl | rfl | rfl | rfl | rfl | rfl | rfl <;> decide
  · intro h
    have : c ∈ ['0', '1', '2', '3', '4', '5', '6', '7', '8', '9'] := h
    simp only [List.mem_cons, List.not_mem_nil, or_false] at this
    rcases this with rfl | rfl | rfl | rfl | rfl | rfl | rfl | rfl | rfl | rfl <;> decide

theorem isDig_not (c : Char) : isDig c = false ↔ ¬ Spec.Digit c := by rw [← isDig_iff]; simp

theorem isWordChar_iff (c : Char) : isWordChar c = true ↔ c ∉ "/_.-".toList := by
  have : "/_.-".toList = ['/', '_', '.', '-'] := rfl
  rw [this]
  simp [isWordChar, and_assoc]

theorem lastNot_iff (x : Char → Bool) (a : Str) : LastNot x a ↔ ∀ c ∈ a.getLast?, x c = false := by
  constructor
  · intro h c hc
    rcases List.eq_nil_or_concat a with rfl | ⟨l, d, rfl⟩
    · simp at hc
    · simp at hc; subst hc; exact h d l (by simp)
  · rintro h c r rfl
    exact h c (by simp)

theorem headNot_iff (x : Char → Bool) (a : Str) : HeadNot x a ↔ ∀ c ∈ a.head?, x c = false := by
  constructor
  · intro h c hc
    cases a with
    | nil => simp at hc
    | cons d a => simp at hc; subst hc; exact h d a rfl
  · rintro h c r rfl
    exact h c (by simp)

theorem digit_ext (c : Char) (r : Str) (h : isDig c = true) : extAhead (c :: r) = extAhead r := by
  have := (isDig_iff c).1 h
  refine extAhead_skip c r ?_ ?_
  · rintro rfl; exact absurd h (by decide)
  · rintro rfl; exact absurd h (by decide)

theorem matchNumber_iff (path a w b : Str) : (a, w, b) ∈ finditer matchNumber [] 0 path ↔ Spec.NumberIn path a w b := by
  have h := finditer_runs isDig extAhead (fun c r hc => by rw [digit_ext c r hc]; exact id) [] path a w b
  rw [show matchNumber = fun s => greedyMatch isDig extAhead s s.length from rfl, h]
  simp only [List.nil_append, lastNot_iff, headNot_iff, extAhead_iff, List.all_eq_true, isDig_iff, isDig_not]
  constructor
  · rintro ⟨_, rfl, h1, h2, h3, h4, h5, h6⟩; exact ⟨h1, h2, h3, h4, h5, h6⟩
  · rintro ⟨h1, h2, h3, h4, h5, h6⟩; exact ⟨a, rfl, h1, h2, h3, h4, h5, h6⟩

/-- `substitute_numbers` (without a number of digits): each number of a basename, before an extension, is replaced by all the numbers below
`nmax`. -/
theorem C56_numbers (H : Str → Int) (g : Guesser) (hg : Reached H g) (paths : List Str) (nmax : Nat) (hp : ∀ p ∈ paths, '%' ∉ p) :
    ∃ g', g.substituteNumbers H paths nmax .none = (g', .ok ()) ∧
      Spec.Guesses H g g' (fun q => ∃ path ∈ paths, ∃ a d b n, Spec.NumberIn path a d b ∧ n < nmax ∧ q = a ++ showNat 10 n ++ b) := by
  have hf : ∀ path ∈ paths, ∀ a w b, (a, w, b) ∈ finditer matchNumber [] 0 path → ∀ n,
      pyFormat (a ++ "%d".toList ++ b) [.int n] = .ok (a ++ showNat 10 n ++ b) := by
    intro path hpath a w b hm n
    have he := ((matchNumber_iff path a w b).1 hm).eq
    have hp' := hp path hpath
    rw [he] at hp'
    simp only [List.mem_append, not_or] at hp'
    rw [pyFormat, List.append_assoc, fmtGo_lit a _ _ hp'.1.1]
    show Except.map _ (fmtGo none ('%' :: 'd' :: b) [.int n]) = _
    rw [fmtGo_d, fmtGo_nil b hp'.2]
    simp [Except.map]
  refine checkFormats_guesses H g hg.inv.1 _ _ _ ?_ fun q => ?_
  · intro fmt hfmt a ha
    simp only [List.mem_flatMap, DigitsArg.count, numberFormats, List.mem_map] at hfmt
    obtain ⟨path, hpath, ⟨a', w, b⟩, hm, rfl⟩ := hfmt
    simp only [List.mem_map] at ha
    obtain ⟨n, -, rfl⟩ := ha
    exact ⟨_, hf path hpath a' w b hm n⟩
  · simp only [List.mem_flatMap, DigitsArg.count, numberFormats, List.mem_map, List.mem_range]
    constructor
    · rintro ⟨fmt, ⟨path, hpath, ⟨a', w, b⟩, hm, rfl⟩, _, ⟨n, hn, rfl⟩, hq⟩
      rw [hf path hpath a' w b hm n] at hq
      cases hq
      exact ⟨path, hpath, a', w, b, n, (matchNumber_iff path a' w b).1 hm, hn, rfl⟩
    · rintro ⟨path, hpath, a, w, b, n, hm, hn, rfl⟩
      have hm := (matchNumber_iff path a w b).2 hm
      exact ⟨_, ⟨path, hpath, (a, w, b), hm, rfl⟩, _, ⟨n, hn, rfl⟩, hf path hpath a w b hm n⟩

/-! ## A number of digits -/

theorem showNat_digits (n : Nat) : ∀ c ∈ showNat 10 n, isDig c = true := by
  intro c hc
  obtain ⟨d, hd, rfl⟩ := showNat_mem (by omega) (by omega) hc
  have : ∀ d < 10, isDig (digitChar d) = true := by decide +kernel
  exact this d hd

theorem fmtGo_dig (w : Str) (c : Char) (r : Str) (args : List FArg) (h : isDig c = true) :
    fmtGo (some w) (c :: r) args = fmtGo (some (w ++ [c])) r args := by
  rw [fmtGo.eq_def]
  simp [h]

theorem fmtGo_width (w ds r : Str) (args : List FArg) (hd : ∀ c ∈ ds, isDig c = true) :
    fmtGo (some w) (ds ++ r) args = fmtGo (some (w ++ ds)) r args := by
  induction ds generalizing w with
  | nil => simp
  | cons c ds ih =>
    rw [List.cons_append, fmtGo_dig _ _ _ _ (hd c List.mem_cons_self), ih _ fun d hd' => hd d (List.mem_cons_of_mem _ hd')]
    simp

theorem fmtGo_0d (r : Str) (k n : Nat) :
    fmtGo none ('%' :: '0' :: (showNat 10 k ++ 'd' :: r)) [.int n] = (fmtGo none r []).map (zpad k (showNat 10 n) ++ ·) := by
  have h1 : fmtGo none ('%' :: '0' :: (showNat 10 k ++ 'd' :: r)) [.int n] = fmtGo (some ('0' :: showNat 10 k)) ('d' :: r) [.int n] := by
    rw [fmtGo, if_pos rfl, fmtGo_dig _ _ _ _ (by decide), fmtGo_width _ _ _ _ (showNat_digits k)]
    rfl
  rw [h1, fmtGo, if_neg (by decide), if_neg (by decide), if_neg (by decide), if_pos rfl]
  have : fmtPad true ('0' :: showNat 10 k) (showNat 10 n) = zpad k (showNat 10 n) := by
    have hw : digitsGo 10 0 false ('0' :: showNat 10 k) = some k := by
      have := digitsGo_showNat (b := 10) (by omega) (by omega) k 0 true []
      rw [digitsGo, if_neg (by decide), show digitVal 10 '0' = some 0 by decide]
      simpa [digitsGo] using this
    simp [fmtPad, zpad, hw]
  simp only [this]
  cases fmtGo none r [] <;> rfl

/-- `path` is `a ++ d ++ b` where `d` is a piece of `k` digits of a number of the basename, before an extension: numbers are cut in
pieces of `k` digits from the left. -/
structure Spec.DigitsIn (k : Nat) (path a d b : Str) : Prop where
  eq : path = a ++ d ++ b
  length : d.length = k
  digits : ∀ c ∈ d, Spec.Digit c
  cut : ∃ a0 r, a = a0 ++ r ∧ (∀ c ∈ a0.getLast?, ¬ Spec.Digit c) ∧ (∀ c ∈ r, Spec.Digit c) ∧ k ∣ r.length
  ext : Spec.BeforeExt b

theorem matchDigits_iff (k : Nat) (hk : k ≠ 0) (path a w b : Str) :
    (a, w, b) ∈ finditer (matchDigits k) [] 0 path ↔ Spec.DigitsIn k path a w b := by
  have h := finditer_pieces isDig extAhead (fun c r hc => digit_ext c r hc) k hk [] path a w b
  rw [show matchDigits k = pieceMatch isDig extAhead k from rfl]
  refine Iff.trans h ?_
  simp only [List.nil_append, lastNot_iff, extAhead_iff, List.all_eq_true, isDig_iff, isDig_not]
  constructor
  · rintro ⟨a0, r, rfl, h1, h2, h3, h4, h5, h6, h7⟩; exact ⟨h1, h2, h3, ⟨a0, r, rfl, h6, h4, h5⟩, h7⟩
  · rintro ⟨h1, h2, h3, ⟨a0, r, rfl, h6, h4, h5⟩, h7⟩; exact ⟨a0, r, rfl, h1, h2, h3, h4, h5, h6, h7⟩

/-- `substitute_numbers` with a number of digits (for `True`, the number of digits of `nmax - 1`): each piece of this number of digits of a
basename is replaced by all the numbers below `nmax`, padded with zeros. -/
theorem C56_digits (H : Str → Int) (g : Guesser) (hg : Reached H g) (paths : List Str) (nmax : Nat) (hp : ∀ p ∈ paths, '%' ∉ p) :
    (∀ k, k ≠ 0 → ∃ g', g.substituteNumbers H paths nmax (.fixed k) = (g', .ok ()) ∧
      Spec.Guesses H g g' (fun q => ∃ path ∈ paths, ∃ a d b n, Spec.DigitsIn k path a d b ∧ n < nmax ∧
        q = a ++ zpad k (showNat 10 n) ++ b)) ∧
    (nmax ≠ 0 → g.substituteNumbers H paths nmax .auto = g.substituteNumbers H paths nmax (.fixed (showNat 10 (nmax - 1)).length)) := by
  constructor
  · intro k hk
    have hf : ∀ path ∈ paths, ∀ a w b, (a, w, b) ∈ finditer (matchDigits k) [] 0 path → ∀ n,
        pyFormat (a ++ ("%0".toList ++ showNat 10 k ++ ['d']) ++ b) [.int n] = .ok (a ++ zpad k (showNat 10 n) ++ b) := by
      intro path hpath a w b hm n
      have he := ((matchDigits_iff k hk path a w b).1 hm).eq
      have hp' := hp path hpath
      rw [he] at hp'
      simp only [List.mem_append, not_or] at hp'
      rw [pyFormat, List.append_assoc, fmtGo_lit a _ _ hp'.1.1]
      have : "%0".toList ++ showNat 10 k ++ ['d'] ++ b = '%' :: '0' :: (showNat 10 k ++ 'd' :: b) := by
        simp
      rw [this, fmtGo_0d, fmtGo_nil b hp'.2]
      simp [Except.map]
    refine checkFormats_guesses H g hg.inv.1 _ _ _ ?_ fun q => ?_
    · intro fmt hfmt a ha
      simp only [List.mem_flatMap, DigitsArg.count, numberFormats, List.mem_map] at hfmt
      obtain ⟨path, hpath, ⟨a', w, b⟩, hm, rfl⟩ := hfmt
      simp only [List.mem_map] at ha
      obtain ⟨n, -, rfl⟩ := ha
      exact ⟨_, hf path hpath a' w b hm n⟩
    · simp only [List.mem_flatMap, DigitsArg.count, numberFormats, List.mem_map, List.mem_range]
      constructor
      · rintro ⟨fmt, ⟨path, hpath, ⟨a', w, b⟩, hm, rfl⟩, _, ⟨n, hn, rfl⟩, hq⟩
        rw [hf path hpath a' w b hm n] at hq
        cases hq
        exact ⟨path, hpath, a', w, b, n, (matchDigits_iff k hk path a' w b).1 hm, hn, rfl⟩
      · rintro ⟨path, hpath, a, w, b, n, hm, hn, rfl⟩
        have hm := (matchDigits_iff k hk path a w b).2 hm
        exact ⟨_, ⟨path, hpath, (a, w, b), hm, rfl⟩, _, ⟨n, hn, rfl⟩, hf path hpath a w b hm n⟩
  · intro hn
    have : showInt ((nmax : Int) - 1) = showNat 10 (nmax - 1) := by
      unfold showInt
      rw [if_neg (by omega)]
      congr 1
      omega
    unfold Guesser.substituteNumbers
    simp only [DigitsArg.count, this]

/-! ## Words -/

/-- What follows the first word -/
inductive MoreWords : Nat → Str → Prop
  | nil : MoreWords 0 []
  | cons (n : Nat) (c : Char) (w t : Str) (hc : c ∈ "-_".toList) (hw : Spec.Word w) (ht : MoreWords n t) : MoreWords (n + 1) (c :: w ++ t)

theorem words_iff (n : Nat) (old : Str) : Spec.Words n old ↔ ∃ w t, Spec.Word w ∧ MoreWords n t ∧ old = w ++ t := by
  constructor
  · intro h
    induction h with
    | one w h => exact ⟨w, [], h, .nil, by simp⟩
    | more n w s c h hc hs ih =>
      obtain ⟨w', t, h1, h2, rfl⟩ := ih
      exact ⟨w, c :: w' ++ t, h, .cons n c w' t hc h1 h2, rfl⟩
  · rintro ⟨w, t, h1, h2, rfl⟩
    induction h2 generalizing w with
    | nil => rw [List.append_nil]; exact .one w h1
    | cons n c w' t hc hw ht ih => exact .more n w _ c h1 hc (ih w' hw)

theorem word_iff (w : Str) : Spec.Word w ↔ w ≠ [] ∧ w.all isWordChar = true := by
  simp only [Spec.Word, List.all_eq_true, isWordChar_iff]

theorem sep_iff (c : Char) : (c = '-' || c = '_') = true ↔ c ∈ "-_".toList := by
  have : "-_".toList = ['-', '_'] := rfl
  rw [this]; simp

theorem wordsAhead_iff (n : Nat) (s : Str) (hs : HeadNot isWordChar s) (k : Nat) :
    wordsAhead n s = some k ↔ ∃ t post, s = t ++ post ∧ t.length = k ∧ MoreWords n t ∧ HeadNot isWordChar post ∧ Spec.BeforeExt post := by
  induction n generalizing s k with
  | zero =>
    rw [wordsAhead]
    constructor
    · intro h
      split at h
      · rename_i he
        cases h
        exact ⟨[], s, rfl, rfl, .nil, hs, (extAhead_iff s).1 he⟩
      · simp at h
    · rintro ⟨t, post, rfl, rfl, hm, -, hb⟩
      cases hm
      rw [List.nil_append, if_pos ((extAhead_iff post).2 hb)]
      rfl
  | succ n ih =>
    cases s with
    | nil =>
      simp only [wordsAhead, false_iff, reduceCtorEq]
      rintro ⟨t, post, h, -, hm, -⟩
      cases hm
      simp at h
    | cons c r =>
      rw [wordsAhead]
      have hr : r = r.takeWhile isWordChar ++ r.dropWhile isWordChar := List.takeWhile_append_dropWhile.symm
      have h1 := takeWhile_all isWordChar r
      have h2 := headNot_dropWhile isWordChar r
      have h3 : r.drop (r.takeWhile isWordChar).length = r.dropWhile isWordChar := by
        conv_lhs => rw [hr]
        rw [List.takeWhile_append_dropWhile, hr, List.drop_append_of_le_length]
        all_goals simp
      simp only [h3]
      clear h3
      generalize r.takeWhile isWordChar = run at *
      generalize r.dropWhile isWordChar = rest at *
      subst hr
      constructor
      · intro h
        split at h
        · rename_i hc
          rw [Bool.and_eq_true, sep_iff, decide_eq_true_eq, ne_eq, List.length_eq_zero_iff] at hc
          rw [Option.map_eq_some_iff] at h
          obtain ⟨j, hj, rfl⟩ := h
          obtain ⟨t, post, rfl, rfl, hm, hh, hb⟩ := (ih rest h2 j).1 hj
          exact ⟨c :: run ++ t, post, by simp, by simp; omega, .cons n c run t hc.1 ((word_iff _).2 ⟨hc.2, h1⟩) hm, hh, hb⟩
        · simp at h
      · rintro ⟨t, post, he, rfl, hm, hh, hb⟩
        cases hm with
        | cons _ c' w t hc hw ht =>
          simp only [List.cons_append, List.cons.injEq, List.append_assoc] at he
          obtain ⟨rfl, he⟩ := he
          have hhead : HeadNot isWordChar (t ++ post) := by
            cases ht with
            | nil => exact hh
            | cons m d w' t' hd hw' ht' =>
              intro e u heq
              simp only [List.cons_append, List.cons.injEq] at heq
              rw [← heq.1]
              rcases hd' : isWordChar d with _ | _
              · rfl
              · rw [isWordChar_iff] at hd'
                exfalso
                apply hd'
                have : d ∈ ['-', '_'] := hd
                simp only [List.mem_cons, List.not_mem_nil, or_false] at this
                rcases this with rfl | rfl <;> decide
          obtain ⟨rfl, rfl⟩ := run_unique he h1 h2 ((word_iff w).1 hw).2 hhead
          rw [if_pos]
          · rw [(ih (t ++ post) h2 t.length).2 ⟨t, post, rfl, rfl, ht, hh, hb⟩]
            simp
            omega
          · rw [Bool.and_eq_true, sep_iff, decide_eq_true_eq, ne_eq, List.length_eq_zero_iff]
            exact ⟨hc, hw.1⟩

theorem wordsAhead_closed (n : Nat) (c : Char) (r : Str) (hc : isWordChar c = true) (h : (wordsAhead n (c :: r)).isSome = true) :
    (wordsAhead n r).isSome = true := by
  have hc' : c ≠ '/' ∧ c ≠ '.' ∧ c ≠ '-' ∧ c ≠ '_' := by
    simp only [isWordChar, Bool.and_eq_true, decide_eq_true_eq] at hc
    exact ⟨hc.1.1.1, hc.1.2, hc.2, hc.1.1.2⟩
  cases n with
  | zero =>
    rw [wordsAhead, extAhead_skip c r hc'.1 hc'.2.1] at h
    exact h
  | succ n =>
    simp [wordsAhead, hc'.2.2.1, hc'.2.2.2] at h

theorem matchWord_iff (n : Nat) (path a old post : Str) :
    Spec.WordsIn n path a old post ↔ ∃ w b k, (a, w, b) ∈ finditer (matchWord (n + 1)) [] 0 path ∧ wordsAhead n b = some k ∧
      old = w ++ b.take k ∧ post = b.drop k := by
  have h := fun w b => finditer_runs isWordChar (fun r => (wordsAhead n r).isSome) (wordsAhead_closed n) [] path a w b
  have hmw : matchWord (n + 1) = fun s => greedyMatch isWordChar (fun r => (wordsAhead n r).isSome) s s.length := rfl
  have hnot : ∀ c : Char, isWordChar c = false ↔ c ∈ "/_.-".toList := fun c => by
    rw [← Bool.not_eq_true, isWordChar_iff, not_not]
  have hl : ∀ a, LastNot isWordChar a ↔ ∀ c ∈ a.getLast?, c ∈ "/_.-".toList := fun a => by simp only [lastNot_iff, hnot]
  have hh : ∀ a, HeadNot isWordChar a ↔ ∀ c ∈ a.head?, c ∈ "/_.-".toList := fun a => by simp only [headNot_iff, hnot]
  constructor
  · rintro ⟨h1, h2, h3, h4, h5⟩
    obtain ⟨w, t, hw, hm, rfl⟩ := (words_iff n old).1 h2
    have hhead : HeadNot isWordChar (t ++ post) := by
      cases hm with
      | nil => exact (hh post).2 h4
      | cons m d w' t' hd hw' ht' =>
        intro e u heq
        simp only [List.cons_append, List.cons.injEq] at heq
        rw [← heq.1, hnot]
        have : d ∈ ['-', '_'] := hd
        simp only [List.mem_cons, List.not_mem_nil, or_false] at this
        rcases this with rfl | rfl <;> decide
    have hwa := (wordsAhead_iff n (t ++ post) hhead t.length).2 ⟨t, post, rfl, rfl, hm, (hh post).2 h4, h5⟩
    refine ⟨w, t ++ post, t.length, ?_, hwa, by simp, by simp⟩
    rw [hmw, h]
    refine ⟨a, by simp, by rw [h1]; simp, hw.1, ((word_iff w).1 hw).2, (hl a).2 h3, hhead, by rw [hwa]; rfl⟩
  · rintro ⟨w, b, k, hf, hk, rfl, rfl⟩
    rw [hmw, h] at hf
    obtain ⟨a', h1, h2, h3, h4, h5, h6, h7⟩ := hf
    rw [List.nil_append] at h1
    subst h1
    obtain ⟨t, post, rfl, rfl, hm, hp, hb⟩ := (wordsAhead_iff n b h6 k).1 hk
    simp only [List.take_left', List.drop_left']
    exact ⟨by rw [h2]; simp, (words_iff n _).2 ⟨w, t, (word_iff w).2 ⟨h3, h4⟩, hm, rfl⟩, (hl a).1 h5, (hh post).1 hp, hb⟩

theorem replaceGo_lit (old new : Str) (c : Char) (hold : old.head? = some c) (a r : Str) (ha : c ∉ a) :
    replaceGo old new 0 (a ++ r) = a ++ replaceGo old new 0 r := by
  induction a with
  | nil => rfl
  | cons d a ih =>
    simp only [List.mem_cons, not_or] at ha
    rw [List.cons_append, replaceGo, if_neg, ih ha.2, List.cons_append]
    cases old with
    | nil => simp at hold
    | cons e old =>
      simp only [List.head?_cons, Option.some.injEq] at hold
      subst hold
      simp [List.isPrefixOf, ha.1]

theorem replaceGo_skip (old new w r : Str) : replaceGo old new w.length (w ++ r) = replaceGo old new 0 r := by
  induction w with
  | nil => rfl
  | cons c w ih => rw [List.length_cons, List.cons_append, replaceGo, ih]

theorem replaceGo_hit (old new r : Str) (hold : old ≠ []) : replaceGo old new 0 (old ++ r) = new ++ replaceGo old new 0 r := by
  cases old with
  | nil => exact absurd rfl hold
  | cons c old =>
    rw [List.cons_append, replaceGo, if_pos]
    · simp only [List.length_cons, Nat.add_sub_cancel]
      rw [replaceGo_skip]
    · rw [← List.cons_append]; simp

theorem replaceGo_nil (old new : Str) : replaceGo old new 0 [] = [] := rfl

theorem productRepeat_mem (words : List Str) (n : Nat) (l : List Str) :
    l ∈ productRepeat words n ↔ l.length = n ∧ ∀ w ∈ l, w ∈ words := by
  induction n generalizing l with
  | zero => simp [productRepeat, List.length_eq_zero_iff]; rintro rfl; simp
  | succ n ih =>
    simp only [productRepeat, List.mem_flatMap, List.mem_map, ih]
    constructor
    · rintro ⟨w, hw, l', ⟨h1, h2⟩, rfl⟩
      refine ⟨by simp [h1], fun x hx => ?_⟩
      rcases List.mem_cons.1 hx with rfl | hx
      · exact hw
      · exact h2 x hx
    · rintro ⟨h1, h2⟩
      cases l with
      | nil => simp at h1
      | cons w l =>
        exact ⟨w, h2 w List.mem_cons_self, l, ⟨by simpa using h1, fun x hx => h2 x (List.mem_cons_of_mem _ hx)⟩, rfl⟩

theorem sepFormats (sep : Char) (k : Nat) (r : Str) :
    replaceGo "{sep}".toList [sep] 0 ((List.replicate k "{sep}%s".toList).flatten ++ r) =
      (List.replicate k (sep :: "%s".toList)).flatten ++ replaceGo "{sep}".toList [sep] 0 r := by
  induction k with
  | zero => rfl
  | succ k ih =>
    rw [List.replicate_succ, List.flatten_cons, List.replicate_succ, List.flatten_cons]
    have : "{sep}%s".toList = "{sep}".toList ++ "%s".toList := by decide +kernel
    rw [this, List.append_assoc, List.append_assoc, replaceGo_hit _ _ _ (by decide +kernel),
      replaceGo_lit _ _ '{' (by decide +kernel) _ _ (by decide +kernel)]
    rw [this] at ih
    rw [ih]
    simp

theorem fmtGo_words (sep : Char) (hsep : sep ≠ '%') (ws : List Str) (r : Str) (hr : '%' ∉ r) :
    fmtGo none ((List.replicate ws.length (sep :: "%s".toList)).flatten ++ r) (ws.map .str) = .ok ((ws.map (sep :: ·)).flatten ++ r) := by
  induction ws with
  | nil => simpa using fmtGo_nil r hr
  | cons w ws ih =>
    rw [List.length_cons, List.replicate_succ, List.flatten_cons, List.map_cons]
    have e : (sep :: "%s".toList) ++ (List.replicate ws.length (sep :: "%s".toList)).flatten ++ r =
        [sep] ++ '%' :: 's' :: ((List.replicate ws.length (sep :: "%s".toList)).flatten ++ r) := by
      simp
    rw [e, fmtGo_lit _ _ _ (by simpa using Ne.symm hsep), fmtGo_s, ih]
    simp [Except.map]

theorem join_sep (sep : Char) (w : Str) (ws : List Str) : join [sep] (w :: ws) = w ++ (ws.map (sep :: ·)).flatten := by
  induction ws generalizing w with
  | nil => simp [join]
  | cons v ws ih => rw [join, ih]; simp

/-- `substitute_basename_words`: in basenames, before an extension, `nold` consecutive words are replaced by any `nnew` words separated by
`-` or `_`. Zero words are refused. -/
theorem C56_words (H : Str → Int) (g : Guesser) (hg : Reached H g) (paths words : List Str) (nold nnew : Nat)
    (hp : ∀ p ∈ paths, '%' ∉ p ∧ '{' ∉ p) :
    ((nold = 0 ∨ nnew = 0) → g.substituteWords H paths words nold nnew = (g, .error .value)) ∧
    (nold ≠ 0 → nnew ≠ 0 → ∃ g', g.substituteWords H paths words nold nnew = (g', .ok ()) ∧
      Spec.Guesses H g g' (fun q => ∃ path ∈ paths, ∃ a old b, Spec.WordsIn (nold - 1) path a old b ∧
        ∃ ws sep, ws.length = nnew ∧ (∀ w ∈ ws, w ∈ words) ∧ sep ∈ "-_".toList ∧ q = a ++ join [sep] ws ++ b)) := by
  constructor
  · intro h
    unfold Guesser.substituteWords
    rw [if_pos]
    rcases h with rfl | rfl <;> simp
  intro h1 h2
  obtain ⟨n, rfl⟩ := Nat.exists_eq_succ_of_ne_zero h1
  obtain ⟨m, rfl⟩ := Nat.exists_eq_succ_of_ne_zero h2
  simp only [Nat.succ_eq_add_one, Nat.add_sub_cancel]
  unfold Guesser.substituteWords
  rw [if_neg (by simp)]
  -- a format
  have hfm : ∀ fmt, fmt ∈ paths.flatMap (wordFormats (n + 1) (m + 1)) ↔ ∃ path ∈ paths, ∃ a old b sep,
      Spec.WordsIn n path a old b ∧ sep ∈ "-_".toList ∧ fmt = a ++ "%s".toList ++ (List.replicate m (sep :: "%s".toList)).flatten ++ b := by
    intro fmt
    have hrep : ∀ path ∈ paths, ∀ a w b k (sep : Char), (a, w, b) ∈ finditer (matchWord (n + 1)) [] 0 path → wordsAhead n b = some k →
        replaceGo "{sep}".toList [sep] 0 (a ++ "%s".toList ++ (List.replicate m "{sep}%s".toList).flatten ++ b.drop k) =
          a ++ "%s".toList ++ (List.replicate m (sep :: "%s".toList)).flatten ++ b.drop k := by
      intro path hpath a w b k sep hm hk
      have hw := (matchWord_iff n path a _ _).2 ⟨w, b, k, hm, hk, rfl, rfl⟩
      have hp' := (hp path hpath).2
      rw [hw.eq] at hp'
      simp only [List.mem_append, not_or] at hp'
      have e1 : replaceGo "{sep}".toList [sep] 0 (b.drop k) = b.drop k := by
        have := replaceGo_lit "{sep}".toList [sep] '{' (by decide +kernel) (b.drop k) [] hp'.2
        simpa [replaceGo_nil] using this
      rw [List.append_assoc, List.append_assoc, replaceGo_lit _ _ '{' (by decide +kernel) _ _ hp'.1.1,
        replaceGo_lit _ _ '{' (by decide +kernel) _ _ (by decide +kernel), sepFormats, e1]
      simp only [List.append_assoc]
    simp only [List.mem_flatMap, wordFormats, List.mem_map, Nat.add_sub_cancel]
    constructor
    · rintro ⟨path, hpath, ⟨a, w, b⟩, hm, sep, hsep, rfl⟩
      have hsome : ∃ k, wordsAhead n b = some k := by
        have := (finditer_runs isWordChar (fun r => (wordsAhead n r).isSome) (wordsAhead_closed n) [] path a w b).1 hm
        obtain ⟨-, -, -, -, -, -, -, h⟩ := this
        exact Option.isSome_iff_exists.1 h
      obtain ⟨k, hk⟩ := hsome
      simp only [hk, Option.getD_some]
      rw [hrep path hpath a w b k sep hm hk]
      exact ⟨path, hpath, a, _, _, sep, (matchWord_iff n path a _ _).2 ⟨w, b, k, hm, hk, rfl, rfl⟩, hsep, rfl⟩
    · rintro ⟨path, hpath, a, old, post, sep, hw, hsep, rfl⟩
      obtain ⟨w, b, k, hm, hk, rfl, rfl⟩ := (matchWord_iff n path a _ _).1 hw
      refine ⟨path, hpath, (a, w, b), hm, sep, hsep, ?_⟩
      simp only [hk, Option.getD_some]
      rw [hrep path hpath a w b k sep hm hk]
  have hfo : ∀ path ∈ paths, ∀ a old b, Spec.WordsIn n path a old b → ∀ sep ∈ "-_".toList, ∀ w ws, ws.length = m →
      pyFormat (a ++ "%s".toList ++ (List.replicate m (sep :: "%s".toList)).flatten ++ b) ((w :: ws).map .str) =
        .ok (a ++ join [sep] (w :: ws) ++ b) := by
    intro path hpath a old b hw sep hsep w ws hlen
    have hp' := (hp path hpath).1
    rw [hw.eq] at hp'
    simp only [List.mem_append, not_or] at hp'
    have hs : sep ≠ '%' := by
      rintro rfl
      exact absurd hsep (by decide)
    have e : a ++ "%s".toList ++ (List.replicate m (sep :: "%s".toList)).flatten ++ b =
        a ++ '%' :: 's' :: ((List.replicate ws.length (sep :: "%s".toList)).flatten ++ b) := by
      rw [hlen]; simp
    rw [pyFormat, e, fmtGo_lit a _ _ hp'.1.1, List.map_cons, fmtGo_s, fmtGo_words sep hs ws b hp'.2, join_sep]
    simp [Except.map]
  refine checkFormats_guesses H g hg.inv.1 _ _ _ ?_ fun q => ?_
  · intro fmt hfmt args hargs
    obtain ⟨path, hpath, a, old, b, sep, hw, hsep, rfl⟩ := (hfm fmt).1 hfmt
    obtain ⟨l, hl, rfl⟩ := List.mem_map.1 hargs
    obtain ⟨h3, h4⟩ := (productRepeat_mem words (m + 1) l).1 hl
    cases l with
    | nil => simp at h3
    | cons w ws => exact ⟨_, hfo path hpath a old b hw sep hsep w ws (by simpa using h3)⟩
  · constructor
    · rintro ⟨fmt, hfmt, args, hargs, hq⟩
      obtain ⟨path, hpath, a, old, b, sep, hw, hsep, rfl⟩ := (hfm fmt).1 hfmt
      obtain ⟨l, hl, rfl⟩ := List.mem_map.1 hargs
      obtain ⟨h3, h4⟩ := (productRepeat_mem words (m + 1) l).1 hl
      cases l with
      | nil => simp at h3
      | cons w ws =>
        rw [hfo path hpath a old b hw sep hsep w ws (by simpa using h3)] at hq
        cases hq
        exact ⟨path, hpath, a, old, b, hw, w :: ws, sep, h3, h4, hsep, rfl⟩
    · rintro ⟨path, hpath, a, old, b, hw, ws, sep, h3, h4, hsep, rfl⟩
      refine ⟨_, (hfm _).2 ⟨path, hpath, a, old, b, sep, hw, hsep, rfl⟩, _, List.mem_map_of_mem ((productRepeat_mem words (m + 1) ws).2 ⟨h3, h4⟩), ?_⟩
      cases ws with
      | nil => simp at h3
      | cons w ws => exact hfo path hpath a old b hw sep hsep w ws (by simpa using h3)

/-- `add_basename_word`: a word is added before or after each word of basenames, before an extension. -/
theorem C56_add (H : Str → Int) (g : Guesser) (hg : Reached H g) (paths words : List Str) (hp : ∀ p ∈ paths, '%' ∉ p) :
    ∃ g', g.addWord H paths words = (g', .ok ()) ∧
      Spec.Guesses H g g' (fun q => ∃ path ∈ paths, ∃ a old b, Spec.WordsIn 0 path a old b ∧ ∃ w ∈ words, ∃ sep ∈ "-_".toList,
        q = a ++ w ++ [sep] ++ old ++ b ∨ q = a ++ old ++ [sep] ++ w ++ b) := by
  have hm0 : ∀ path a w b, (a, w, b) ∈ finditer (matchWord 1) [] 0 path ↔ Spec.WordsIn 0 path a w b := by
    intro path a w b
    rw [matchWord_iff]
    constructor
    · intro hm
      have := (finditer_runs isWordChar (fun r => (wordsAhead 0 r).isSome) (wordsAhead_closed 0) [] path a w b).1 hm
      obtain ⟨-, -, -, -, -, -, -, h⟩ := this
      have hk : wordsAhead 0 b = some 0 := by
        simp only [wordsAhead] at h ⊢
        split at h
        · rename_i he; rw [if_pos he]
        · simp at h
      exact ⟨w, b, 0, hm, hk, by simp, by simp⟩
    · rintro ⟨w', b', k, hm, hk, rfl, rfl⟩
      have : k = 0 := by
        simp only [wordsAhead] at hk
        split at hk
        · cases hk; rfl
        · simp at hk
      subst this
      simpa using hm
  have hparts : ∀ path ∈ paths, ∀ a w b, Spec.WordsIn 0 path a w b → '%' ∉ a ∧ '%' ∉ w ∧ '%' ∉ b := by
    intro path hpath a w b hw
    have hp' := hp path hpath
    rw [hw.eq] at hp'
    simp only [List.mem_append, not_or] at hp'
    exact ⟨hp'.1.1, hp'.1.2, hp'.2⟩
  have hs : ∀ sep ∈ "-_".toList, '%' ∉ [sep] := by
    intro sep hsep h
    simp only [List.mem_singleton] at h
    subst h
    exact absurd hsep (by decide)
  have hf1 : ∀ path ∈ paths, ∀ a w b, Spec.WordsIn 0 path a w b → ∀ sep ∈ "-_".toList, ∀ x,
      pyFormat (a ++ "%s".toList ++ [sep] ++ (w ++ b)) [.str x] = .ok (a ++ x ++ [sep] ++ w ++ b) := by
    intro path hpath a w b hw sep hsep x
    obtain ⟨h1, h2, h3⟩ := hparts path hpath a w b hw
    have e : a ++ "%s".toList ++ [sep] ++ (w ++ b) = a ++ '%' :: 's' :: ([sep] ++ w ++ b) := by simp
    rw [pyFormat, e, fmtGo_lit a _ _ h1, fmtGo_s, fmtGo_nil]
    · simp [Except.map]
    · simp only [List.mem_append, not_or]
      exact ⟨⟨hs sep hsep, h2⟩, h3⟩
  have hf2 : ∀ path ∈ paths, ∀ a w b, Spec.WordsIn 0 path a w b → ∀ sep ∈ "-_".toList, ∀ x,
      pyFormat (a ++ w ++ [sep] ++ "%s".toList ++ b) [.str x] = .ok (a ++ w ++ [sep] ++ x ++ b) := by
    intro path hpath a w b hw sep hsep x
    obtain ⟨h1, h2, h3⟩ := hparts path hpath a w b hw
    have e : a ++ w ++ [sep] ++ "%s".toList ++ b = (a ++ w ++ [sep]) ++ '%' :: 's' :: b := by simp
    rw [pyFormat, e, fmtGo_lit _ _ _ (by simp only [List.mem_append, not_or]; exact ⟨⟨h1, h2⟩, hs sep hsep⟩), fmtGo_s, fmtGo_nil b h3]
    simp [Except.map]
  refine checkFormats_guesses H g hg.inv.1 _ _ _ ?_ fun q => ?_
  · intro fmt hfmt args hargs
    simp only [List.mem_flatMap, addFormats, List.mem_append, List.mem_map] at hfmt hargs
    obtain ⟨x, hx, rfl⟩ := hargs
    obtain ⟨path, hpath, ⟨a, w, b⟩, hm, ⟨sep, hsep, rfl⟩ | ⟨sep, hsep, rfl⟩⟩ := hfmt
    · exact ⟨_, hf1 path hpath a w b ((hm0 path a w b).1 hm) sep hsep x⟩
    · exact ⟨_, hf2 path hpath a w b ((hm0 path a w b).1 hm) sep hsep x⟩
  · simp only [List.mem_flatMap, addFormats, List.mem_append, List.mem_map]
    constructor
    · rintro ⟨fmt, ⟨path, hpath, ⟨a, w, b⟩, hm, ⟨sep, hsep, rfl⟩ | ⟨sep, hsep, rfl⟩⟩, _, ⟨x, hx, rfl⟩, hq⟩
      · rw [hf1 path hpath a w b ((hm0 path a w b).1 hm) sep hsep x] at hq
        cases hq
        exact ⟨path, hpath, a, w, b, (hm0 path a w b).1 hm, x, hx, sep, hsep, .inl rfl⟩
      · rw [hf2 path hpath a w b ((hm0 path a w b).1 hm) sep hsep x] at hq
        cases hq
        exact ⟨path, hpath, a, w, b, (hm0 path a w b).1 hm, x, hx, sep, hsep, .inr rfl⟩
    · rintro ⟨path, hpath, a, w, b, hw, x, hx, sep, hsep, rfl | rfl⟩
      · exact ⟨_, ⟨path, hpath, (a, w, b), (hm0 path a w b).2 hw, .inl ⟨sep, hsep, rfl⟩⟩, _, ⟨x, hx, rfl⟩, hf1 path hpath a w b hw sep hsep x⟩
      · exact ⟨_, ⟨path, hpath, (a, w, b), (hm0 path a w b).2 hw, .inr ⟨sep, hsep, rfl⟩⟩, _, ⟨x, hx, rfl⟩, hf2 path hpath a w b hw sep hsep x⟩

/-! ## Paths with a percent sign -/

theorem checkFormats_error (H : Str → Int) (args : List (List FArg)) (fmts : List Str) (g : Guesser) (fmt : Str) (hf : fmt ∈ fmts)
    (a : List FArg) (ha : a ∈ args) (e : Err) (he : pyFormat fmt a = .error e) : ∃ e', (g.checkFormats H args fmts).2 = .error e' := by
  induction fmts generalizing g with
  | nil => simp at hf
  | cons f fmts ih =>
    rw [Guesser.checkFormats]
    rcases hr : g.checkGen H (args.map (pyFormat f)) with ⟨g', _ | _⟩
    · exact ⟨_, rfl⟩
    · simp only
      rcases List.mem_cons.1 hf with rfl | hf
      · exfalso
        have : ∀ (l : List (Res Str)) (g : Guesser), .error e ∈ l → ∀ g', g.checkGen H l ≠ (g', .ok ()) := by
          intro l
          induction l with
          | nil => simp
          | cons x l ihl =>
            intro g hx g' hg'
            cases x with
            | error e => simp [Guesser.checkGen] at hg'
            | ok p =>
              simp only [List.mem_cons, reduceCtorEq, false_or] at hx
              exact ihl _ hx g' hg'
        exact this _ g (he ▸ List.mem_map_of_mem ha) g' hr
      · exact ih g' hf

/-- A path with a percent sign before a slash, for instance, makes the whole method fail, if there is a number to replace. -/
theorem C56_percent (H : Str → Int) (g : Guesser) (paths : List Str) (nmax : Nat) (hn : nmax ≠ 0) (u r a d b : Str)
    (hp : u ++ '%' :: '/' :: r ∈ paths) (hu : '%' ∉ u) (hd : Spec.NumberIn r a d b) :
    ∃ e, (g.substituteNumbers H paths nmax .none).2 = .error e := by
  have hin : Spec.NumberIn (u ++ '%' :: '/' :: r) (u ++ '%' :: '/' :: a) d b := by
    refine ⟨by rw [hd.eq]; simp, hd.nonempty, hd.digits, ?_, hd.right, hd.ext⟩
    intro c hc
    rcases List.eq_nil_or_concat a with rfl | ⟨l, e, rfl⟩
    · simp at hc; subst hc; unfold Spec.Digit; decide
    · refine hd.left c ?_
      rw [show u ++ '%' :: '/' :: l.concat e = (u ++ '%' :: '/' :: l) ++ [e] by simp, List.getLast?_concat] at hc
      simpa using hc
  refine checkFormats_error H _ _ g (u ++ '%' :: '/' :: a ++ "%d".toList ++ b) ?_ [.int 0] ?_ .value ?_
  · simp only [sortedSet, (List.perm_insertionSort _ _).mem_iff, List.mem_dedup, List.mem_flatMap, DigitsArg.count, numberFormats,
      List.mem_map]
    exact ⟨_, hp, (_, d, b), (matchNumber_iff _ _ _ _).2 hin, rfl⟩
  · simp only [List.mem_map, List.mem_range]
    exact ⟨0, by omega, rfl⟩
  · have e : u ++ '%' :: '/' :: a ++ "%d".toList ++ b = u ++ '%' :: '/' :: (a ++ "%d".toList ++ b) := by simp
    rw [pyFormat, e, fmtGo_lit u _ _ hu]
    simp only [fmtGo]
    rw [if_pos trivial, if_neg (by decide), if_neg (by decide), if_neg (by decide), if_neg (by decide)]
    rfl

/-! ## Examples -/

/-- A number and two words in a basename; digits of directories and of the last extension are not concerned. -/
example : Spec.NumberIn "a1/b23_c.x4".toList "a1/b".toList "23".toList "_c.x4".toList ∧
    Spec.WordsIn 1 "a/b_c-d.e".toList "a/b_".toList "c-d".toList ".e".toList := by
  refine ⟨⟨by decide +kernel, by decide, by unfold Spec.Digit; decide +kernel, by unfold Spec.Digit; decide +kernel, by unfold Spec.Digit; decide +kernel,
    by decide +kernel, "_c".toList, "x4".toList, by decide +kernel, by decide⟩,
    ⟨by decide +kernel, .more 0 "c".toList "d".toList '-' (by unfold Spec.Word; decide +kernel) (by decide) (.one _ (by unfold Spec.Word; decide +kernel)), by decide +kernel, by decide +kernel,
    by decide +kernel, [], "e".toList, by decide +kernel, by decide⟩⟩

/-- The hypotheses are met, and what is found for hashes being lengths -/
example : let H : Str → Int := fun s => s.length
    let g := Guesser.init [(1, "a1/b2.txt".toList), (2, "c_d.js".toList)] [7, 8, 10, 12]
    (g.substituteNumbers H g.known.values 11 .none).1.known.get? 10 = some "a1/b10.txt".toList ∧
    (g.substituteNumbers H g.known.values 200 (.fixed 1)).1.known.get? 10 = some "a1/b10.txt".toList ∧
    (g.substituteWords H g.known.values ["xy".toList] 2 1).1.known.get? 8 = none ∧
    (g.substituteWords H g.known.values ["xy".toList] 1 1).1.known.get? 7 = some "xy_d.js".toList ∧
    (g.addWord H g.known.values ["q".toList]).1.known.get? 8 = some "q-c_d.js".toList := by decide +kernel

end Cdtb
