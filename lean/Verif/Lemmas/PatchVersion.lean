import Verif.Lemmas.Regex
import Verif.Lemmas.Subst
import Verif.Lemmas.Version
import Verif.Model.PatchVersion
import Verif.Spec.PatchVersion
/-! Lemmas about the version found in a text, for C60. -/
namespace Cdtb
set_option autoImplicit false
open Py Spec

/-! ## Lines of a text -/

theorem textLines_total : ∀ text : Str, ∃ ls, TextLines text ls
  | [] => ⟨[], .nil⟩
  | c :: r => by
    obtain ⟨ls, h⟩ := textLines_total r
    by_cases hc : c = '\n'
    · subst hc
      exact ⟨_, TextLines.cons (l := []) (eol := ['\n']) (by simp) (by simp) (by simp) (by simp) h⟩
    · by_cases hr : c = '\r'
      · subst hr
        cases r with
        | nil => exact ⟨_, TextLines.cons (l := []) (eol := ['\r']) (by simp) (by simp) (by simp) (by simp) .nil⟩
        | cons c' r' =>
          by_cases hc' : c' = '\n'
          · subst hc'
            obtain ⟨ls', h'⟩ := textLines_total r'
            exact ⟨_, TextLines.cons (l := []) (eol := ['\r', '\n']) (by simp) (by simp) (by simp) (by simp) h'⟩
          · exact ⟨_, TextLines.cons (l := []) (eol := ['\r']) (by simp) (by simp) (by simp) (by simpa using hc') h⟩
      · cases h with
        | nil => exact ⟨_, .last (l := [c]) (by simp) (by simpa using Ne.symm hc) (by simpa using Ne.symm hr)⟩
        | last h1 h2 h3 =>
          exact ⟨_, .last (l := c :: r) (by simp) (by simp [h2, Ne.symm hc]) (by simp [h3, Ne.symm hr])⟩
        | @cons l eol rest ls' h1 h2 h3 h4 h5 =>
          exact ⟨_, TextLines.cons (l := c :: l) (eol := eol) (rest := rest) (by simp [h1, Ne.symm hc]) (by simp [h2, Ne.symm hr]) h3 h4 h5⟩
termination_by s => s.length

theorem universal_plain {l : Str} (h : '\r' ∉ l) (r : Str) : universalNewlines (l ++ r) = l ++ universalNewlines r := by
  induction l with
  | nil => rfl
  | cons c l ih =>
    simp only [List.mem_cons, not_or] at h
    rw [List.cons_append, universalNewlines.eq_def]
    split
    · rename_i he; simp at he
    · rename_i he; simp only [List.cons.injEq] at he; exact absurd he.1.symm h.1
    · rename_i _ c' r' _ he
      simp only [List.cons.injEq] at he
      obtain ⟨rfl, rfl⟩ := he
      rw [ih h.2, if_neg (Ne.symm h.1)]; rfl

theorem universal_eol {eol rest : Str} (h : eol ∈ [['\n'], ['\r', '\n'], ['\r']]) (hr : eol = ['\r'] → ∀ r, rest ≠ '\n' :: r) :
    universalNewlines (eol ++ rest) = '\n' :: universalNewlines rest := by
  simp only [List.mem_cons, List.not_mem_nil, or_false] at h
  rcases h with rfl | rfl | rfl
  · rw [List.cons_append, universalNewlines.eq_def]
    split
    · rename_i he; simp at he
    · rename_i he; simp at he
    · rename_i he; simp only [List.cons.injEq] at he; obtain ⟨rfl, rfl⟩ := he; simp
  · rfl
  · rw [List.cons_append, universalNewlines.eq_def]
    split
    · rename_i he; simp at he
    · rename_i he
      simp only [List.cons.injEq, List.nil_append, true_and] at he
      exact absurd he (hr rfl _)
    · rename_i he; simp only [List.cons.injEq] at he; obtain ⟨rfl, rfl⟩ := he; simp

theorem fileLines_line {l : Str} (h : '\n' ∉ l) (r : Str) : fileLines (l ++ '\n' :: r) = (l ++ ['\n']) :: fileLines r := by
  induction l with
  | nil => simp [fileLines]
  | cons c l ih =>
    simp only [List.mem_cons, not_or] at h
    rw [List.cons_append, fileLines, if_neg (Ne.symm h.1), ih h.2]; rfl

theorem fileLines_last {l : Str} (h : '\n' ∉ l) (hl : l ≠ []) : fileLines l = [l] := by
  induction l with
  | nil => exact absurd rfl hl
  | cons c l ih =>
    simp only [List.mem_cons, not_or] at h
    rw [fileLines, if_neg (Ne.symm h.1)]
    cases l with
    | nil => rfl
    | cons c' l => rw [ih h.2 (by simp)]

/-- Iterating on a text file gives its lines, with or without a final line feed. -/
theorem fileLines_textLines {text : Str} {ls : List Str} (h : TextLines text ls) :
    List.Forall₂ (fun x l => '\n' ∉ l ∧ (x = l ++ ['\n'] ∨ x = l)) (fileLines (universalNewlines text)) ls := by
  induction h with
  | nil => exact .nil
  | @last l h1 h2 h3 =>
    have := universal_plain h3 []
    simp only [List.append_nil, universalNewlines] at this
    rw [this, fileLines_last h2 h1]
    exact .cons ⟨h2, Or.inr rfl⟩ .nil
  | @cons l eol rest ls h1 h2 h3 h4 h5 ih =>
    rw [List.append_assoc, universal_plain h2, universal_eol h3 h4, fileLines_line h1]
    exact .cons ⟨h1, Or.inl rfl⟩ ih

/-! ## The line of a branch -/

theorem isDig_mem (c : Char) : isDig c = true ↔ c ∈ "0123456789".toList := by
  have e : "0123456789".toList = ['0', '1', '2', '3', '4', '5', '6', '7', '8', '9'] := by decide +kernel
  rw [e]
  constructor
  · intro h
    simp only [isDig, Bool.and_eq_true, decide_eq_true_eq] at h
    have h0 : '0'.toNat = 48 := rfl
    have h9 : '9'.toNat = 57 := rfl
    rw [h0, h9] at h
    have hc : c = Char.ofNat c.toNat := (Char.ofNat_toNat c).symm
    obtain ⟨h1, h2⟩ := h
    generalize c.toNat = n at *
    subst hc
    interval_cases n <;> decide
  · intro h
    simp only [List.mem_cons, List.not_mem_nil, or_false] at h
    rcases h with rfl | rfl | rfl | rfl | rfl | rfl | rfl | rfl | rfl | rfl <;> decide

theorem isVersionChar_iff (c : Char) : isVersionChar c = true ↔ c ∈ "0123456789.".toList := by
  have e : "0123456789.".toList = "0123456789".toList ++ ['.'] := by decide +kernel
  rw [e, List.mem_append, ← isDig_mem]
  simp [isVersionChar]

theorem versionChar_props : ∀ c ∈ "0123456789.".toList, c ≠ '\n' ∧ c ≠ '\r' ∧ isSpace c = false ∧ isQuote c = false ∧ c ≠ '/' := by
  decide +kernel

theorem quoteEnd_iff (s : Str) : quoteEnd s = true ↔ ∃ close nl, s = close ++ nl ∧ (close = [] ∨ close = ['"'] ∨ close = ['\'']) ∧
    (nl = [] ∨ nl = ['\n']) := by
  constructor
  · intro h
    cases s with
    | nil => exact ⟨[], [], rfl, Or.inl rfl, Or.inl rfl⟩
    | cons c r =>
      simp only [quoteEnd, atEnd, isQuote, Bool.or_eq_true, Bool.and_eq_true, decide_eq_true_eq] at h
      rcases h with (h | h) | ⟨h | h, h' | h'⟩
      · simp at h
      · exact ⟨[], _, rfl, Or.inl rfl, Or.inr h⟩
      · exact ⟨['"'], [], by simp [h, h'], by simp, by simp⟩
      · exact ⟨['"'], ['\n'], by simp [h, h'], by simp, by simp⟩
      · exact ⟨['\''], [], by simp [h, h'], by simp, by simp⟩
      · exact ⟨['\''], ['\n'], by simp [h, h'], by simp, by simp⟩
  · rintro ⟨close, nl, rfl, h1 | h1 | h1, h2 | h2⟩ <;> subst h1 <;> subst h2 <;> decide

/-- What is matched after `branch: `, with a text before the quote -/
def BranchEnd (s v : Str) : Prop :=
  ∃ (q : Char) (close nl : Str), s = q :: v ++ close ++ nl ∧ (q = '"' ∨ q = '\'' ∨ q = '/') ∧
    (close = [] ∨ close = ['"'] ∨ close = ['\'']) ∧ (nl = [] ∨ nl = ['\n']) ∧ v ≠ [] ∧ ∀ c ∈ v, c ∈ "0123456789.".toList

theorem matchBranchEnd_iff (s v : Str) : matchBranchEnd s = some v ↔ BranchEnd s v := by
  constructor
  · intro h
    cases s with
    | nil => simp [matchBranchEnd] at h
    | cons q r =>
      simp only [matchBranchEnd] at h
      split at h
      · rename_i hq
        split at h
        · rename_i hv
          simp only [Option.some.injEq] at h
          simp only [Bool.and_eq_true, Bool.not_eq_true', List.isEmpty_eq_false_iff] at hv
          obtain ⟨close, nl, h1, h2, h3⟩ := (quoteEnd_iff _).1 hv.2
          refine ⟨q, close, nl, ?_, ?_, h2, h3, h ▸ hv.1, ?_⟩
          · rw [← h, List.append_assoc, ← h1, List.cons_append, List.takeWhile_append_dropWhile]
          · simpa [isQuote, or_assoc] using hq
          · intro c hc
            rw [← h] at hc
            exact (isVersionChar_iff c).1 (List.all_eq_true.1 (takeWhile_all isVersionChar r) c hc)
        · simp at h
      · simp at h
  · rintro ⟨q, close, nl, rfl, hq, hclose, hnl, hv, hvc⟩
    have hb : HeadNot isVersionChar (close ++ nl) := by
      rcases hclose with rfl | rfl | rfl <;> rcases hnl with rfl | rfl <;> simp [HeadNot] <;> decide
    have ha : v.all isVersionChar = true := List.all_eq_true.2 fun c hc => (isVersionChar_iff c).2 (hvc c hc)
    obtain ⟨h1, h2⟩ := takeWhile_run ha hb
    have hq' : (isQuote q || decide (q = '/')) = true := by simpa [isQuote, or_assoc] using hq
    rw [List.cons_append, List.cons_append, matchBranchEnd, if_pos hq', List.append_assoc]
    simp only [h1, h2]
    rw [if_pos]
    simp only [Bool.and_eq_true, Bool.not_eq_true', List.isEmpty_eq_false_iff]
    exact ⟨hv, (quoteEnd_iff _).2 ⟨close, nl, rfl, hclose, hnl⟩⟩

theorem matchBranch_some {s v : Str} (h : matchBranch s = some v) : ∃ text t, s = text ++ t ∧ '\n' ∉ text ∧ BranchEnd t v := by
  induction s with
  | nil => simp [matchBranch] at h
  | cons c r ih =>
    simp only [matchBranch] at h
    split at h
    · rename_i x hx
      split at hx
      · simp at hx
      · rename_i hc
        simp only [Option.some.injEq] at h
        obtain ⟨text, t, h1, h2, h3⟩ := ih (h ▸ hx)
        exact ⟨c :: text, t, by rw [h1]; rfl, by simp [h2, Ne.symm hc], h3⟩
    · exact ⟨[], c :: r, rfl, by simp, (matchBranchEnd_iff _ _).1 h⟩

/-- No quote or slash followed by a version after the version. -/
theorem branchEnd_tail {q : Char} {r v : Str} (h : BranchEnd (q :: r) v) : matchBranch r = none := by
  obtain ⟨q', close, nl, he, hq, hclose, hnl, hv, hvc⟩ := h
  simp only [List.cons_append, List.cons.injEq] at he
  obtain ⟨rfl, rfl⟩ := he
  rw [Option.eq_none_iff_forall_ne_some]
  intro x hx
  obtain ⟨text, t, h1, h2, q2, close2, nl2, rfl, hq2, hclose2, hnl2, hx0, hxc⟩ := matchBranch_some hx
  -- the version is followed by at most a quote and a line feed
  have hlen : (close ++ nl).length ≤ 2 := by
    rcases hclose with rfl | rfl | rfl <;> rcases hnl with rfl | rfl <;> simp
  have hq2v : q2 ∉ v := by
    intro hm
    have := versionChar_props q2 (hvc q2 hm)
    rcases hq2 with rfl | rfl | rfl
    · simp [isQuote] at this
    · simp [isQuote] at this
    · exact this.2.2.2.2 rfl
  have hle : v.length ≤ text.length := by
    by_contra hlt
    have hlt : text.length < v.length := by omega
    have e1 := congrArg (fun l => l[text.length]?) h1
    simp only [List.append_assoc] at e1
    rw [List.getElem?_append_left hlt, List.getElem?_append_right (Nat.le_refl _)] at e1
    simp only [Nat.sub_self, List.cons_append, List.getElem?_cons_zero] at e1
    exact hq2v (List.mem_of_getElem? e1)
  have e2 : close ++ nl = text.drop v.length ++ (q2 :: x ++ close2 ++ nl2) := by
    have := congrArg (List.drop v.length) h1
    rw [List.append_assoc, List.drop_left, List.drop_append_of_le_length hle] at this
    exact this
  cases x with
  | nil => exact hx0 rfl
  | cons x0 x =>
    have hx0' := versionChar_props x0 (hxc x0 (by simp))
    have e3 := congrArg List.length e2
    simp only [List.length_append, List.length_cons] at e3 hlen
    have hd : text.drop v.length = [] := List.length_eq_zero_iff.1 (by omega)
    rw [hd, List.nil_append] at e2
    rcases hclose with rfl | rfl | rfl <;> rcases hnl with rfl | rfl <;> simp at e2
    · exact hx0'.1 e2.2.1.symm
    · exact hx0'.1 e2.2.1.symm

theorem matchBranch_iff (s v : Str) : matchBranch s = some v ↔ ∃ text t, s = text ++ t ∧ '\n' ∉ text ∧ BranchEnd t v := by
  refine ⟨matchBranch_some, ?_⟩
  rintro ⟨text, t, rfl, h1, h2⟩
  induction text with
  | nil =>
    cases t with
    | nil => obtain ⟨q, _, _, h, _⟩ := h2; simp at h
    | cons q r =>
      simp only [List.nil_append, matchBranch, branchEnd_tail h2, ite_self]
      exact (matchBranchEnd_iff _ _).2 h2
  | cons c text ih =>
    simp only [List.mem_cons, not_or] at h1
    simp only [List.cons_append, matchBranch, if_neg (Ne.symm h1.1), ih h1.2]

theorem yamlLine_iff (s v : Str) : yamlLine s = some v ↔ ∃ (n : Nat) (key text t : Str),
    s = List.replicate n ' ' ++ (key ++ ("branch: ".toList ++ (text ++ t))) ∧ (key = [] ∨ key = "game-".toList) ∧ '\n' ∉ text ∧ BranchEnd t v := by
  have hg : "game-branch: ".toList = "game-".toList ++ "branch: ".toList := by decide +kernel
  constructor
  · intro h
    have hs : s = List.replicate (s.takeWhile (· = ' ')).length ' ' ++ s.dropWhile (· = ' ') := by
      conv_lhs => rw [← List.takeWhile_append_dropWhile (p := (· = ' ')) (l := s)]
      congr 1
      rw [List.eq_replicate_iff]
      refine ⟨rfl, fun c hc => ?_⟩
      simpa using List.all_eq_true.1 (takeWhile_all (· = ' ') s) c hc
    simp only [yamlLine] at h
    split at h
    · rename_i r hr
      rw [afterPrefix_iff, hg] at hr
      obtain ⟨text, t, rfl, h1, h2⟩ := (matchBranch_iff _ _).1 h
      exact ⟨_, "game-".toList, text, t, by rw [← List.append_assoc "game-".toList, ← hr]; exact hs, Or.inr rfl, h1, h2⟩
    · split at h
      · rename_i r hr
        rw [afterPrefix_iff] at hr
        obtain ⟨text, t, rfl, h1, h2⟩ := (matchBranch_iff _ _).1 h
        exact ⟨_, [], text, t, by rw [List.nil_append, ← hr]; exact hs, Or.inl rfl, h1, h2⟩
      · simp at h
  · rintro ⟨n, key, text, t, rfl, hk, h1, h2⟩
    have hm := (matchBranch_iff _ _).2 ⟨text, t, rfl, h1, h2⟩
    have hd : ∀ r : Str, HeadNot (· = ' ') r → (List.replicate n ' ' ++ r).dropWhile (· = ' ') = r :=
      fun r hr => (takeWhile_run (by simp) hr).2
    have hbr : ∀ r : Str, afterPrefix "game-branch: ".toList ("branch: ".toList ++ r) = none := by
      intro r
      rw [afterPrefix_none]
      intro t ht
      have := congrArg List.head? ht
      simp at this
    simp only [yamlLine]
    rcases hk with rfl | rfl
    · rw [List.nil_append, hd _ (by intro c r h; simp at h; simp [← h.1]), hbr, (afterPrefix_iff _ _ _).2 rfl]
      exact hm
    · rw [hd _ (by intro c r h; simp at h; simp [← h.1]), ← List.append_assoc "game-".toList, ← hg, (afterPrefix_iff _ _ _).2 rfl]
      exact hm

/-- The regex on a line, with or without its line feed. -/
theorem yamlLine_branch {x l : Str} (hl : '\n' ∉ l) (hx : x = l ++ ['\n'] ∨ x = l) (v : Str) : yamlLine x = some v ↔ BranchLine l v := by
  have hb : '\n' ∉ "branch: ".toList := by decide +kernel
  have hgn : '\n' ∉ "game-".toList := by decide +kernel
  obtain ⟨nl, hnl, rfl⟩ : ∃ nl : Str, (nl = [] ∨ nl = ['\n']) ∧ x = l ++ nl := by
    rcases hx with rfl | rfl
    · exact ⟨['\n'], Or.inr rfl, rfl⟩
    · exact ⟨[], Or.inl rfl, by simp⟩
  rw [yamlLine_iff]
  constructor
  · rintro ⟨n, key, text, t, hs, hk, h1, q, close, nl', rfl, hq, hclose, hnl', hv, hvc⟩
    refine ⟨n, key, text, q, close, ?_, hk, hq, hclose, hv, hvc⟩
    have hn1 : '\n' ∉ List.replicate n ' ' ++ key ++ "branch: ".toList ++ text ++ q :: v ++ close := by
      have hv' : '\n' ∉ v := fun hm => (versionChar_props _ (hvc _ hm)).1 rfl
      have hk' : '\n' ∉ key := by rcases hk with rfl | rfl <;> [simp; exact hgn]
      have hq' : '\n' ≠ q := by rcases hq with rfl | rfl | rfl <;> decide
      have hc' : '\n' ∉ close := by rcases hclose with rfl | rfl | rfl <;> simp
      simp only [List.mem_append, List.mem_cons, List.mem_replicate, hk', hb, h1, hq', hv', hc', or_false, not_and]
      intro _; decide
    have hs' : l ++ nl = (List.replicate n ' ' ++ key ++ "branch: ".toList ++ text ++ q :: v ++ close) ++ nl' := by
      rw [hs]; simp only [List.append_assoc, List.cons_append]
    have hx : ∀ {y : Str}, '\n' ∉ y → y.all (fun c => decide (c ≠ '\n')) = true := by
      intro y hy; rw [List.all_eq_true]; intro c hc; simp only [decide_eq_true_eq]; rintro rfl; exact hy hc
    have hh : ∀ {y : Str}, (y = [] ∨ y = ['\n']) → HeadNot (fun c => decide (c ≠ '\n')) y := by
      rintro y (rfl | rfl) c r h <;> simp at h
      simp [← h.1]
    exact (run_unique hs' (hx hl) (hh hnl) (hx hn1) (hh hnl')).1
  · rintro ⟨n, key, text, q, close, rfl, hk, hq, hclose, hv, hvc⟩
    refine ⟨n, key, text, q :: v ++ close ++ nl, by simp only [List.append_assoc, List.cons_append], hk, ?_, q, close, nl, rfl, hq, hclose, hnl, hv, hvc⟩
    intro hm; apply hl; simp [hm]

theorem findSome_yaml {xs ls : List Str} (h : List.Forall₂ (fun x l => '\n' ∉ l ∧ (x = l ++ ['\n'] ∨ x = l)) xs ls) :
    (∀ v, xs.findSome? yamlLine = some v ↔ FirstBranch ls v) ∧
    (xs.findSome? yamlLine = none ↔ ∀ l ∈ ls, ∀ v, ¬ BranchLine l v) := by
  induction h with
  | nil =>
    refine ⟨fun v => ?_, by simp⟩
    simp only [List.findSome?_nil, reduceCtorEq, false_iff]
    rintro ⟨a, l, b, h, -⟩; simp at h
  | @cons x l xs ls hx _ ih =>
    have hb := yamlLine_branch hx.1 hx.2
    cases hy : yamlLine x with
    | some w =>
      have hw := (hb w).1 hy
      refine ⟨fun v => ?_, ?_⟩
      · rw [List.findSome?_cons, hy]
        simp only [Option.some.injEq]
        constructor
        · rintro rfl; exact ⟨[], l, ls, rfl, hw, by simp⟩
        · rintro ⟨a, l', b, h1, h2, h3⟩
          cases a with
          | nil =>
            simp only [List.nil_append, List.cons.injEq] at h1
            obtain ⟨rfl, -⟩ := h1
            have := (hb v).2 h2
            rw [hy] at this
            exact Option.some.inj this
          | cons a0 a =>
            simp only [List.cons_append, List.cons.injEq] at h1
            obtain ⟨rfl, -⟩ := h1
            exact absurd hw (h3 l (by simp) w)
      · rw [List.findSome?_cons, hy]
        simp only [reduceCtorEq, false_iff, not_forall, not_not]
        exact ⟨l, by simp, w, hw⟩
    | none =>
      have hn : ∀ v, ¬ BranchLine l v := fun v hv => by rw [(hb v).2 hv] at hy; simp at hy
      refine ⟨fun v => ?_, ?_⟩
      · rw [List.findSome?_cons, hy]
        simp only
        rw [ih.1 v]
        constructor
        · rintro ⟨a, l', b, h1, h2, h3⟩
          refine ⟨l :: a, l', b, by rw [h1]; rfl, h2, ?_⟩
          intro p hp
          rcases List.mem_cons.1 hp with rfl | hp
          · exact hn
          · exact h3 p hp
        · rintro ⟨a, l', b, h1, h2, h3⟩
          cases a with
          | nil =>
            simp only [List.nil_append, List.cons.injEq] at h1
            obtain ⟨rfl, -⟩ := h1
            exact absurd h2 (hn v)
          | cons a0 a =>
            simp only [List.cons_append, List.cons.injEq] at h1
            exact ⟨a, l', b, h1.2, h2, fun p hp => h3 p (by simp [hp])⟩
      · rw [List.findSome?_cons, hy]
        simp only [ih.2, List.mem_cons, forall_eq_or_imp]
        exact ⟨fun h => ⟨hn, h⟩, fun h => h.2⟩

/-! ## The version of the metadata -/

theorem digits_run {x : Str} (h : Digits x) : x.all isDig = true := List.all_eq_true.2 fun c hc => (isDig_mem c).2 (h.2 c hc)

theorem matchMetadata_iff (s v : Str) : matchMetadata s = some v ↔ ShortVersion s v := by
  have dot : ∀ r : Str, HeadNot isDig ('.' :: r) := by
    intro r c r' h
    simp only [List.cons.injEq] at h
    rw [← h.1]; decide
  have hd : ∀ w : Str, (w.takeWhile isDig) ≠ [] → Digits (w.takeWhile isDig) := fun w hw =>
    ⟨hw, fun c hc => (isDig_mem c).1 (List.all_eq_true.1 (takeWhile_all isDig w) c hc)⟩
  constructor
  · intro h
    simp only [matchMetadata] at h
    split at h
    · rename_i r hr
      split at h
      · rename_i r' hr'
        split at h
        · simp at h
        · rename_i hne
          simp only [Option.some.injEq] at h
          simp only [Bool.or_eq_true, List.isEmpty_iff, not_or] at hne
          refine ⟨s.takeWhile isDig, r.takeWhile isDig, r', hd _ hne.1, hd _ hne.2, ?_, h.symm⟩
          rw [List.append_assoc, List.cons_append, ← hr', List.takeWhile_append_dropWhile, ← hr, List.takeWhile_append_dropWhile]
      · simp at h
    · simp at h
  · rintro ⟨x, y, r, hx, hy, rfl, rfl⟩
    obtain ⟨h1, h2⟩ := takeWhile_run (digits_run hx) (dot (y ++ '.' :: r))
    obtain ⟨h3, h4⟩ := takeWhile_run (digits_run hy) (dot r)
    simp only [matchMetadata]
    rw [List.append_assoc, List.cons_append, h1, h2]
    simp only [h3, h4]
    rw [if_neg]
    simp [hx.1, hy.1]

end Cdtb
