import Verif.Spec.GrepLcu
import Verif.Lemmas.Subst
import Verif.Lemmas.Regex
/-!
# Lemmas for C70: patterns
-/
namespace Cdtb
set_option autoImplicit false
open Py

/-- `m` computes the matches of `P` -/
def MatchesAt (m : Str → Str → Option (Str × Nat)) (P : Str → Str → Str → Str → Prop) : Prop :=
  (∀ pre s x n, m pre s = some (x, n) → ∃ w r, s = w ++ r ∧ w.length = n ∧ w ≠ [] ∧ P pre w r x) ∧
  ∀ pre w r x, P pre w r x → w ≠ [] ∧ m pre (w ++ r) = some (x, w.length)

theorem finditerAt_skip {α : Type} (m : Str → Str → Option (α × Nat)) (pre w r : Str) :
    finditerAt m pre w.length (w ++ r) = finditerAt m (pre ++ w) 0 r := by
  induction w generalizing pre with
  | nil => simp
  | cons c w ih =>
    rw [List.cons_append, List.length_cons, finditerAt, ih, List.append_assoc, List.singleton_append]

theorem finditerAt_finds {m : Str → Str → Option (Str × Nat)} {P : Str → Str → Str → Str → Prop} (hm : MatchesAt m P) (pre s y : Str) :
    y ∈ finditerAt m pre 0 s ↔ Spec.Finds P pre s y := by
  have hhit : ∀ pre w r x, P pre w r x → finditerAt m pre 0 (w ++ r) = x :: finditerAt m (pre ++ w) 0 r := by
    intro pre w r x hw
    obtain ⟨h1, h2⟩ := hm.2 pre w r x hw
    cases w with
    | nil => exact absurd rfl h1
    | cons c w =>
      rw [List.cons_append] at h2 ⊢
      rw [finditerAt, h2]
      simp only [List.length_cons, Nat.add_sub_cancel]
      rw [finditerAt_skip]
      simp
  have hskip : ∀ pre c s, (∀ w r x, c :: s = w ++ r → ¬ P pre w r x) → finditerAt m pre 0 (c :: s) = finditerAt m (pre ++ [c]) 0 s := by
    intro pre c s h
    rw [finditerAt]
    rcases hx : m pre (c :: s) with _ | ⟨x, n⟩
    · rfl
    · obtain ⟨w, r, h1, -, -, h2⟩ := hm.1 _ _ _ _ hx
      exact absurd h2 (h w r x h1)
  constructor
  · intro h
    induction hn : s.length using Nat.strong_induction_on generalizing s pre with
    | _ n ih =>
      cases s with
      | nil => simp [finditerAt] at h
      | cons c s =>
        by_cases hc : ∃ w r x, c :: s = w ++ r ∧ P pre w r x
        · obtain ⟨w, r, x, h1, h2⟩ := hc
          rw [h1, hhit pre w r x h2, List.mem_cons] at h
          rw [h1]
          rcases h with rfl | h
          · exact .here _ _ _ _ h2
          · refine .later _ _ _ _ _ h2 (ih r.length ?_ _ _ h rfl)
            have := congrArg List.length h1
            rw [List.length_append] at this
            have : 0 < w.length := List.length_pos_iff.2 (hm.2 pre w r x h2).1
            omega
        · have hc' : ∀ w r x, c :: s = w ++ r → ¬ P pre w r x := fun w r x h1 h2 => hc ⟨w, r, x, h1, h2⟩
          rw [hskip pre c s hc'] at h
          exact .skip _ _ _ _ hc' (ih s.length (by rw [← hn]; simp) _ _ h rfl)
  · intro h
    induction h with
    | here pre w r x h => rw [hhit pre w r x h]; exact List.mem_cons_self
    | later pre w r x y h hy ih => rw [hhit pre w r x h]; exact List.mem_cons_of_mem _ ih
    | skip pre c s y h hy ih => rw [hskip pre c s h]; exact ih

/-! ## Characters -/

theorem isAlphanum_iff (c : Char) : c.isAlphanum = true ↔ Spec.AlnumChar c := by
  unfold Spec.AlnumChar
  simp only [Char.isAlphanum, Char.isAlpha, Char.isUpper, Char.isLower, Char.isDigit, Bool.or_eq_true, Bool.and_eq_true, decide_eq_true_eq,
    Char.le_def, ge_iff_le]
  tauto

theorem alnum_ascii {c : Char} (h : Spec.AlnumChar c) : c.toNat < 128 := by
  have e1 : 'z'.val.toNat = 122 := rfl
  have e2 : 'Z'.val.toNat = 90 := rfl
  have e3 : '9'.val.toNat = 57 := rfl
  have e : c.toNat = c.val.toNat := rfl
  rcases h with ⟨-, h⟩ | ⟨-, h⟩ | ⟨-, h⟩ <;> rw [Char.le_def, UInt32.le_iff_toNat_le] at h <;> omega

theorem isWord_iff (uni : Char → Bool) (c : Char) : isWord uni c = true ↔ Spec.WordChar uni c := by
  unfold isWord Spec.WordChar
  by_cases h : c.toNat < 128
  · rw [if_pos h]
    simp only [Bool.or_eq_true, decide_eq_true_eq, isAlphanum_iff]
    constructor
    · rintro (h1 | h1)
      · exact .inl h1
      · exact .inr (.inl h1)
    · rintro (h1 | h1 | h1)
      · exact .inl h1
      · exact .inr h1
      · omega
  · rw [if_neg h]
    constructor
    · intro h1; exact .inr (.inr ⟨by omega, h1⟩)
    · rintro (h1 | rfl | h1)
      · exact absurd (alnum_ascii h1) h
      · exact absurd (by decide) h
      · exact h1.2

theorem isRelChar_iff (c : Char) : isRelChar c = true ↔ Spec.RelChar c := by
  unfold isRelChar Spec.RelChar
  simp only [Bool.or_eq_true, decide_eq_true_eq, isAlphanum_iff, List.mem_cons, List.not_mem_nil, or_false, or_assoc]

theorem isUrlChar_iff (c : Char) : isUrlChar c = true ↔ Spec.UrlChar c := by
  unfold isUrlChar Spec.UrlChar
  simp only [Bool.or_eq_true, decide_eq_true_eq, isRelChar_iff]

theorem wordStart_iff (uni : Char → Bool) (pre : Str) : wordStart uni pre = true ↔ Spec.StartsWord uni pre := by
  unfold wordStart Spec.StartsWord
  rcases List.eq_nil_or_concat pre with rfl | ⟨a, c, rfl⟩
  · simp
  · rw [List.concat_eq_append, List.getLast?_concat]
    simp only [Bool.not_eq_true', ← Bool.not_eq_true, isWord_iff]
    constructor
    · rintro h a' c' h'
      have := List.append_inj' h' rfl
      cases this.2
      exact h
    · intro h; exact h a c rfl

theorem wordEnd_iff (uni : Char → Bool) (s : Str) : wordEnd uni s = true ↔ Spec.StopsAt (Spec.WordChar uni) s := by
  unfold wordEnd Spec.StopsAt
  cases s with
  | nil => simp
  | cons c s =>
    simp only [List.head?_cons, Bool.not_eq_true', ← Bool.not_eq_true, isWord_iff]
    constructor
    · rintro h c' t h'
      cases h'
      exact h
    · intro h; exact h c s rfl

/-! ## Runs -/

theorem matchRun_some {x : Char → Bool} {X : Char → Prop} (hx : ∀ c, x c = true ↔ X c) {s y : Str} (h : matchRun x s = some y) :
    ∃ r, s = y ++ r ∧ Spec.Run X y r := by
  unfold matchRun at h
  split at h
  · simp at h
  · rename_i hne
    cases h
    refine ⟨s.dropWhile x, (List.takeWhile_append_dropWhile).symm, hne, fun c hc => ?_, fun c t ht => ?_⟩
    · rw [← hx]; exact List.all_eq_true.1 (takeWhile_all x s) c hc
    · rw [← hx, headNot_dropWhile x s c t ht]; simp

theorem matchRun_run {x : Char → Bool} {X : Char → Prop} (hx : ∀ c, x c = true ↔ X c) {y r : Str} (h : Spec.Run X y r) :
    matchRun x (y ++ r) = some y := by
  obtain ⟨h1, h2, h3⟩ := h
  unfold matchRun
  have := (takeWhile_run (x := x) (w := y) (b := r) (List.all_eq_true.2 fun c hc => (hx c).2 (h2 c hc)) (fun c t ht => by
    have := h3 c t ht; rw [← hx] at this; simpa using this)).1
  rw [this, if_neg h1]

/-! ## Patterns -/

theorem matchFe_matches (uni : Char → Bool) : MatchesAt (matchFe uni) (Spec.FeMatch uni) := by
  constructor
  · intro pre s x n h
    unfold matchFe at h
    split at h
    · rename_i hw
      split at h
      · simp at h
      · rename_i r hr
        split at h
        · simp at h
        · rename_i p t hs
          split at h
          · simp at h
          · rename_i y hy
            split at h
            · simp at h
            · rename_i hp
              rw [afterPrefix_iff] at hr
              rw [split1_eq_some] at hs
              obtain ⟨r', rfl, hrun⟩ := matchRun_some isUrlChar_iff hy
              simp only [Option.some.injEq, Prod.mk.injEq] at h
              obtain ⟨rfl, rfl⟩ := h
              refine ⟨"fe/".toList ++ p ++ '/' :: y, r', ?_, ?_, ?_, p, y, rfl, (wordStart_iff uni pre).1 hw, hp, hs.2, hrun, rfl⟩
              · rw [hr, hs.1]; simp
              · simp; omega
              · simp
    · simp at h
  · rintro pre w r x ⟨p, y, rfl, hw, hp, hs, hrun, rfl⟩
    refine ⟨by simp, ?_⟩
    unfold matchFe
    rw [if_pos ((wordStart_iff uni pre).2 hw)]
    rw [(afterPrefix_iff _ _ (p ++ '/' :: (y ++ r))).2 (by simp)]
    simp only
    rw [split1_eq_some.2 ⟨rfl, hs⟩]
    simp only
    rw [matchRun_run isUrlChar_iff hrun]
    simp only
    rw [if_neg hp]
    simp only [List.length_append, List.length_cons, Option.some.injEq, Prod.mk.injEq, true_and]
    have : "fe/".toList.length = 3 := rfl
    omega

theorem matchUrl_some {tag out s q : Str} {n : Nat} (h : matchUrl tag out s = some (q, n)) :
    ∃ y r, s = tag ++ y ++ r ∧ n = (tag ++ y).length ∧ Spec.Run Spec.UrlChar y r ∧ q = lower (out ++ y) := by
  unfold matchUrl at h
  split at h
  · simp at h
  · rename_i t hr
    split at h
    · simp at h
    · rename_i y hy
      rw [afterPrefix_iff] at hr
      obtain ⟨r', rfl, hrun⟩ := matchRun_some isUrlChar_iff hy
      simp only [Option.some.injEq, Prod.mk.injEq] at h
      obtain ⟨rfl, rfl⟩ := h
      exact ⟨y, r', by rw [hr, List.append_assoc], by rw [List.length_append], hrun, rfl⟩

theorem matchUrl_run {tag out y r : Str} (h : Spec.Run Spec.UrlChar y r) :
    matchUrl tag out (tag ++ y ++ r) = some (lower (out ++ y), (tag ++ y).length) := by
  unfold matchUrl
  rw [(afterPrefix_iff _ _ (y ++ r)).2 (by rw [List.append_assoc])]
  simp only
  rw [matchRun_run isUrlChar_iff h]
  simp only [List.length_append]

theorem matchData_matches : MatchesAt matchData Spec.DataMatch := by
  constructor
  · intro pre s x n h
    obtain ⟨y, r, rfl, rfl, h3, rfl⟩ := matchUrl_some h
    exact ⟨_, r, rfl, rfl, by simp, y, rfl, h3, rfl⟩
  · rintro pre w r x ⟨y, rfl, h3, rfl⟩
    exact ⟨by simp, matchUrl_run h3⟩

theorem matchAssets_matches (uni : Char → Bool) : MatchesAt (matchAssets uni) (Spec.AssetsMatch uni) := by
  constructor
  · intro pre s x n h
    unfold matchAssets at h
    split at h
    · rename_i hw
      obtain ⟨y, r, rfl, rfl, h3, rfl⟩ := matchUrl_some h
      exact ⟨_, r, rfl, rfl, by simp, y, rfl, (wordStart_iff uni pre).1 hw, h3, rfl⟩
    · simp at h
  · rintro pre w r x ⟨y, rfl, hw, h3, rfl⟩
    refine ⟨by simp, ?_⟩
    unfold matchAssets
    rw [if_pos ((wordStart_iff uni pre).2 hw)]
    exact matchUrl_run h3

theorem matchDots_some {s q : Str} (h : matchDots s = some q) :
    ∃ dots y r, dots ∈ ["./".toList, "../".toList] ∧ q = dots ++ y ∧ s = q ++ r ∧ Spec.Run Spec.RelChar y r := by
  unfold matchDots at h
  have key : ∀ dots r, s = dots ++ r → (matchRun isRelChar r).map (fun y => dots ++ y) = some q →
      ∃ y r, q = dots ++ y ∧ s = q ++ r ∧ Spec.Run Spec.RelChar y r := by
    intro dots r hs hq
    rw [Option.map_eq_some_iff] at hq
    obtain ⟨y, hy, rfl⟩ := hq
    obtain ⟨r', rfl, hrun⟩ := matchRun_some isRelChar_iff hy
    exact ⟨y, r', rfl, by rw [hs, List.append_assoc], hrun⟩
  split at h
  · rename_i r hr
    rw [afterPrefix_iff] at hr
    obtain ⟨y, r', h1, h2, h3⟩ := key _ _ hr h
    exact ⟨_, y, r', List.mem_cons_self, h1, h2, h3⟩
  · split at h
    · rename_i r hr
      rw [afterPrefix_iff] at hr
      obtain ⟨y, r', h1, h2, h3⟩ := key _ _ hr h
      exact ⟨_, y, r', List.mem_cons_of_mem _ List.mem_cons_self, h1, h2, h3⟩
    · simp at h

theorem matchDots_run {dots y r : Str} (hd : dots ∈ ["./".toList, "../".toList]) (h : Spec.Run Spec.RelChar y r) :
    matchDots (dots ++ y ++ r) = some (dots ++ y) := by
  unfold matchDots
  simp only [List.mem_cons, List.not_mem_nil, or_false] at hd
  rcases hd with rfl | rfl
  · rw [(afterPrefix_iff _ _ (y ++ r)).2 (by rw [List.append_assoc])]
    simp only
    rw [matchRun_run isRelChar_iff h]
    rfl
  · have hn : afterPrefix "./".toList ("../".toList ++ y ++ r) = none := by
      rcases hh : afterPrefix "./".toList ("../".toList ++ y ++ r) with _ | t
      · rfl
      · rw [afterPrefix_iff] at hh
        simp at hh
    rw [hn, (afterPrefix_iff _ _ (y ++ r)).2 (by rw [List.append_assoc])]
    simp only
    rw [matchRun_run isRelChar_iff h]
    rfl

theorem matchRel_matches : MatchesAt matchRel Spec.RelMatch := by
  constructor
  · intro pre s x n h
    unfold matchRel at h
    split at h
    · simp at h
    · rename_i c r
      split at h
      · simp at h
      · rename_i hc
        rw [Option.map_eq_some_iff] at h
        obtain ⟨y, hy, h⟩ := h
        cases h
        obtain ⟨dots, z, r', h1, h2, rfl, h4⟩ := matchDots_some hy
        simp only [Bool.or_eq_true, decide_eq_true_eq, isRelChar_iff, not_or] at hc
        exact ⟨c :: x, r', rfl, by rw [List.length_cons, Nat.add_comm], by simp, c, dots, z, rfl, hc.1, hc.2, h1, h2, h4⟩
  · rintro pre w r x ⟨c, dots, y, rfl, h1, h2, h3, rfl, h4⟩
    refine ⟨by simp, ?_⟩
    unfold matchRel
    rw [List.cons_append]
    simp only
    rw [if_neg (by simp only [Bool.or_eq_true, decide_eq_true_eq, isRelChar_iff, not_or]; exact ⟨h1, h2⟩), matchDots_run h3 h4]
    simp only [Option.map_some, List.length_cons, Nat.add_comm]

theorem matchSplash_matches : MatchesAt matchSplash Spec.SplashMatch := by
  have hx : ∀ c : Char, (fun c : Char => decide (c ≠ '.')) c = true ↔ (fun c : Char => c ≠ '.') c := fun c => by simp
  constructor
  · intro pre s x n h
    unfold matchSplash at h
    split at h
    · simp at h
    · rename_i r hr
      rw [afterPrefix_iff] at hr
      rw [Option.map_eq_some_iff] at h
      obtain ⟨y, hy, h⟩ := h
      cases h
      obtain ⟨r', rfl, hrun⟩ := matchRun_some hx hy
      exact ⟨"-splash-".toList ++ x, r', by rw [hr, List.append_assoc], by rw [List.length_append]; rfl, by simp, rfl, hrun⟩
  · rintro pre w r x ⟨rfl, hrun⟩
    refine ⟨by simp, ?_⟩
    unfold matchSplash
    rw [(afterPrefix_iff _ _ (x ++ r)).2 (by rw [List.append_assoc])]
    simp only
    rw [matchRun_run hx hrun, List.length_append]
    rfl

/-! ## Greedy and lazy patterns -/

theorem lastSome_some {α : Type} {f : Nat → Option α} {n : Nat} {x : α} (h : lastSome f n = some x) :
    ∃ k, k ≤ n ∧ f k = some x ∧ ∀ k', k < k' → k' ≤ n → f k' = none := by
  induction n with
  | zero => exact ⟨0, le_refl _, h, fun k' h1 h2 => by omega⟩
  | succ n ih =>
    unfold lastSome at h
    split at h
    · rename_i y hy
      cases h
      exact ⟨n + 1, le_refl _, hy, fun k' h1 h2 => by omega⟩
    · rename_i hn
      obtain ⟨k, h1, h2, h3⟩ := ih h
      refine ⟨k, by omega, h2, fun k' h4 h5 => ?_⟩
      rcases Nat.lt_or_ge n k' with h6 | h6
      · rw [show k' = n + 1 by omega]; exact hn
      · exact h3 k' h4 h6

theorem lastSome_of {α : Type} {f : Nat → Option α} {n k : Nat} {x : α} (hk : k ≤ n) (h : f k = some x)
    (hl : ∀ k', k < k' → k' ≤ n → f k' = none) : lastSome f n = some x := by
  induction n with
  | zero =>
    rw [show k = 0 by omega] at h
    exact h
  | succ n ih =>
    unfold lastSome
    rcases Nat.lt_or_ge n k with h6 | h6
    · rw [show k = n + 1 by omega] at h
      rw [h]
    · rw [hl (n + 1) (by omega) (le_refl _)]
      exact ih h6 fun k' h1 h2 => hl k' h1 (by omega)

theorem fileExt_word (uni : Char → Bool) {e : Str} (h : Spec.FileExt e) : ∀ c ∈ e, Spec.WordChar uni c := by
  rcases h with h | ⟨-, h⟩
  · have h2 : ∀ e ∈ ["js".toList, "json".toList, "webm".toList, "html".toList], ∀ c ∈ e, 'a' ≤ c ∧ c ≤ 'z' := by decide +kernel
    exact fun c hc => .inl (.inl (h2 e h c hc))
  · exact fun c hc => .inl (.inl (h c hc))

theorem fileExt_nodot {e : Str} (h : Spec.FileExt e) : '.' ∉ e := by
  intro hd
  rcases fileExt_word (fun _ => false) h '.' hd with h | h | h
  · revert h; unfold Spec.AlnumChar; decide
  · revert h; decide
  · simp at h

theorem fileExt_unique (uni : Char → Bool) {e r e' r' : Str} (h : e ++ r = e' ++ r') (h1 : Spec.FileExt e) (h2 : Spec.StopsAt (Spec.WordChar uni) r)
    (h3 : Spec.FileExt e') (h4 : Spec.StopsAt (Spec.WordChar uni) r') : e = e' ∧ r = r' := by
  have hs : ∀ r, Spec.StopsAt (Spec.WordChar uni) r → HeadNot (isWord uni) r := by
    intro r h c t ht
    have := h c t ht
    rw [← isWord_iff] at this
    simpa using this
  have hw : ∀ e, Spec.FileExt e → e.all (isWord uni) = true := by
    intro e h
    rw [List.all_eq_true]
    exact fun c hc => (isWord_iff uni c).2 (fileExt_word uni h c hc)
  exact run_unique h (hw e h1) (hs r h2) (hw e' h3) (hs r' h4)

theorem matchExt_some {uni : Char → Bool} {s e : Str} (h : matchExt uni s = some e) :
    ∃ r, s = e ++ r ∧ Spec.FileExt e ∧ Spec.StopsAt (Spec.WordChar uni) r := by
  unfold matchExt at h
  split at h
  · rename_i e' hf
    cases h
    have h1 := List.find?_some hf
    have h2 := List.mem_of_find?_eq_some hf
    rw [Bool.and_eq_true, startsWith_iff] at h1
    obtain ⟨⟨r, rfl⟩, h3⟩ := h1
    rw [List.drop_left, wordEnd_iff] at h3
    exact ⟨r, rfl, .inl h2, h3⟩
  · simp only at h
    split at h
    · rename_i hc
      cases h
      simp only [Bool.and_eq_true, decide_eq_true_eq, List.all_eq_true, wordEnd_iff] at hc
      exact ⟨s.drop 3, (List.take_append_drop 3 s).symm, .inr ⟨hc.1.1, hc.1.2⟩, hc.2⟩
    · simp at h

theorem matchExt_of {uni : Char → Bool} {e r : Str} (h1 : Spec.FileExt e) (h2 : Spec.StopsAt (Spec.WordChar uni) r) :
    matchExt uni (e ++ r) = some e := by
  rcases hm : matchExt uni (e ++ r) with _ | e'
  · exfalso
    unfold matchExt at hm
    split at hm
    · simp at hm
    · rename_i hf
      rw [List.find?_eq_none] at hf
      rcases h1 with h1 | ⟨h1, h3⟩
      · refine hf e h1 ?_
        rw [Bool.and_eq_true, startsWith_iff, List.drop_left, wordEnd_iff]
        exact ⟨⟨r, rfl⟩, h2⟩
      · simp only at hm
        rw [← h1, List.take_left, List.drop_left, if_pos] at hm
        · simp at hm
        · simp only [Bool.and_eq_true, decide_eq_true_eq, List.all_eq_true, wordEnd_iff]
          exact ⟨⟨trivial, h3⟩, h2⟩
  · obtain ⟨r', h3, h4, h5⟩ := matchExt_some hm
    rw [(fileExt_unique uni h3 h1 h2 h4 h5).1]

theorem matchNameAt_some {uni : Char → Bool} {t y : Str} {k : Nat} (h : matchNameAt uni t k = some y) :
    ∃ e r, t = t.take k ++ '.' :: e ++ r ∧ y = t.take k ++ '.' :: e ∧ Spec.FileExt e ∧ Spec.StopsAt (Spec.WordChar uni) r := by
  unfold matchNameAt at h
  split at h
  · simp at h
  · rename_i s hs
    rw [afterPrefix_iff] at hs
    rw [Option.map_eq_some_iff] at h
    obtain ⟨e, he, rfl⟩ := h
    obtain ⟨r, rfl, h2, h3⟩ := matchExt_some he
    refine ⟨e, r, ?_, rfl, h2, h3⟩
    conv_lhs => rw [← List.take_append_drop k t, hs]
    simp

theorem matchNameAt_of {uni : Char → Bool} {x e r : Str} (h1 : Spec.FileExt e) (h2 : Spec.StopsAt (Spec.WordChar uni) r) :
    matchNameAt uni (x ++ '.' :: e ++ r) x.length = some (x ++ '.' :: e) := by
  unfold matchNameAt
  rw [List.append_assoc, List.drop_left, List.take_left, (afterPrefix_iff _ _ (e ++ r)).2 (by simp)]
  simp only
  rw [matchExt_of h1 h2]
  rfl

theorem dot_order {x e r x' s' : Str} (h : x ++ '.' :: e ++ r = x' ++ '.' :: s') (he : '.' ∉ e) (hl : x.length < x'.length) :
    x.length + 1 + e.length ≤ x'.length := by
  rcases List.append_eq_append_iff.1 h with ⟨u, rfl, -⟩ | ⟨u, h1, h2⟩
  · simp only [List.length_append, List.length_cons]
    omega
  · rcases u with _ | ⟨d, u⟩
    · rw [List.append_nil] at h1
      rw [← h1]
      simp only [List.length_append, List.length_cons]
      omega
    · exfalso
      rw [List.cons_append, List.cons.injEq] at h2
      obtain ⟨rfl, -⟩ := h2
      rcases List.append_eq_append_iff.1 h1 with ⟨v, rfl, h3⟩ | ⟨v, rfl, h3⟩
      · rcases v with _ | ⟨d, v⟩
        · simp at hl
        · rw [List.cons_append, List.cons.injEq] at h3
          exact he (h3.2 ▸ by simp)
      · simp at hl

theorem take_run_le {x : Char → Bool} {y r : Str} (h : ∀ c ∈ y, x c = true) : y.length ≤ ((y ++ r).takeWhile x).length := by
  rw [List.takeWhile_append_of_pos h, List.length_append]
  omega

theorem mem_take_run {x : Char → Bool} {t : Str} {k : Nat} (hk : k ≤ (t.takeWhile x).length) : ∀ c ∈ t.take k, x c = true := by
  intro c hc
  refine List.all_eq_true.1 (takeWhile_all x t) c ?_
  have : t.take k = (t.takeWhile x).take k := by
    conv_lhs => rw [← List.takeWhile_append_dropWhile (p := x) (l := t)]
    rw [List.take_append_of_le_length hk]
  rw [this] at hc
  exact List.mem_of_mem_take hc

theorem matchName_matches (uni : Char → Bool) : MatchesAt (matchName uni) (Spec.NameMatch uni) := by
  constructor
  · intro pre s q n h
    unfold matchName at h
    split at h
    · rename_i c a t
      split at h
      · rename_i hc
        rw [Option.map_eq_some_iff] at h
        obtain ⟨y, hy, h⟩ := h
        rw [Prod.mk.injEq] at h
        obtain ⟨rfl, rfl⟩ := h
        obtain ⟨k, hk, hy, hl⟩ := lastSome_some hy
        obtain ⟨e, r, h1, rfl, h2, h3⟩ := matchNameAt_some hy
        have hlen : (t.take k).length = k := by
          rw [List.length_take]
          have := (List.takeWhile_prefix isUrlChar (l := t)).length_le
          omega
        simp only [Bool.and_eq_true, Bool.or_eq_true, decide_eq_true_eq, isAlphanum_iff] at hc
        refine ⟨c :: a :: (t.take k ++ '.' :: e), r, by rw [List.cons_append, List.cons_append, ← h1], by simp; omega, by simp, c, ?_, rfl,
          ⟨a, t.take k, e, rfl, hc.2, fun d hd => (isUrlChar_iff d).1 (mem_take_run hk d hd), h2, h3⟩, ?_⟩
        · simpa using hc.1
        · rintro q' r' hq ⟨a', x', e', rfl, ha', hx', he', hr'⟩
          rw [List.cons_append, ← h1, List.cons_append, List.cons_append, List.cons.injEq] at hq
          obtain ⟨rfl, hq⟩ := hq
          have hk' : x'.length ≤ k := by
            by_contra hcon
            have hle : x'.length ≤ (t.takeWhile isUrlChar).length := by
              rw [hq, List.append_assoc]
              exact take_run_le fun d hd => (isUrlChar_iff d).2 (hx' d hd)
            have := hl x'.length (by omega) hle
            rw [hq, matchNameAt_of he' hr'] at this
            simp at this
          rcases Nat.lt_or_ge x'.length k with hlt | hge
          · have := dot_order (x := x') (e := e') (r := r') (x' := t.take k) (s' := e ++ r) (by rw [← hq]; rw [h1]; simp [hlen]) (fileExt_nodot he')
              (by omega)
            simp only [List.length_append, List.length_cons]
            omega
          · rw [h1, List.append_assoc, List.append_assoc] at hq
            obtain ⟨h5, h6⟩ := List.append_inj hq (by omega)
            rw [List.cons_append, List.cons_append, List.cons.injEq] at h6
            have := fileExt_unique uni h6.2 h2 h3 he' hr'
            have l1 := congrArg List.length this.1
            simp only [List.length_append, List.length_cons]
            omega
      · simp at h
    · simp at h
  · rintro pre w r q ⟨c, hc, rfl, ⟨a, x, e, rfl, ha, hx, he, hr⟩, hl⟩
    refine ⟨by simp, ?_⟩
    unfold matchName
    simp only [List.cons_append]
    rw [if_pos (by
      simp only [Bool.and_eq_true, Bool.or_eq_true, decide_eq_true_eq, isAlphanum_iff]
      exact ⟨by simpa using hc, ha⟩)]
    rw [lastSome_of (k := x.length) (x := x ++ '.' :: e)]
    · simp only [Option.map_some, Option.some.injEq, Prod.mk.injEq, List.length_cons, true_and]
      omega
    · rw [List.append_assoc]
      exact take_run_le fun d hd => (isUrlChar_iff d).2 (hx d hd)
    · exact matchNameAt_of he hr
    · intro k' h1 h2
      rcases hm : matchNameAt uni (x ++ '.' :: e ++ r) k' with _ | y
      · rfl
      · exfalso
        generalize ht : x ++ '.' :: e ++ r = t at hm h2
        obtain ⟨e', r', h3, rfl, h4, h5⟩ := matchNameAt_some hm
        have hlen : (t.take k').length = k' := by
          rw [List.length_take]
          have := (List.takeWhile_prefix isUrlChar (l := t)).length_le
          omega
        have h6 := hl (a :: (t.take k') ++ '.' :: e') r' (by
          rw [List.cons_append, List.cons_append, ht, List.cons_append, List.cons_append, ← h3])
          ⟨a, t.take k', e', rfl, ha, fun d hd => (isUrlChar_iff d).1 (mem_take_run h2 d hd), h4, h5⟩
        have h7 := dot_order (x := x) (e := e) (r := r) (x' := t.take k') (s' := e' ++ r') (by rw [ht, h3]; simp [hlen]) (fileExt_nodot he)
          (by omega)
        simp only [List.length_append, List.length_cons] at h6
        omega

theorem matchTemplateAt_some {u b : Str} {k : Nat} (h : matchTemplateAt u k = some b) :
    u = u.take k ++ "-template-".toList ++ b ∧ b ≠ [] := by
  unfold matchTemplateAt at h
  split at h
  · simp at h
  · simp at h
  · rename_i c b' hs
    cases h
    rw [afterPrefix_iff] at hs
    refine ⟨?_, by simp⟩
    conv_lhs => rw [← List.take_append_drop k u, hs]
    rw [List.append_assoc]

theorem matchTemplateAt_of {a b : Str} (hb : b ≠ []) : matchTemplateAt (a ++ "-template-".toList ++ b) a.length = some b := by
  unfold matchTemplateAt
  rw [List.append_assoc, List.drop_left, (afterPrefix_iff _ _ b).2 rfl]
  cases b with
  | nil => exact absurd rfl hb
  | cons c b => rfl

theorem matchTemplate_matches : MatchesAt matchTemplate Spec.TemplateMatch := by
  constructor
  · intro pre s q n h
    unfold matchTemplate at h
    split at h
    · simp at h
    · rename_i t ht
      rw [afterPrefix_iff] at ht
      split at h
      · simp at h
      · rename_i u r hu
        obtain ⟨rfl, hq⟩ := split1_eq_some.1 hu
        rw [Option.map_eq_some_iff] at h
        obtain ⟨b, hb, h⟩ := h
        rw [Prod.mk.injEq] at h
        obtain ⟨rfl, rfl⟩ := h
        obtain ⟨k, hk, hb, hl⟩ := lastSome_some hb
        obtain ⟨h1, h2⟩ := matchTemplateAt_some hb
        have hlen : (u.take k).length = k := by rw [List.length_take]; omega
        refine ⟨"<template id=\"".toList ++ u.take k ++ "-template-".toList ++ b ++ ['"'], r, ?_, ?_, by simp, u.take k, b, rfl, ?_, ?_, h2, rfl, ?_⟩
        · rw [ht]
          conv_lhs => rw [h1]
          simp only [List.append_assoc, List.singleton_append]
        · have := congrArg List.length h1
          simp only [List.length_append] at this ⊢
          have e : "<template id=\"".toList.length = 14 := rfl
          rw [e, List.length_singleton]
          omega
        · exact fun h => hq (List.mem_of_mem_take h)
        · exact fun h => hq (h1 ▸ List.mem_append_right _ h)
        · intro a' b' h3 h4
          rw [hlen]
          by_contra hcon
          have h5 := h3.symm.trans h1.symm
          have : a'.length ≤ u.length := by
            rw [← h5]
            simp only [List.length_append]
            omega
          have h6 := hl a'.length (by omega) this
          rw [← h5, matchTemplateAt_of h4] at h6
          simp at h6
  · rintro pre w r q ⟨a, b, rfl, h1, h2, h3, rfl, h4⟩
    refine ⟨by simp, ?_⟩
    unfold matchTemplate
    generalize hu : a ++ "-template-".toList ++ b = u at h4
    have hq : '"' ∉ u := by
      rw [← hu]
      simp only [List.mem_append, not_or]
      exact ⟨⟨h1, by decide⟩, h2⟩
    have e1 : "<template id=\"".toList ++ a ++ "-template-".toList ++ b ++ ['"'] = "<template id=\"".toList ++ (u ++ ['"']) := by
      rw [← hu]; simp only [List.append_assoc]
    rw [e1, (afterPrefix_iff _ _ (u ++ '"' :: r)).2 (by simp only [List.append_assoc, List.singleton_append])]
    simp only
    rw [split1_eq_some.2 ⟨rfl, hq⟩]
    simp only
    rw [lastSome_of (k := a.length) (x := b)]
    · simp only [Option.map_some, List.length_append, List.length_singleton]
      rfl
    · rw [← hu]; simp only [List.length_append]; omega
    · rw [← hu]; exact matchTemplateAt_of h3
    · intro k' h5 h6
      rcases hm : matchTemplateAt u k' with _ | b'
      · rfl
      · obtain ⟨h7, h8⟩ := matchTemplateAt_some hm
        have := h4 (u.take k') b' h7 h8
        rw [List.length_take] at this
        omega

theorem beforeMap_some {s x : Str} (h : beforeMap s = some x) : '\n' ∉ x ∧ (∃ r, s = x ++ ".js.map".toList ++ r) ∧
    ∀ x' t', s = x' ++ ".js.map".toList ++ t' → x.length ≤ x'.length := by
  induction s generalizing x with
  | nil => simp [beforeMap] at h
  | cons c s ih =>
    unfold beforeMap at h
    split at h
    · rename_i hs
      cases h
      rw [startsWith_iff] at hs
      exact ⟨by simp, hs, fun _ _ _ => Nat.zero_le _⟩
    · rename_i hs
      split at h
      · simp at h
      · rename_i hc
        rw [Option.map_eq_some_iff] at h
        obtain ⟨y, hy, rfl⟩ := h
        obtain ⟨h1, ⟨r, h2⟩, h3⟩ := ih hy
        refine ⟨by simp only [List.mem_cons, not_or]; exact ⟨Ne.symm hc, h1⟩, ⟨r, by rw [h2]; rfl⟩, fun x' t' h4 => ?_⟩
        cases x' with
        | nil => exact absurd (startsWith_iff.2 ⟨t', h4⟩) hs
        | cons d x' =>
          rw [List.cons_append, List.cons_append, List.cons.injEq] at h4
          have := h3 x' t' h4.2
          simp only [List.length_cons]
          omega

theorem beforeMap_of {x r : Str} (hn : '\n' ∉ x) (hl : ∀ x' t', x ++ ".js.map".toList ++ r = x' ++ ".js.map".toList ++ t' → x.length ≤ x'.length) :
    beforeMap (x ++ ".js.map".toList ++ r) = some x := by
  induction x with
  | nil =>
    have : startsWith (([] : Str) ++ ".js.map".toList ++ r) ".js.map".toList = true := startsWith_iff.2 ⟨r, rfl⟩
    rcases hs : ([] : Str) ++ ".js.map".toList ++ r with _ | ⟨c, s⟩
    · simp at hs
    · rw [hs] at this
      rw [beforeMap, if_pos this]
  | cons c x ih =>
    rw [List.cons_append, List.cons_append, beforeMap, if_neg, if_neg, ih]
    · rfl
    · exact fun h => hn (List.mem_cons_of_mem _ h)
    · intro x' t' h
      have := hl (c :: x') t' (by rw [List.cons_append, List.cons_append, h]; rfl)
      simpa using this
    · rintro rfl; exact hn List.mem_cons_self
    · intro h
      rw [startsWith_iff] at h
      obtain ⟨t', h⟩ := h
      have := hl [] t' h
      simp at this

theorem matchMap_matches : MatchesAt matchMap Spec.MapMatch := by
  constructor
  · intro pre s q n h
    unfold matchMap at h
    split at h
    · simp at h
    · rename_i t ht
      rw [afterPrefix_iff] at ht
      rw [Option.map_eq_some_iff] at h
      obtain ⟨x, hx, h⟩ := h
      rw [Prod.mk.injEq] at h
      obtain ⟨rfl, rfl⟩ := h
      obtain ⟨h1, ⟨r, h2⟩, h3⟩ := beforeMap_some hx
      refine ⟨"sourceMappingURL=".toList ++ x ++ ".js.map".toList, r, ?_, ?_, by simp, x, rfl, h1, rfl, ?_⟩
      · rw [ht, h2]; simp only [List.append_assoc]
      · simp only [List.length_append]; rfl
      · rw [← h2]; exact h3
  · rintro pre w r q ⟨x, rfl, h1, rfl, h2⟩
    refine ⟨by simp, ?_⟩
    unfold matchMap
    rw [(afterPrefix_iff _ _ (x ++ ".js.map".toList ++ r)).2 (by simp only [List.append_assoc])]
    simp only
    rw [beforeMap_of h1 h2]
    simp only [Option.map_some, List.length_append]
    rfl

theorem textPaths_mem (uni : Char → Bool) (text q : Str) : q ∈ textPaths uni text ↔ Spec.TextPath uni text q := by
  unfold textPaths Spec.TextPath
  rw [List.mem_append, List.mem_append, finditerAt_finds (matchFe_matches uni), finditerAt_finds matchData_matches,
    finditerAt_finds (matchAssets_matches uni), or_assoc]

theorem textRelpaths_mem (uni : Char → Bool) (text q : Str) : q ∈ textRelpaths uni text ↔ Spec.TextRel uni text q := by
  unfold textRelpaths Spec.TextRel
  rw [List.mem_append, List.mem_append, List.mem_append, finditerAt_finds matchRel_matches, finditerAt_finds (matchName_matches uni),
    finditerAt_finds matchTemplate_matches, finditerAt_finds matchMap_matches, or_assoc, or_assoc]

end Cdtb
