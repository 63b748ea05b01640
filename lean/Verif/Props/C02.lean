import Verif.Lemmas.Version
/-!
# C02  Version text round-trips; patch versions depend only on their first two numbers
-/
namespace Cdtb
set_option autoImplicit false
open Py

/-- The text of a version built from a non-empty tuple parses back to the tuple. -/
theorem C02_roundtrip (t : List Int) (ht : t ≠ []) :
    ∃ a, baseVersion (.tup t) = .ok a ∧ a.t = .nums t ∧ baseVersion (.str a.s) = .ok a := by
  refine ⟨⟨join ['.'] (t.map showInt), .nums t⟩, ?_, rfl, baseVersion_str_join ht⟩
  simp [baseVersion, ht]

/-- A version parsed from text keeps its text; its numbers are those of the dot separated parts. -/
theorem C02_text_kept {s : Str} {a : Version} (h : baseVersion (.str s) = .ok a) :
    a.s = s ∧ ∃ t, a.t = .nums t ∧ List.Forall₂ (fun p n => int10 p = some n) (splitChar '.' s) t := by
  simp only [baseVersion] at h
  split at h
  · simp at h
  · cases hm : (splitChar '.' s).mapM intOrErr with
    | error e => rw [hm] at h; simp [bind, Except.bind] at h
    | ok t =>
      rw [hm] at h; simp [bind, Except.bind] at h; subst h
      refine ⟨rfl, t, rfl, ?_⟩
      generalize splitChar '.' s = ps at hm
      clear * - hm
      induction ps generalizing t with
      | nil => simp [pure, Except.pure] at hm; subst hm; exact .nil
      | cons p ps ih =>
        rw [List.mapM_cons] at hm
        cases hp : intOrErr p with
        | error e => rw [hp] at hm; simp [bind, Except.bind] at hm
        | ok n =>
          cases hr : ps.mapM intOrErr with
          | error e => rw [hp, hr] at hm; simp [bind, Except.bind] at hm
          | ok t' =>
            rw [hp, hr] at hm; simp [bind, Except.bind, pure, Except.pure] at hm; subst hm
            refine .cons ?_ (ih t' hr)
            unfold intOrErr at hp; split at hp <;> simp_all

/-- Empty input is rejected with `ValueError`, other types with `TypeError`. -/
theorem C02_rejects : baseVersion (.str []) = .error .value ∧ baseVersion (.tup []) = .error .value ∧
    baseVersion .other = .error .type := ⟨rfl, rfl, rfl⟩

/-- A text with a part that is not a number is rejected with `ValueError`. -/
theorem C02_rejects_text {s p : Str} (hp : p ∈ splitChar '.' s) (hn : int10 p = none) :
    baseVersion (.str s) = .error .value := by
  simp only [baseVersion]
  split
  · rfl
  · have : (splitChar '.' s).mapM intOrErr = .error .value := by
      generalize splitChar '.' s = ps at hp
      clear * - hp hn
      induction ps with
      | nil => simp at hp
      | cons q ps ih =>
        rw [List.mapM_cons]
        cases hq : intOrErr q with
        | error e => unfold intOrErr at hq; split at hq <;> simp_all [bind, Except.bind]
        | ok n =>
          have : p ∈ ps := by
            rcases List.mem_cons.1 hp with rfl | h
            · simp [intOrErr, hn] at hq
            · exact h
          rw [ih this]; rfl
    rw [this]; rfl

/-- A patch version given by more than two numbers equals the one given by its first two. -/
theorem C02_patch_truncates_tuple (x y : Int) (r : List Int) :
    patchVersion (.tup (x :: y :: r)) = patchVersion (.tup [x, y]) ∧
    patchVersion (.tup [x, y]) = .ok ⟨showInt x ++ '.' :: showInt y, .nums [x, y]⟩ := by
  have h2 : patchVersion (.tup [x, y]) = .ok ⟨showInt x ++ '.' :: showInt y, .nums [x, y]⟩ := by
    simp [patchVersion, baseVersion, join, bind, Except.bind]
  refine ⟨?_, h2⟩
  rw [h2]
  cases r with
  | nil => exact h2
  | cons z r => simp [patchVersion, baseVersion, join, bind, Except.bind]

/-- Same for a text: with more than two numbers it gives the same version as the tuple of the first
two, and with exactly two it keeps its spelling. -/
theorem C02_patch_truncates_text {s : Str} {x y : Int} {r : List Int}
    (h : baseVersion (.str s) = .ok ⟨s, .nums (x :: y :: r)⟩) :
    (r ≠ [] → patchVersion (.str s) = patchVersion (.tup [x, y])) ∧
    (r = [] → patchVersion (.str s) = .ok ⟨s, .nums [x, y]⟩) := by
  have hm : s ≠ "main".toList := by
    rintro rfl
    exact absurd h (by rw [C02_rejects_text (p := "main".toList) (by decide +kernel) (by decide +kernel)]; simp)
  have hm' : VArg.str s ≠ .str "main".toList := by simpa using hm
  refine ⟨fun hr => ?_, fun hr => ?_⟩
  · rw [(C02_patch_truncates_tuple x y []).2]
    cases r with
    | nil => exact absurd rfl hr
    | cons z r => simp only [patchVersion, hm', if_false, h]; simp [join, bind, Except.bind]
  · subst hr
    simp only [patchVersion, hm', if_false, h]; simp [bind, Except.bind]

/-- Fewer than two numbers are rejected. -/
theorem C02_patch_short (x : Int) : patchVersion (.tup [x]) = .error .assertion ∧
    ∀ s, baseVersion (.str s) = .ok ⟨s, .nums [x]⟩ → patchVersion (.str s) = .error .assertion := by
  refine ⟨by simp [patchVersion, baseVersion, bind, Except.bind], fun s h => ?_⟩
  have hm : s ≠ "main".toList := by
    rintro rfl
    exact absurd h (by rw [C02_rejects_text (p := "main".toList) (by decide +kernel) (by decide +kernel)]; simp)
  have hm' : VArg.str s ≠ .str "main".toList := by simpa using hm
  simp only [patchVersion, hm', if_false, h]; simp [bind, Except.bind]

/-- Every patch version is "main", or has exactly two numbers. -/
theorem C02_patch_shape {v : VArg} {p : Version} (h : patchVersion v = .ok p) :
    (p = ⟨"main".toList, .main⟩ ∧ v = .str "main".toList) ∨
    (p.s ≠ "main".toList ∧ ∃ x y, p.t = .nums [x, y]) := by
  unfold patchVersion at h
  split at h
  · rename_i hv; simp at h; exact Or.inl ⟨h.symm, hv⟩
  · rename_i hv
    cases hb : baseVersion v with
    | error e => rw [hb] at h; simp [bind, Except.bind] at h
    | ok b =>
      rw [hb] at h; simp only [bind, Except.bind] at h
      have hbs : b.s ≠ "main".toList := by
        intro hs
        cases v with
        | str s => exact hv (by rw [← (C02_text_kept hb).1, hs])
        | other => simp [baseVersion] at hb
        | tup t =>
          have hnt : t ≠ [] := by rintro rfl; simp [baseVersion] at hb
          obtain ⟨a, ha1, _, ha3⟩ := C02_roundtrip t hnt
          rw [hb] at ha1; simp at ha1; subst ha1
          rw [hs, C02_rejects_text (p := "main".toList) (by decide +kernel) (by decide +kernel)] at ha3
          simp at ha3
      right
      cases ht : b.t with
      | main => rw [ht] at h; simp at h
      | nums t =>
        rw [ht] at h
        by_cases hl : 2 < t.length
        · simp only [hl, if_true] at h
          have hl2 : (t.take 2).length = 2 := by simp; omega
          simp only [hl2, if_true, Except.ok.injEq] at h
          subst h
          refine ⟨fun hs => ?_, ?_⟩
          · have hnt : t.take 2 ≠ [] := by intro h0; rw [h0] at hl2; simp at hl2
            have := baseVersion_str_join hnt
            simp only at hs
            rw [hs, C02_rejects_text (p := "main".toList) (by decide +kernel) (by decide +kernel)] at this
            simp at this
          · match t.take 2, hl2 with
            | [x, y], _ => exact ⟨x, y, rfl⟩
        · simp only [hl, if_false, ht] at h
          by_cases h2 : t.length = 2
          · simp only [h2, if_true, Except.ok.injEq] at h
            subst h
            match t, h2 with
            | [x, y], _ => exact ⟨hbs, x, y, ht⟩
          · simp [h2] at h

/-- "main" is accepted, equals only "main", and ordering it against a numbered patch raises
`TypeError`. -/
theorem C02_main : ∃ m, patchVersion (.str "main".toList) = .ok m ∧ m.s = "main".toList ∧
    (∀ v p, patchVersion v = .ok p → (m.eq (.ver p) = true ↔ p = m)) ∧
    (∀ op, m.cmp op m = .ok (op = .le ∨ op = .ge)) ∧
    (∀ v p op, patchVersion v = .ok p → p ≠ m → m.cmp op p = .error .type ∧ p.cmp op m = .error .type) := by
  refine ⟨⟨"main".toList, .main⟩, by simp [patchVersion], rfl, fun v p h => ?_, ?_, fun v p op h hne => ?_⟩
  · rcases C02_patch_shape h with ⟨rfl, _⟩ | ⟨hs, x, y, ht⟩
    · simp [Version.eq]
    · simp only [Version.eq, decide_eq_true_eq]
      exact ⟨fun h => absurd h.symm hs, fun h => absurd (by rw [h]) hs⟩
  · intro op; cases op <;> simp [Version.cmp, CmpOp.eval]
  · rcases C02_patch_shape h with ⟨rfl, _⟩ | ⟨hs, x, y, ht⟩
    · exact absurd rfl hne
    · simp [Version.cmp, ht]

/-- `as_int` is strictly increasing on patches whose second number is within 0..99. -/
theorem C02_as_int {a b : Version} {x y x' y' : Int} (hat : a.t = .nums [x, y]) (hbt : b.t = .nums [x', y'])
    (hy : 0 ≤ y ∧ y < 100) (hy' : 0 ≤ y' ∧ y' < 100) :
    ∃ i j, a.asInt = .ok i ∧ b.asInt = .ok j ∧ (a.cmp .lt b = .ok true ↔ i < j) := by
  refine ⟨x * 100 + y, x' * 100 + y', by simp [Version.asInt, hat], by simp [Version.asInt, hbt], ?_⟩
  simp only [Version.cmp, hat, hbt, tupleCmp_lt, Except.ok.injEq, decide_eq_true_eq,
    List.cons_lt_cons_iff, List.lt_irrefl, and_false, or_false]
  omega

/-- The bound is needed: 9.100 and 10.0 have the same `as_int` although 9.100 < 10.0. -/
theorem C02_as_int_boundary : ∃ a b, patchVersion (.tup [9, 100]) = .ok a ∧
    patchVersion (.tup [10, 0]) = .ok b ∧ a.cmp .lt b = .ok true ∧ a.asInt = b.asInt :=
  ⟨_, _, rfl, rfl, by decide +kernel, by decide +kernel⟩

/-- Spelling is kept with two numbers but not with three: "9.01" and "9.01.1" give versions that
are not equal. -/
theorem C02_spelling_boundary : ∃ a b, patchVersion (.str "9.01".toList) = .ok a ∧
    patchVersion (.str "9.01.1".toList) = .ok b ∧ a.t = b.t ∧ a.eq (.ver b) = false :=
  ⟨⟨"9.01".toList, .nums [9, 1]⟩, ⟨"9.1".toList, .nums [9, 1]⟩, by decide +kernel, by decide +kernel,
    rfl, by decide +kernel⟩

/-! Non-vacuity -/
example : baseVersion (.str "9.10.3".toList) = .ok ⟨"9.10.3".toList, .nums (9 :: 10 :: [3])⟩ := by
  decide +kernel
example : patchVersion (.str "9.10.3".toList) = .ok ⟨"9.10".toList, .nums [9, 10]⟩ := by decide +kernel
example : patchVersion (.str "9.10".toList) = .ok ⟨"9.10".toList, .nums [9, 10]⟩ ∧
   (Version.mk "9.10".toList (.nums [9, 10])).asInt = .ok 910 := by decide +kernel

/-! ## Cases that meet the hypotheses -/

/-- `C02_rejects_text` -/
example : "x".toList ∈ splitChar '.' "9.x.1".toList ∧ int10 "x".toList = none := by decide +kernel

/-- `C02_patch_short` -/
example : baseVersion (.str "9".toList) = .ok ⟨"9".toList, .nums [9]⟩ := by decide +kernel

/-- `C02_main`: versions of patches that are not `main` -/
example : ∃ p, patchVersion (.tup [9, 10]) = .ok p ∧ p.s ≠ "main".toList := ⟨_, rfl, by decide +kernel⟩

end Cdtb
