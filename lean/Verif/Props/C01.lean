import Verif.Lemmas.Version
import Mathlib.Data.List.Lex
/-!
# C01  Versions are totally ordered, and order agrees with equality on canonical versions

`baseVersion (.tup t)` is the version built from the integer tuple `t`, `baseVersion (.str s)` the
one parsed from text. `Version.cmp` is `<`, `<=`, `>`, `>=`; `Version.eq` is `==`.
-/
namespace Cdtb
set_option autoImplicit false
open Py

/-- All operators on versions built from tuples are the lexicographic order (Lean core's order on
`List Int`) and equality of the tuples. -/
theorem C01_operators {t u : List Int} {a b : Version}
    (ha : baseVersion (.tup t) = .ok a) (hb : baseVersion (.tup u) = .ok b) :
    a.cmp .lt b = .ok (decide (t < u)) ∧ a.cmp .le b = .ok (decide (t ≤ u)) ∧
    a.cmp .gt b = .ok (decide (u < t)) ∧ a.cmp .ge b = .ok (decide (u ≤ t)) ∧
    a.eq (.ver b) = decide (t = u) ∧ a.ne (.ver b) = decide (t ≠ u) ∧
    a.eq (.tup u) = decide (t = u) := by
  have hnt : t ≠ [] := by rintro rfl; simp [baseVersion] at ha
  have hnu : u ≠ [] := by rintro rfl; simp [baseVersion] at hb
  simp only [baseVersion, List.isEmpty_iff, hnt, hnu, if_false, Except.ok.injEq] at ha hb
  subst ha hb
  have heq : decide (join ['.'] (t.map showInt) = join ['.'] (u.map showInt)) = decide (t = u) := by
    rw [decide_eq_decide]
    exact ⟨join_showInt_inj hnt hnu, fun h => by rw [h]⟩
  simp only [Version.cmp, Version.eq, Version.ne, tupleCmp_lt, tupleCmp_gt, tupleCmp_le, tupleCmp_ge,
    heq, ← decide_not, not_lt, ne_eq, and_self]

/-- Exactly one of `a < b`, `a == b`, `a > b` holds. -/
theorem C01_trichotomy {t u : List Int} {a b : Version}
    (ha : baseVersion (.tup t) = .ok a) (hb : baseVersion (.tup u) = .ok b) :
    (a.cmp .lt b = .ok true ∧ a.eq (.ver b) = false ∧ a.cmp .gt b = .ok false) ∨
    (a.cmp .lt b = .ok false ∧ a.eq (.ver b) = true ∧ a.cmp .gt b = .ok false) ∨
    (a.cmp .lt b = .ok false ∧ a.eq (.ver b) = false ∧ a.cmp .gt b = .ok true) := by
  obtain ⟨h1, -, h3, -, h5, -⟩ := C01_operators ha hb
  rw [h1, h3, h5]
  simp only [Except.ok.injEq, decide_eq_true_eq, decide_eq_false_iff_not]
  rcases lt_trichotomy t u with h | h | h
  · exact Or.inl ⟨h, ne_of_lt h, lt_asymm h⟩
  · exact Or.inr (Or.inl ⟨by simp [h], h, by simp [h]⟩)
  · exact Or.inr (Or.inr ⟨lt_asymm h, ne_of_gt h, h⟩)

/-- `<=` is `<` or `==`; `>` and `>=` are the mirrors. -/
theorem C01_le_iff {t u : List Int} {a b : Version}
    (ha : baseVersion (.tup t) = .ok a) (hb : baseVersion (.tup u) = .ok b) :
    (a.cmp .le b = .ok true ↔ a.cmp .lt b = .ok true ∨ a.eq (.ver b) = true) ∧
    a.cmp .gt b = b.cmp .lt a ∧ a.cmp .ge b = b.cmp .le a := by
  obtain ⟨h1, h2, h3, h4, h5, -⟩ := C01_operators ha hb
  obtain ⟨g1, g2, -⟩ := C01_operators hb ha
  rw [h1, h2, h3, h4, h5, g1, g2]
  simp [le_iff_lt_or_eq]

/-- `<` is transitive, for all versions (parsed or built, and "main" included). -/
theorem C01_lt_trans (a b c : Version) (h1 : a.cmp .lt b = .ok true) (h2 : b.cmp .lt c = .ok true) :
    a.cmp .lt c = .ok true := by
  unfold Version.cmp at *
  cases ha : a.t <;> cases hb : b.t <;> cases hc : c.t <;>
    simp_all [tupleCmp_lt, CmpOp.eval]
  exact lt_trans h1 h2

/-- The same holds for versions parsed from text: what the text of a version built from a tuple
parses to is the very same version, so the theorems above apply to it. -/
theorem C01_parsed {t : List Int} {a : Version} (ha : baseVersion (.tup t) = .ok a) :
    baseVersion (.str a.s) = .ok a := by
  have hnt : t ≠ [] := by rintro rfl; simp [baseVersion] at ha
  simp only [baseVersion, List.isEmpty_iff, hnt, if_false, Except.ok.injEq] at ha
  subst ha
  exact baseVersion_str_join hnt

/-- For arbitrary texts with the same numbers but different spelling, the versions are neither
`<`, `>` nor `==`, while being both `<=` and `>=`. -/
theorem C01_noncanonical {s s' : Str} {a b : Version} (ha : baseVersion (.str s) = .ok a)
    (hb : baseVersion (.str s') = .ok b) (hs : s ≠ s') (ht : a.t = b.t) :
    a.cmp .lt b = .ok false ∧ a.cmp .gt b = .ok false ∧ a.eq (.ver b) = false ∧
    a.cmp .le b = .ok true ∧ a.cmp .ge b = .ok true := by
  have key : ∀ {s a}, baseVersion (.str s) = .ok a → a.s = s ∧ ∃ t, a.t = .nums t := by
    intro s a h
    simp only [baseVersion] at h
    split at h
    · simp at h
    · cases hm : (splitChar '.' s).mapM intOrErr with
      | error e => rw [hm] at h; simp [bind, Except.bind] at h
      | ok t => rw [hm] at h; simp [bind, Except.bind] at h; subst h; simp
  obtain ⟨has, t, hat⟩ := key ha
  obtain ⟨hbs, u, hbu⟩ := key hb
  have : t = u := by rw [hat, hbu] at ht; simpa using ht
  subst this
  simp [Version.cmp, Version.eq, hat, hbu, has, hbs, hs, tupleCmp_lt, tupleCmp_gt, tupleCmp_le,
    tupleCmp_ge]

/-- Hashing agrees with equality between versions and with strings, whatever the hash function. -/
theorem C01_hash (h : Str → Int) (a b : Version) : (a.eq (.ver b) = true → a.hash h = b.hash h) ∧
    (∀ s, a.eq (.str s) = true → a.hash h = h s) := by
  simp only [Version.eq, decide_eq_true_eq, Version.hash]
  exact ⟨fun e => by rw [e], fun s e => by rw [e]⟩

/-! Non-vacuity -/
example : baseVersion (.tup [9, -1, 10]) = .ok ⟨"9.-1.10".toList, .nums [9, -1, 10]⟩ := by decide +kernel
example : baseVersion (.str "1.02".toList) = .ok ⟨"1.02".toList, .nums [1, 2]⟩ ∧
    baseVersion (.str "1.2".toList) = .ok ⟨"1.2".toList, .nums [1, 2]⟩ := by decide +kernel
example : ∃ a b, baseVersion (.tup [9, 2]) = .ok a ∧ baseVersion (.tup [9, 10]) = .ok b ∧
    a.cmp .lt b = .ok true := ⟨_, _, rfl, rfl, by decide +kernel⟩

/-! ## Cases that meet the hypotheses -/

example : ∃ a b c, baseVersion (.tup [9, 2]) = .ok a ∧ baseVersion (.tup [9, 10]) = .ok b ∧ baseVersion (.tup [9, 10, 1]) = .ok c ∧
    a.cmp .lt b = .ok true ∧ b.cmp .lt c = .ok true := ⟨_, _, _, rfl, rfl, rfl, by decide +kernel, by decide +kernel⟩

/-- `C01_noncanonical` -/
example : ∃ a b, baseVersion (.str "1.02".toList) = .ok a ∧ baseVersion (.str "1.2".toList) = .ok b ∧ a.t = b.t ∧ a.eq (.ver b) = false :=
  ⟨⟨"1.02".toList, .nums [1, 2]⟩, ⟨"1.2".toList, .nums [1, 2]⟩, by decide +kernel, by decide +kernel, rfl, by decide +kernel⟩

end Cdtb
