import Verif.Py.Path
import Mathlib.Data.List.Basic
/-! Lemmas about split/join and friends. -/
namespace Cdtb
set_option autoImplicit false
namespace Py

theorem splitChar_ne_nil (c : Char) (s : Str) : splitChar c s ≠ [] := by
  cases s with
  | nil => simp [splitChar]
  | cons x xs => simp only [splitChar]; split; · simp
                 · split <;> simp

theorem splitChar_of_not_mem {c : Char} {s : Str} (h : c ∉ s) : splitChar c s = [s] := by
  induction s with
  | nil => rfl
  | cons x xs ih =>
    simp only [List.mem_cons, not_or] at h
    simp [splitChar, Ne.symm h.1, ih h.2]

theorem splitChar_append {c : Char} {s : Str} (h : c ∉ s) (t : Str) :
    splitChar c (s ++ c :: t) = s :: splitChar c t := by
  induction s with
  | nil => simp [splitChar]
  | cons x xs ih =>
    simp only [List.mem_cons, not_or] at h
    simp [splitChar, Ne.symm h.1, ih h.2]

/-- `c.join(parts).split(c) = parts` when no part contains `c`. -/
theorem splitChar_join {c : Char} : ∀ {ps : List Str}, ps ≠ [] → (∀ p ∈ ps, c ∉ p) →
    splitChar c (join [c] ps) = ps
  | [], h, _ => absurd rfl h
  | [p], _, h => by simpa [join] using splitChar_of_not_mem (h p (by simp))
  | p :: q :: ps, _, h => by
    have h1 := h p (by simp)
    have h2 := splitChar_join (c := c) (ps := q :: ps) (by simp) (fun x hx => h x (List.mem_cons_of_mem _ hx))
    simp only [join, List.append_assoc, List.singleton_append]
    rw [splitChar_append h1, h2]

/-- `c.join(s.split(c)) = s` -/
theorem join_splitChar (c : Char) : ∀ s : Str, join [c] (splitChar c s) = s
  | [] => rfl
  | x :: xs => by
    have ih := join_splitChar c xs
    simp only [splitChar]
    split
    · subst x
      cases h : splitChar c xs with
      | nil => exact absurd h (splitChar_ne_nil _ _)
      | cons p ps => rw [h] at ih; simp [join, ih]
    · cases h : splitChar c xs with
      | nil => exact absurd h (splitChar_ne_nil _ _)
      | cons p ps =>
        rw [h] at ih
        cases ps with
        | nil => simpa [join] using ih
        | cons q qs => simpa [join] using ih

theorem splitChar_not_mem (c : Char) : ∀ (s : Str), ∀ p ∈ splitChar c s, c ∉ p
  | [] => by simp [splitChar]
  | x :: xs => by
    have ih := splitChar_not_mem c xs
    simp only [splitChar]
    split
    · intro p hp
      rcases List.mem_cons.1 hp with rfl | hp
      · simp
      · exact ih p hp
    · cases h : splitChar c xs with
      | nil => exact absurd h (splitChar_ne_nil _ _)
      | cons p ps =>
        rw [h] at ih
        intro q hq
        rcases List.mem_cons.1 hq with rfl | hq
        · have := ih p (by simp)
          simp_all [eq_comm]
        · exact ih q (by simp [hq])

theorem split1_eq_some {c : Char} {s a b : Str} : split1 c s = some (a, b) ↔ s = a ++ c :: b ∧ c ∉ a := by
  induction s generalizing a b with
  | nil => simp [split1]
  | cons x xs ih =>
    simp only [split1]
    split
    · subst x
      constructor
      · simp only [Option.some.injEq, Prod.mk.injEq]; rintro ⟨rfl, rfl⟩; simp
      · rintro ⟨h, hc⟩
        cases a with
        | nil => simpa using h
        | cons y ys => simp at h hc; exact absurd h.1 hc.1
    · rename_i hx
      constructor
      · cases hs : split1 c xs with
        | none => simp
        | some ab =>
          obtain ⟨a', b'⟩ := ab
          simp only [Option.some.injEq, Prod.mk.injEq]
          rintro ⟨rfl, rfl⟩
          have := ih.1 hs
          simp [this.1, this.2, Ne.symm hx]
      · rintro ⟨h, hc⟩
        cases a with
        | nil => simp at h; exact absurd h.1 hx
        | cons y ys =>
          simp at h hc
          rw [ih.2 ⟨h.2, hc.2⟩]; simp [h.1]

theorem split1_eq_none {c : Char} {s : Str} : split1 c s = none ↔ c ∉ s := by
  induction s with
  | nil => simp [split1]
  | cons x xs ih =>
    simp only [split1, List.mem_cons, not_or]
    split
    · subst x; simp
    · rename_i hx
      cases hs : split1 c xs with
      | none => simp [ih.1 hs, Ne.symm hx]
      | some ab => simp only [reduceCtorEq, false_iff, not_and, not_not]
                   intro _; by_contra hh; rw [ih.2 hh] at hs; simp at hs

theorem rsplit1_eq_none {c : Char} {s : Str} : rsplit1 c s = none ↔ c ∉ s := by
  induction s with
  | nil => simp [rsplit1]
  | cons x xs ih =>
    simp only [rsplit1, List.mem_cons, not_or]
    cases hs : rsplit1 c xs with
    | none => simp [ih.1 hs, eq_comm (a := c)]
    | some ab => simp only [reduceCtorEq, false_iff, not_and, not_not]
                 intro _; by_contra hh; rw [ih.2 hh] at hs; simp at hs

theorem rsplit1_eq_some {c : Char} {s a b : Str} : rsplit1 c s = some (a, b) ↔ s = a ++ c :: b ∧ c ∉ b := by
  induction s generalizing a b with
  | nil => simp [rsplit1]
  | cons x xs ih =>
    simp only [rsplit1]
    cases hs : rsplit1 c xs with
    | none =>
      have hn := rsplit1_eq_none.1 hs
      constructor
      · dsimp only
        split
        · subst x; simp only [Option.some.injEq, Prod.mk.injEq]; rintro ⟨rfl, rfl⟩; simp [hn]
        · simp
      · rintro ⟨h, hc⟩
        cases a with
        | nil => simp at h; simp [h.1, h.2]
        | cons y ys => simp at h; exact absurd (by simp [h.2]) hn
    | some ab =>
      obtain ⟨a', b'⟩ := ab
      have h' := ih.1 hs
      constructor
      · simp only [Option.some.injEq, Prod.mk.injEq]
        rintro ⟨rfl, rfl⟩; simp [h'.1, h'.2]
      · rintro ⟨h, hc⟩
        cases a with
        | nil => simp at h; exact absurd (by rw [← h.2, h'.1]; simp) hc
        | cons y ys =>
          simp at h
          have := ih.2 ⟨h.2, hc⟩
          rw [hs] at this; simp at this
          simp [h.1, this.1, this.2]

theorem startsWith_iff {s p : Str} : startsWith s p = true ↔ ∃ t, s = p ++ t := by
  simp only [startsWith, List.isPrefixOf_iff_prefix, List.IsPrefix]
  exact ⟨fun ⟨t, h⟩ => ⟨t, h.symm⟩, fun ⟨t, h⟩ => ⟨t, h.symm⟩⟩

theorem endsWith_iff {s p : Str} : endsWith s p = true ↔ ∃ t, s = t ++ p := by
  simp only [endsWith, List.isSuffixOf_iff_suffix, List.IsSuffix]
  exact ⟨fun ⟨t, h⟩ => ⟨t, h.symm⟩, fun ⟨t, h⟩ => ⟨t, h.symm⟩⟩

theorem join_nonempty {sep : Str} {ps : List Str} (h : ∃ p ∈ ps, p ≠ []) : join sep ps ≠ [] := by
  match ps, h with
  | [p], h => simpa [join] using h
  | p :: q :: ps, ⟨x, hx, hne⟩ =>
    simp only [join]
    rcases List.mem_cons.1 hx with rfl | hx
    · simp [hne]
    · have := join_nonempty (sep := sep) (ps := q :: ps) ⟨x, hx, hne⟩
      simp [this]

theorem join_cons {sep p : Str} {ps : List Str} (h : ps ≠ []) : join sep (p :: ps) = p ++ sep ++ join sep ps := by
  cases ps with
  | nil => exact absurd rfl h
  | cons q qs => rfl

end Py
end Cdtb
