import Verif.Props.C61
/-!
# C61: the paths that symlinks lead to
-/
namespace Cdtb
set_option autoImplicit false
open Py Spec

/-- The parts `rest` lead from the real directory `cur` to the real path `o`, following `n` symlinks: `.` stays, `..` goes up, a relative symlink is
read from the directory that has it, an absolute one from the root. -/
inductive Spec.Leads (t : DirTree) : Nat → List Str → List Str → List Str → Prop
  | here (cur : List Str) : Leads t 0 cur [] cur
  | stay {n : Nat} {cur : List Str} {c : Str} {rest o : List Str} : c = "".toList ∨ c = ".".toList → Leads t n cur rest o → Leads t n cur (c :: rest) o
  | up {n : Nat} {cur rest o : List Str} : Leads t n cur.dropLast rest o → Leads t n cur ("..".toList :: rest) o
  | down {n : Nat} {cur : List Str} {c : Str} {rest o : List Str} : c ∉ ["", ".", ".."].map String.toList → (∀ y, t.get? (cur ++ [c]) ≠ some (.link y)) →
      Leads t n (cur ++ [c]) rest o → Leads t n cur (c :: rest) o
  | relative {n : Nat} {cur : List Str} {c target : Str} {rest o : List Str} : c ∉ ["", ".", ".."].map String.toList → t.get? (cur ++ [c]) = some (.link target) →
      target.head? ≠ some '/' → Leads t n cur (splitChar '/' target ++ rest) o → Leads t (n + 1) cur (c :: rest) o
  | absolute {n : Nat} {cur : List Str} {c target : Str} {rest o : List Str} : c ∉ ["", ".", ".."].map String.toList → t.get? (cur ++ [c]) = some (.link ('/' :: target)) →
      Leads t n [] (splitChar '/' ('/' :: target) ++ rest) o → Leads t (n + 1) cur (c :: rest) o

theorem notPlain_iff (c : Str) : c ∉ ["", ".", ".."].map String.toList ↔ ¬ (c = [] ∨ c = ['.']) ∧ c ≠ ['.', '.'] := by
  have h1 : "".toList = [] := rfl
  have h2 : ".".toList = ['.'] := by decide +kernel
  have h3 : "..".toList = ['.', '.'] := by decide +kernel
  simp [h1, h2, h3, not_or, and_assoc]

theorem realGo_leads (t : DirTree) : ∀ (n : Nat) (cur rest o : List Str), realGo t n cur rest = some o ↔ ∃ k ≤ n, Leads t k cur rest o := by
  -- one walk, when what follows a symlink is known
  have walk : ∀ (n : Nat) (follow : List Str → List Str → Option (List Str)),
      (∀ cur rest o, follow cur rest = some o ↔ ∃ k, k + 1 ≤ n ∧ Leads t k cur rest o) →
      ∀ rest cur o, walkWith follow t cur rest = some o ↔ ∃ k ≤ n, Leads t k cur rest o := by
    intro n follow hf rest
    induction rest with
    | nil =>
      intro cur o
      simp only [walkWith, Option.some.injEq]
      constructor
      · rintro rfl; exact ⟨0, Nat.zero_le _, .here _⟩
      · rintro ⟨k, -, h⟩; cases h; rfl
    | cons c rest ih =>
      intro cur o
      unfold walkWith
      have e1 : "".toList = [] := rfl
      have e2 : ".".toList = ['.'] := by decide +kernel
      have e3 : "..".toList = ['.', '.'] := by decide +kernel
      by_cases h1 : c = [] ∨ c = ['.']
      · rw [if_pos h1, ih]
        constructor
        · rintro ⟨k, hk, h⟩; exact ⟨k, hk, .stay (by rw [e1, e2]; exact h1) h⟩
        · rintro ⟨k, hk, h⟩
          generalize hl : c :: rest = l at h
          cases h with
          | here => cases hl
          | stay _ h => cases hl; exact ⟨k, hk, h⟩
          | up h => cases hl; rw [e3] at h1; exact absurd h1 (by decide)
          | down hc => cases hl; exact absurd h1 ((notPlain_iff c).1 hc).1
          | relative hc => cases hl; exact absurd h1 ((notPlain_iff c).1 hc).1
          | absolute hc => cases hl; exact absurd h1 ((notPlain_iff c).1 hc).1
      rw [if_neg h1]
      by_cases h2 : c = ['.', '.']
      · rw [if_pos h2, ih]
        constructor
        · rintro ⟨k, hk, h⟩; exact ⟨k, hk, by rw [h2, ← e3]; exact .up h⟩
        · rintro ⟨k, hk, h⟩
          generalize hl : c :: rest = l at h
          cases h with
          | here => cases hl
          | stay hs h => cases hl; rw [e1, e2] at hs; exact absurd hs h1
          | up h => cases hl; exact ⟨k, hk, h⟩
          | down hc => cases hl; exact absurd h2 ((notPlain_iff c).1 hc).2
          | relative hc => cases hl; exact absurd h2 ((notPlain_iff c).1 hc).2
          | absolute hc => cases hl; exact absurd h2 ((notPlain_iff c).1 hc).2
      rw [if_neg h2]
      have hp : c ∉ ["", ".", ".."].map String.toList := (notPlain_iff c).2 ⟨h1, h2⟩
      have other : (∀ y, t.get? (cur ++ [c]) ≠ some (.link y)) → (walkWith follow t (cur ++ [c]) rest = some o ↔ ∃ k ≤ n, Leads t k cur (c :: rest) o) := by
        intro hno
        rw [ih]
        constructor
        · rintro ⟨k, hk, h⟩; exact ⟨k, hk, .down hp hno h⟩
        · rintro ⟨k, hk, h⟩
          generalize hl : c :: rest = l at h
          cases h with
          | here => cases hl
          | stay hs h => cases hl; rw [e1, e2] at hs; exact absurd hs h1
          | up h => cases hl; exact absurd e3 h2
          | down _ _ h => cases hl; exact ⟨k, hk, h⟩
          | relative _ hg => cases hl; exact absurd hg (hno _)
          | absolute _ hg => cases hl; exact absurd hg (hno _)
      split
      · rename_i target hg
        rw [hf]
        constructor
        · rintro ⟨k, hk, h⟩
          refine ⟨k + 1, hk, ?_⟩
          cases target with
          | nil => exact .relative hp hg (by simp) (by simpa [startsWith] using h)
          | cons x target =>
            by_cases hx : x = '/'
            · subst hx
              exact .absolute hp hg (by simpa [startsWith] using h)
            · exact .relative hp hg (by simpa using hx) (by simpa [startsWith, Ne.symm hx] using h)
        · rintro ⟨k, hk, h⟩
          generalize hl : c :: rest = l at h
          cases h with
          | here => cases hl
          | stay hs h => cases hl; rw [e1, e2] at hs; exact absurd hs h1
          | up h => cases hl; exact absurd e3 h2
          | down _ hno h => cases hl; exact absurd hg (hno _)
          | @relative k _ _ target' _ _ _ hg' hh h =>
            cases hl
            rw [hg] at hg'
            cases hg'
            refine ⟨k, hk, ?_⟩
            cases target with
            | nil => simpa [startsWith] using h
            | cons x target =>
              have hx : x ≠ '/' := by simpa using hh
              simpa [startsWith, Ne.symm hx] using h
          | @absolute k _ _ target' _ _ _ hg' h =>
            cases hl
            rw [hg] at hg'
            cases hg'
            exact ⟨k, hk, by simpa [startsWith] using h⟩
      · rename_i hno
        exact other fun y hy => hno y hy
  intro n
  induction n with
  | zero =>
    intro cur rest o
    unfold realGo
    exact walk 0 _ (fun cur rest o => ⟨fun h => by simp at h, fun ⟨k, hk, _⟩ => by omega⟩) rest cur o
  | succ n ih =>
    intro cur rest o
    unfold realGo
    exact walk (n + 1) _ (fun cur rest o => by
      rw [ih]
      constructor
      · rintro ⟨k, hk, h⟩; exact ⟨k, by omega, h⟩
      · rintro ⟨k, hk, h⟩; exact ⟨k, by omega, h⟩) rest cur o

/-- A path is read as a file exactly when it leads from the root to this file, following at most 40 symlinks. -/
theorem C61_reads (t : DirTree) (p : List Str) (b : Bytes) :
    ReadsFile t p b ↔ ∃ n o, n ≤ 40 ∧ Leads t n [] p o ∧ t.get? o = some (.file b) := by
  unfold ReadsFile realpath
  constructor
  · rintro ⟨o, h, hb⟩
    obtain ⟨k, hk, hl⟩ := (realGo_leads t _ _ _ _).1 h
    exact ⟨k, o, hk, hl, hb⟩
  · rintro ⟨k, o, hk, hl, hb⟩
    exact ⟨o, (realGo_leads t _ _ _ _).2 ⟨k, hk, hl⟩, hb⟩

/-- A directory `x` with a relative symlink and an absolute one, to the same file -/
def linkTree : DirTree := [(["x".toList], .dir), (["f".toList], .file [1]), (["x".toList, "rel".toList], .link "../f".toList), (["x".toList, "abs".toList], .link "/f".toList)]

example : ReadsFile linkTree ["x".toList, "rel".toList] [1] ∧ ReadsFile linkTree ["x".toList, "abs".toList] [1] :=
  ⟨⟨["f".toList], by decide +kernel, by decide +kernel⟩, ⟨["f".toList], by decide +kernel, by decide +kernel⟩⟩

end Cdtb
