import Verif.Model.Hashes
import Verif.Lemmas.Path
import Verif.Props.C38
import Mathlib.Logic.Function.Iterate
/-!
# C47  directory_list returns all ancestor directories

`dirLoop fuel paths []` is the loop of `directory_list` on the known paths `paths`, stopped (`none`) if it makes more than
`fuel` iterations.
-/
namespace Cdtb
set_option autoImplicit false
open Py

/-! ## Specification -/

/-- The directories obtained by taking the parent of a path, repeatedly, at least once -/
def Spec.Ancestor (p q : Str) : Prop := ∃ n, q = dirname^[n + 1] p

/-! ## Lemmas -/

theorem dirname_shorter (p : Str) : dirname p = p ∨ (dirname p).length < p.length := by
  unfold dirname psplit
  rcases hr : rsplit1 '/' p with _ | ⟨d, b⟩
  · simp only
    cases p with
    | nil => simp
    | cons c p => right; simp
  · obtain ⟨h1, _⟩ := rsplit1_eq_some.1 hr
    simp only
    split
    · cases b with
      | nil => left; simp [h1]
      | cons c b => right; simp [h1]
    · right
      have h2 : (rstripChar '/' (d ++ ['/'])) = rstripChar '/' d := by simp [rstripChar]
      simp only
      rw [h2, h1]
      have : (rstripChar '/' d).length ≤ d.length := by
        unfold rstripChar
        rw [List.length_reverse]
        have := (List.dropWhile_sublist (l := d.reverse) (fun c => decide (c = '/'))).length_le
        simpa using this
      simp
      omega

theorem dirLoop_zero {bases dirs : List Str} : dirLoop 0 bases dirs = if bases.length = 0 then some dirs else none := by
  rw [dirLoop]

theorem dirLoop_succ (n : Nat) (bases dirs : List Str) : dirLoop (n + 1) bases dirs = if bases.length = 0 then some dirs else
    dirLoop n (((bases.map dirname).dedup).filter fun p => p ∉ dirs) (dirs ++ ((bases.map dirname).dedup).filter fun p => p ∉ dirs) := by
  rw [dirLoop]

theorem mem_nextBases {bases dirs : List Str} {q : Str} :
    q ∈ ((bases.map dirname).dedup).filter (fun p => p ∉ dirs) ↔ (∃ p ∈ bases, dirname p = q) ∧ q ∉ dirs := by
  simp

theorem dirLoop_terminates (n : Nat) (bases dirs : List Str) (hsub : ∀ p ∈ bases, p ∈ dirs) (hlen : ∀ p ∈ bases, p.length < n) :
    ∃ d, dirLoop n bases dirs = some d := by
  induction n generalizing bases dirs with
  | zero =>
    cases bases with
    | nil => exact ⟨dirs, by simp [dirLoop_zero]⟩
    | cons p b => exact absurd (hlen p (by simp)) (by omega)
  | succ n ih =>
    rw [dirLoop_succ]
    split
    · exact ⟨_, rfl⟩
    · apply ih
      · intro p hp; exact List.mem_append_right _ hp
      · intro q hq
        obtain ⟨⟨p, hp, rfl⟩, h2⟩ := mem_nextBases.1 hq
        rcases dirname_shorter p with h | h
        · rw [h] at h2; exact absurd (hsub p hp) h2
        · have := hlen p hp; omega

theorem dirLoop_mono {n : Nat} {bases dirs d : List Str} (h : dirLoop n bases dirs = some d) (k : Nat) : dirLoop (n + k) bases dirs = some d := by
  induction n generalizing bases dirs with
  | zero =>
    rw [dirLoop_zero] at h
    split at h
    · rename_i hb
      cases k with
      | zero => rw [Nat.add_zero, dirLoop_zero, if_pos hb, h]
      | succ k => rw [Nat.zero_add, dirLoop_succ, if_pos hb, h]
    · simp at h
  | succ n ih =>
    rw [show n + 1 + k = (n + k) + 1 by omega, dirLoop_succ]
    rw [dirLoop_succ] at h
    split at h
    · rename_i hb; rw [if_pos hb, h]
    · rename_i hb; rw [if_neg hb]; exact ih h

/-- Invariant of the loop -/
structure DirInv (paths bases dirs : List Str) : Prop where
  nodup : dirs.Nodup
  sound : ∀ q ∈ dirs, ∃ p ∈ paths, Spec.Ancestor p q
  closed : ∀ q ∈ dirs, q ∈ bases ∨ dirname q ∈ dirs
  base : ∀ q ∈ bases, q ∈ dirs
  parents : ∀ p ∈ paths, dirname p ∈ dirs

theorem DirInv.next {paths bases dirs : List Str} (h : DirInv paths bases dirs) :
    DirInv paths (((bases.map dirname).dedup).filter fun p => p ∉ dirs) (dirs ++ ((bases.map dirname).dedup).filter fun p => p ∉ dirs) where
  nodup := by
    rw [List.nodup_append]
    refine ⟨h.nodup, (List.nodup_dedup _).filter _, ?_⟩
    rintro a ha b hb rfl
    exact (mem_nextBases.1 hb).2 ha
  sound q hq := by
    rcases List.mem_append.1 hq with hq | hq
    · exact h.sound q hq
    · obtain ⟨⟨p, hp, rfl⟩, _⟩ := mem_nextBases.1 hq
      obtain ⟨x, hx, n, rfl⟩ := h.sound p (h.base p hp)
      exact ⟨x, hx, n + 1, (Function.iterate_succ_apply' dirname (n + 1) x).symm⟩
  closed q hq := by
    rcases List.mem_append.1 hq with hq | hq
    · rcases h.closed q hq with hq' | hq'
      · right
        by_cases hd : dirname q ∈ dirs
        · simp [hd]
        · exact List.mem_append_right _ (mem_nextBases.2 ⟨⟨q, hq', rfl⟩, hd⟩)
      · right; simp [hq']
    · exact Or.inl hq
  base q hq := List.mem_append_right _ hq
  parents p hp := List.mem_append_left _ (h.parents p hp)

theorem dirLoop_spec {n : Nat} {paths bases dirs d : List Str} (h : DirInv paths bases dirs) (hd : dirLoop n bases dirs = some d) :
    DirInv paths [] d := by
  induction n generalizing bases dirs with
  | zero =>
    rw [dirLoop_zero] at hd
    split at hd
    · rename_i hb
      rw [List.length_eq_zero_iff] at hb
      cases hd
      exact hb ▸ h
    · simp at hd
  | succ n ih =>
    rw [dirLoop_succ] at hd
    split at hd
    · rename_i hb
      rw [List.length_eq_zero_iff] at hb
      cases hd
      exact hb ▸ h
    · exact ih h.next hd

theorem DirInv.first (paths : List Str) :
    DirInv paths (((paths.map dirname).dedup).filter fun p => p ∉ ([] : List Str)) ([] ++ ((paths.map dirname).dedup).filter fun p => p ∉ ([] : List Str)) where
  nodup := by simpa using List.nodup_dedup _
  sound q hq := by
    simp only [List.nil_append] at hq
    obtain ⟨⟨p, hp, rfl⟩, _⟩ := mem_nextBases.1 hq
    exact ⟨p, hp, 0, rfl⟩
  closed q hq := by simp only [List.nil_append] at hq; exact Or.inl hq
  base q hq := by simpa using hq
  parents p hp := by
    simp only [List.nil_append]
    exact mem_nextBases.2 ⟨⟨p, hp, rfl⟩, by simp⟩

theorem length_le_sum {paths : List Str} {p : Str} (h : p ∈ paths) : p.length ≤ (paths.map List.length).sum := by
  induction paths with
  | nil => simp at h
  | cons x l ih =>
    rcases List.mem_cons.1 h with rfl | h
    · simp
    · have := ih h; simp; omega

theorem dirLoop_ok (paths : List Str) : ∃ d, dirLoop (dirFuel paths) paths [] = some d ∧ d.Nodup ∧
    ∀ q, q ∈ d ↔ ∃ p ∈ paths, Spec.Ancestor p q := by
  cases hp : paths with
  | nil => exact ⟨[], by simp [dirFuel, dirLoop_succ], by simp, by simp⟩
  | cons p0 ps =>
    rw [← hp]
    have hne : ¬ paths.length = 0 := by simp [hp]
    have e : dirFuel paths = ((paths.map List.length).sum + 1) + 1 := rfl
    have hi := DirInv.first paths
    obtain ⟨d, hd⟩ := dirLoop_terminates ((paths.map List.length).sum + 1) _ _ hi.base (by
      intro q hq
      obtain ⟨⟨p, hp, rfl⟩, _⟩ := mem_nextBases.1 hq
      have := length_le_sum hp
      rcases dirname_shorter p with h | h
      · rw [h]; omega
      · omega)
    have hs := dirLoop_spec hi hd
    refine ⟨d, by rw [e, dirLoop_succ, if_neg hne]; exact hd, hs.nodup, fun q => ⟨hs.sound q, ?_⟩⟩
    rintro ⟨p, hp, n, rfl⟩
    induction n with
    | zero => exact hs.parents p hp
    | succ n ih =>
      rw [Function.iterate_succ_apply']
      rcases hs.closed _ ih with h | h
      · simp at h
      · exact h

/-! ## Theorems -/

/-- The loop stops, for any known paths; the number of iterations allowed does not matter once it is large enough. -/
theorem C47_terminates (paths : List Str) : ∃ d n0, ∀ n ≥ n0, dirLoop n paths [] = some d ∧ computeDirs paths = d := by
  obtain ⟨d, hd, _⟩ := dirLoop_ok paths
  refine ⟨d, dirFuel paths, fun n hn => ?_⟩
  obtain ⟨k, rfl⟩ := Nat.exists_eq_add_of_le hn
  exact ⟨dirLoop_mono hd k, by rw [computeDirs, hd]; rfl⟩

/-- The result is the set of all parents, parents of parents, etc. of known paths. -/
theorem C47_ancestors (g : Guesser) :
    (g.directoryList false).2.Nodup ∧ ∀ q, q ∈ (g.directoryList false).2 ↔ ∃ h p, (h, p) ∈ g.known ∧ Spec.Ancestor p q := by
  obtain ⟨d, hd, h1, h2⟩ := dirLoop_ok g.known.values
  have e : (g.directoryList false).2 = d := by
    show computeDirs g.known.values = d
    rw [computeDirs, hd]; rfl
  rw [e]
  refine ⟨h1, fun q => ?_⟩
  rw [h2]
  simp only [Dict.values, List.mem_map]
  constructor
  · rintro ⟨p, ⟨⟨h, _⟩, hkv, rfl⟩, ha⟩; exact ⟨h, _, hkv, ha⟩
  · rintro ⟨h, p, hkv, ha⟩; exact ⟨p, ⟨(h, p), hkv, rfl⟩, ha⟩

theorem dirname_join (cs : List Str) (c : Str) (hc : ∀ x ∈ cs ++ [c], x ≠ [] ∧ '/' ∉ x) :
    dirname (join ['/'] (cs ++ [c])) = join ['/'] cs := by
  rcases List.eq_nil_or_concat cs with rfl | ⟨cs', x, rfl⟩
  · have : '/' ∉ c := (hc c (by simp)).2
    simp [join, dirname, psplit, rsplit1_eq_none.2 this]
  · rw [List.concat_eq_append] at *
    have hj : ∀ l : List Str, l ≠ [] → join ['/'] (l ++ [c]) = join ['/'] l ++ '/' :: c := by
      intro l
      induction l with
      | nil => simp
      | cons y l ih =>
        intro _
        cases l with
        | nil => simp [join]
        | cons z l =>
          rw [List.cons_append, join_cons (by simp), ih (by simp), join_cons (p := y) (by simp)]
          simp
    have hne : ∀ (l : List Str) (x : Str), ∃ r, join ['/'] (l ++ [x]) = r ++ x := by
      intro l x
      induction l with
      | nil => exact ⟨[], by simp [join]⟩
      | cons y l ih =>
        obtain ⟨r, hr⟩ := ih
        exact ⟨y ++ ['/'] ++ r, by rw [List.cons_append, join_cons (by simp), hr]; simp⟩
    rw [hj _ (by simp)]
    obtain ⟨r, hr⟩ := hne cs' x
    rw [hr]
    obtain ⟨hx1, hx2⟩ := hc x (by simp)
    have hcc := (hc c (by simp)).2
    unfold dirname psplit
    rw [(rsplit1_eq_some (a := r ++ x) (b := c)).2 ⟨rfl, hcc⟩]
    simp only
    obtain ⟨x', y, rfl⟩ : ∃ x' y, x = x' ++ [y] := by
      rcases List.eq_nil_or_concat x with rfl | ⟨x', y, rfl⟩
      · exact absurd rfl hx1
      · exact ⟨x', y, List.concat_eq_append⟩
    have hy : y ≠ '/' := fun h => hx2 (by simp [h])
    rw [if_neg]
    · simp [rstripChar, hy]
    · simp [hy]

/-- For a relative path made of components, the ancestors are its proper prefixes, including the empty one. -/
theorem C47_components (cs : List Str) (hne : cs ≠ []) (hc : ∀ x ∈ cs, x ≠ [] ∧ '/' ∉ x) (q : Str) :
    Spec.Ancestor (join ['/'] cs) q ↔ ∃ k < cs.length, q = join ['/'] (cs.take k) := by
  have hit : ∀ n, dirname^[n] (join ['/'] cs) = join ['/'] (cs.take (cs.length - n)) := by
    intro n
    induction n with
    | zero => simp
    | succ n ih =>
      rw [Function.iterate_succ_apply', ih]
      by_cases hn : n < cs.length
      · obtain ⟨k, hk⟩ : ∃ k, cs.length - n = k + 1 := ⟨cs.length - n - 1, by omega⟩
        have hkl : k < cs.length := by omega
        rw [hk, show cs.length - (n + 1) = k by omega, List.take_succ_eq_append_getElem hkl]
        apply dirname_join
        intro x hx
        apply hc
        rcases List.mem_append.1 hx with hx | hx
        · exact List.mem_of_mem_take hx
        · simp only [List.mem_singleton] at hx; rw [hx]; exact List.getElem_mem _
      · rw [show cs.length - n = 0 by omega, show cs.length - (n + 1) = 0 by omega]
        simp [join, dirname, psplit, rsplit1]
  have hpos : 0 < cs.length := List.length_pos_iff.2 hne
  constructor
  · rintro ⟨n, rfl⟩
    exact ⟨cs.length - (n + 1), by omega, hit (n + 1)⟩
  · rintro ⟨k, hk, rfl⟩
    exact ⟨cs.length - k - 1, by rw [hit]; congr 2; omega⟩

/-- The result is computed once: without `cached=False`, it does not see the paths found later. -/
theorem C47_cached (g : Guesser) (H : Str → Int) (ps : List Str) :
    let r := g.directoryList true
    (r.1.checkIter H ps).directoryList true = (r.1.checkIter H ps, r.2) := by
  have hd : ∀ (g : Guesser), (g.checkIter H ps).dirs = g.dirs := by
    induction ps with
    | nil => exact fun _ => rfl
    | cons p ps ih =>
      intro g
      rw [Guesser.checkIter, ih]
      split <;> rfl
  have h1 : ∃ l, (g.directoryList true).1.dirs = some l ∧ (g.directoryList true).2 = l := by
    unfold Guesser.directoryList
    split
    · rename_i l h _; exact ⟨_, ‹_›, rfl⟩
    · exact ⟨_, rfl, rfl⟩
  obtain ⟨l, h2, h3⟩ := h1
  have h4 : ∀ (g : Guesser) l, g.dirs = some l → g.directoryList true = (g, l) := by
    intro g l h
    simp [Guesser.directoryList, h]
  simp only
  rw [h4 _ l (by rw [hd, h2]), h3]

example : computeDirs ["a/b/c".toList, "a/x".toList, "/r".toList] = ["a/b".toList, "a".toList, "/".toList, []] := by decide +kernel

example : ["a".toList, "b".toList, "c".toList] ≠ [] ∧ ∀ x ∈ ["a".toList, "b".toList, "c".toList], x ≠ [] ∧ '/' ∉ x := by decide +kernel

end Cdtb
