import Verif.Model.GuessPaths
import Verif.Props.C56
/-!
# Replacement of matches in paths: specification and lemmas
-/
namespace Cdtb
set_option autoImplicit false
open Py

/-- `Spec.Replaced P s vs t`: reading `s` from left to right, its parts `w` for which `P w r` holds, `r` being what follows, are replaced by the
values `vs`, in order, and this gives `t`. -/
inductive Spec.Replaced (P : Str → Str → Prop) : Str → List Str → Str → Prop
  | nil : Spec.Replaced P [] [] []
  | keep (c : Char) (s : Str) (vs : List Str) (t : Str) (h : ∀ w r, c :: s = w ++ r → ¬ P w r) (hs : Spec.Replaced P s vs t) :
      Spec.Replaced P (c :: s) vs (c :: t)
  | repl (w r v : Str) (vs : List Str) (t : Str) (h : P w r) (hs : Spec.Replaced P r vs t) : Spec.Replaced P (w ++ r) (v :: vs) (v ++ t)

/-- `m` gives the length of what satisfies `P` at the start of a string. -/
def MatchesOf (m : Str → Option Nat) (P : Str → Str → Prop) : Prop :=
  (∀ s n, m s = some n → ∃ w r, s = w ++ r ∧ w.length = n ∧ P w r) ∧
  (∀ w r, P w r → w ≠ [] ∧ m (w ++ r) = some w.length)

theorem MatchesOf.none {m : Str → Option Nat} {P : Str → Str → Prop} (hm : MatchesOf m P) (s : Str) :
    m s = none ↔ ∀ w r, s = w ++ r → ¬ P w r := by
  constructor
  · rintro h w r rfl hp
    rw [(hm.2 w r hp).2] at h; cases h
  · intro h
    rcases hs : m s with _ | n
    · rfl
    · obtain ⟨w, r, h1, -, h2⟩ := hm.1 s n hs
      exact absurd h2 (h w r h1)

theorem subn_keep (m : Str → Option Nat) (new : Str) (c : Char) (r : Str) (h : m (c :: r) = none) :
    subn m new 0 (c :: r) = (c :: (subn m new 0 r).1, (subn m new 0 r).2) := by
  rw [subn, h]

theorem subn_skip (m : Str → Option Nat) (new w r : Str) : subn m new w.length (w ++ r) = subn m new 0 r := by
  induction w with
  | nil => rfl
  | cons c w ih => rw [List.length_cons, List.cons_append, subn, ih]

theorem subn_hit (m : Str → Option Nat) (new w r : Str) (hw : w ≠ []) (h : m (w ++ r) = some w.length) :
    subn m new 0 (w ++ r) = (new ++ (subn m new 0 r).1, (subn m new 0 r).2 + 1) := by
  cases w with
  | nil => exact absurd rfl hw
  | cons c w =>
    rw [List.cons_append] at h ⊢
    rw [subn, h]
    simp only [List.length_cons, Nat.add_sub_cancel]
    rw [subn_skip]

theorem replaced_exists {m : Str → Option Nat} {P : Str → Str → Prop} (hm : MatchesOf m P) (new s : Str) (vs : List Str)
    (h : vs.length = (subn m new 0 s).2) : ∃ t, Spec.Replaced P s vs t := by
  induction hn : s.length using Nat.strong_induction_on generalizing s vs with
  | _ n ih =>
    cases s with
    | nil =>
      cases vs with
      | nil => exact ⟨[], .nil⟩
      | cons => simp [subn] at h
    | cons c s =>
      rcases hc : m (c :: s) with _ | k
      · rw [subn_keep m new c s hc] at h
        obtain ⟨t, ht⟩ := ih s.length (by rw [← hn]; simp) s vs h rfl
        exact ⟨_, .keep c s vs t ((hm.none _).1 hc) ht⟩
      · obtain ⟨w, r, h1, h2, h3⟩ := hm.1 _ _ hc
        obtain ⟨hw, hwr⟩ := hm.2 w r h3
        rw [h1, subn_hit m new w r hw hwr] at h
        cases vs with
        | nil => simp at h
        | cons v vs =>
          have hl : r.length < n := by
            have := congrArg List.length h1
            rw [List.length_append] at this
            have : 0 < w.length := List.length_pos_iff.2 hw
            omega
          obtain ⟨t, ht⟩ := ih r.length hl r vs (by simpa using h) rfl
          exact ⟨v ++ t, h1 ▸ .repl w r v vs t h3 ht⟩

theorem replaced_count {m : Str → Option Nat} {P : Str → Str → Prop} (hm : MatchesOf m P) (new s : Str) (vs : List Str) (t : Str)
    (h : Spec.Replaced P s vs t) : vs.length = (subn m new 0 s).2 := by
  induction h with
  | nil => rfl
  | keep c s vs t h hs ih => rw [subn_keep m new c s ((hm.none _).2 h), ih]
  | repl w r v vs t h hs ih => rw [subn_hit m new w r (hm.2 w r h).1 (hm.2 w r h).2, List.length_cons, ih]

theorem replaced_fmt {m : Str → Option Nat} {P : Str → Str → Prop} (hm : MatchesOf m P) (s : Str) (hs : '%' ∉ s) (vs : List Str) (t : Str)
    (h : Spec.Replaced P s vs t) : pyFormat (subn m "%s".toList 0 s).1 (vs.map .str) = .ok t := by
  unfold pyFormat
  induction h with
  | nil => rfl
  | keep c s vs t h hr ih =>
    simp only [List.mem_cons, not_or] at hs
    rw [subn_keep m _ c s ((hm.none _).2 h), show c :: (subn m "%s".toList 0 s).1 = [c] ++ (subn m "%s".toList 0 s).1 from rfl,
      fmtGo_lit [c] _ _ (by simpa using hs.1), ih hs.2]
    rfl
  | repl w r v vs t h hr ih =>
    rw [subn_hit m _ w r (hm.2 w r h).1 (hm.2 w r h).2]
    have := fmtGo_s (subn m "%s".toList 0 r).1 v (vs.map .str)
    rw [ih (fun hh => hs (List.mem_append_right _ hh))] at this
    exact this

theorem replaced_braces {m : Str → Option Nat} {P : Str → Str → Prop} (hm : MatchesOf m P) (s : Str) (hs : '{' ∉ s) (v : Str)
    (vs : List Str) (t : Str) (h : Spec.Replaced P s vs t) (hv : ∀ x ∈ vs, x = v) :
    replaceGo "{}".toList v 0 (subn m "{}".toList 0 s).1 = t := by
  induction h with
  | nil => rfl
  | keep c s vs t h hr ih =>
    simp only [List.mem_cons, not_or] at hs
    rw [subn_keep m _ c s ((hm.none _).2 h), show c :: (subn m "{}".toList 0 s).1 = [c] ++ (subn m "{}".toList 0 s).1 from rfl,
      replaceGo_lit _ v '{' rfl [c] _ (by simpa using hs.1), ih hs.2 hv]
    rfl
  | repl w r x vs t h hr ih =>
    rw [subn_hit m _ w r (hm.2 w r h).1 (hm.2 w r h).2]
    simp only
    rw [replaceGo_hit _ v _ (by decide), ih (fun hh => hs (List.mem_append_right _ hh)) fun y hy => hv y (List.mem_cons_of_mem _ hy),
      hv x List.mem_cons_self]

theorem replaceGo_subn (old new : Str) (k : Nat) (s : Str) :
    replaceGo old new k s = (subn (fun s => if old.isPrefixOf s then some old.length else none) new k s).1 := by
  induction s generalizing k with
  | nil => cases k <;> rfl
  | cons c r ih =>
    cases k with
    | succ k => rw [replaceGo, subn, ih]
    | zero =>
      rw [replaceGo, subn]
      by_cases h : old.isPrefixOf (c :: r) = true
      · rw [if_pos h, if_pos h]; simp only; rw [ih]
      · rw [if_neg h, if_neg h]; simp only; rw [ih]

theorem finditer_count (m : Str → Option Nat) (new pre s : Str) (k : Nat) : (finditer m pre k s).length = (subn m new k s).2 := by
  induction s generalizing pre k with
  | nil => cases k <;> rfl
  | cons c r ih =>
    cases k with
    | succ k => rw [finditer, subn, ih]
    | zero =>
      rw [finditer, subn]
      rcases m (c :: r) with _ | n
      · simp only; rw [ih]
      · simp only [List.length_cons]; rw [ih]

theorem literal_matches (old : Str) (hold : old ≠ []) :
    MatchesOf (fun s => if old.isPrefixOf s then some old.length else none) (fun w _ => w = old) := by
  refine ⟨fun s n h => ?_, ?_⟩
  · beta_reduce at h
    by_cases hp : old.isPrefixOf s = true
    · rw [if_pos hp] at h
      obtain ⟨t, rfl⟩ := List.isPrefixOf_iff_prefix.1 hp
      exact ⟨old, t, rfl, by simpa using h, rfl⟩
    · rw [if_neg hp] at h; cases h
  · rintro w r rfl
    refine ⟨hold, ?_⟩
    beta_reduce
    rw [if_pos (List.isPrefixOf_iff_prefix.2 ⟨r, rfl⟩)]

theorem afterPrefix_iff (p s t : Str) : afterPrefix p s = some t ↔ s = p ++ t := by
  unfold afterPrefix
  constructor
  · intro h
    split at h
    · rename_i hp
      obtain ⟨u, rfl⟩ := startsWith_iff.1 hp
      rw [List.drop_left] at h
      rw [Option.some.inj h]
    · cases h
  · rintro rfl
    rw [if_pos (startsWith_iff.2 ⟨t, rfl⟩), List.drop_left]

theorem afterPrefix_none (p s : Str) : afterPrefix p s = none ↔ ∀ t, s ≠ p ++ t := by
  constructor
  · rintro h t rfl
    rw [(afterPrefix_iff p _ t).2 rfl] at h; cases h
  · intro h
    rcases hs : afterPrefix p s with _ | t
    · rfl
    · exact absurd ((afterPrefix_iff p s t).1 hs) (h t)

theorem matchDir_iff (s n r : Str) : matchDir s = some (n, r) ↔ s = n ++ '/' :: r ∧ n ≠ [] ∧ '/' ∉ n := by
  unfold matchDir
  have hs : s.takeWhile (· ≠ '/') ++ s.dropWhile (· ≠ '/') = s := List.takeWhile_append_dropWhile
  have hn : '/' ∉ s.takeWhile (· ≠ '/') := by
    intro h
    have := List.all_eq_true.1 (takeWhile_all (fun c : Char => decide (c ≠ '/')) s) _ h
    simp at this
  constructor
  · intro h
    simp only at h
    rcases hd : s.dropWhile (· ≠ '/') with _ | ⟨c, t⟩
    · rw [hd] at h; cases h
    · rw [hd] at h
      simp only at h
      split at h
      · rename_i hne
        cases h
        have hc : c = '/' := by
          have := List.head?_dropWhile_not (fun x : Char => decide (x ≠ '/')) s
          rw [hd] at this
          simpa using this
        subst hc
        rw [hd] at hs
        exact ⟨hs.symm, hne, hn⟩
      · cases h
  · rintro ⟨rfl, h1, h2⟩
    have e := takeWhile_run (x := fun c : Char => decide (c ≠ '/')) (w := n) (b := '/' :: r)
      (by simp only [List.all_eq_true, decide_eq_true_eq]; rintro c hc rfl; exact h2 hc)
      (by intro c t h; cases h; simp)
    rw [e.1, e.2]
    simp only
    rw [if_pos h1]

end Cdtb
