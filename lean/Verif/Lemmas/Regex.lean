import Verif.Model.Guess
import Verif.Lemmas.Str
/-!
# Lemmas on regular expression matches
-/
namespace Cdtb
set_option autoImplicit false
open Py

/-- The string does not start with a character of the class -/
def HeadNot (x : Char → Bool) (s : Str) : Prop := ∀ c r, s = c :: r → x c = false
/-- The string does not end with a character of the class -/
def LastNot (x : Char → Bool) (s : Str) : Prop := ∀ c r, s = r ++ [c] → x c = false

theorem headNot_dropWhile (x : Char → Bool) (s : Str) : HeadNot x (s.dropWhile x) := by
  intro c r h
  have := List.head?_dropWhile_not x s
  rw [h] at this
  simpa using this

theorem takeWhile_all (x : Char → Bool) (s : Str) : (s.takeWhile x).all x = true := by
  exact List.all_takeWhile

theorem takeWhile_run {x : Char → Bool} {w b : Str} (hw : w.all x = true) (hb : HeadNot x b) :
    (w ++ b).takeWhile x = w ∧ (w ++ b).dropWhile x = b := by
  induction w with
  | nil =>
    cases b with
    | nil => exact ⟨rfl, rfl⟩
    | cons c b => simp [List.takeWhile, List.dropWhile, hb c b rfl]
  | cons c w ih =>
    simp only [List.all_cons, Bool.and_eq_true] at hw
    obtain ⟨h1, h2⟩ := ih hw.2
    simp [hw.1, h1, h2]

theorem run_unique {x : Char → Bool} {w b w' b' : Str} (h : w ++ b = w' ++ b') (hw : w.all x = true) (hb : HeadNot x b)
    (hw' : w'.all x = true) (hb' : HeadNot x b') : w = w' ∧ b = b' := by
  have h1 := takeWhile_run hw hb
  have h2 := takeWhile_run hw' hb'
  rw [h] at h1
  exact ⟨h1.1.symm.trans h2.1, h1.2.symm.trans h2.2⟩

/-- What follows a run of characters cannot start inside: a part that ends with another character contains the run. -/
theorem run_prefix {x : Char → Bool} {run rest a t : Str} (h : run ++ rest = a ++ t) (hr : run.all x = true) (ha : a ≠ [])
    (hl : LastNot x a) : ∃ a', a = run ++ a' ∧ a' ≠ [] ∧ rest = a' ++ t := by
  rcases List.append_eq_append_iff.1 h with ⟨a', h1, h2⟩ | ⟨c', h1, h2⟩
  · rcases List.eq_nil_or_concat a' with rfl | ⟨l, c, rfl⟩
    · exfalso
      simp only [List.append_nil] at h1
      subst h1
      rcases List.eq_nil_or_concat a with rfl | ⟨l, c, rfl⟩
      · exact ha rfl
      · have := hl c l (by simp)
        simp [this] at hr
    · exact ⟨_, h1, by simp, h2⟩
  · exfalso
    rcases List.eq_nil_or_concat a with rfl | ⟨l, c, rfl⟩
    · exact ha rfl
    · have := hl c l (by simp)
      rw [h1] at hr
      simp [this] at hr

theorem greedyMatch_above (x : Char → Bool) (ok : Str → Bool) (run rest : Str) (hb : HeadNot x rest) (k : Nat) :
    greedyMatch x ok (run ++ rest) (run.length + k) = greedyMatch x ok (run ++ rest) run.length := by
  induction k with
  | zero => rfl
  | succ k ih =>
    rw [← Nat.add_assoc, greedyMatch, if_neg, ih]
    intro hc
    simp only [Bool.and_eq_true, decide_eq_true_eq] at hc
    obtain ⟨⟨h1, h2⟩, -⟩ := hc
    cases rest with
    | nil => simp at h2; omega
    | cons c rest =>
      have hx := hb c rest rfl
      rw [List.take_append, List.all_append, Bool.and_eq_true] at h1
      have h3 := h1.2
      rw [show run.length + k + 1 - run.length = k + 1 by omega] at h3
      simp [hx] at h3

theorem greedyMatch_fail (x : Char → Bool) (ok : Str → Bool) (hok : ∀ c r, x c = true → ok (c :: r) = true → ok r = true)
    (run rest : Str) (hr : run.all x = true) (hb : HeadNot x rest) (hno : ok rest = false) (n : Nat) :
    greedyMatch x ok (run ++ rest) n = none := by
  have key : ∀ r : Str, r.all x = true → ok (r ++ rest) = false := by
    intro r hr
    induction r with
    | nil => exact hno
    | cons c r ih =>
      simp only [List.all_cons, Bool.and_eq_true] at hr
      by_contra hc
      have := hok c (r ++ rest) hr.1 (by simpa using hc)
      rw [ih hr.2] at this
      simp at this
  induction n with
  | zero => rfl
  | succ n ih =>
    rw [greedyMatch, if_neg, ih]
    intro hc
    simp only [Bool.and_eq_true, decide_eq_true_eq] at hc
    obtain ⟨⟨h1, h2⟩, h3⟩ := hc
    by_cases hn : n + 1 ≤ run.length
    · rw [List.drop_append_of_le_length hn, key] at h3
      · simp at h3
      · rw [List.all_eq_true] at hr ⊢
        exact fun c hc => hr c (List.mem_of_mem_drop hc)
    · cases rest with
      | nil => simp at h2; omega
      | cons c rest =>
        have hx := hb c rest rfl
        rw [List.take_append, List.all_append, Bool.and_eq_true] at h1
        have h3 := h1.2
        obtain ⟨k, hk⟩ : ∃ k, n + 1 - run.length = k + 1 := ⟨n - run.length, by omega⟩
        rw [hk] at h3
        simp [hx] at h3

theorem greedyMatch_run (x : Char → Bool) (ok : Str → Bool) (hok : ∀ c r, x c = true → ok (c :: r) = true → ok r = true)
    (run rest : Str) (hr : run.all x = true) (hb : HeadNot x rest) :
    greedyMatch x ok (run ++ rest) (run ++ rest).length = if run ≠ [] ∧ ok rest = true then some run.length else none := by
  cases hno : ok rest with
  | false => simpa using greedyMatch_fail x ok hok run rest hr hb hno _
  | true =>
    rw [List.length_append, greedyMatch_above x ok run rest hb]
    cases run with
    | nil => simp [greedyMatch]
    | cons c run =>
      rw [List.length_cons, greedyMatch, if_pos]
      · simp
      · simp only [Bool.and_eq_true, decide_eq_true_eq]
        refine ⟨⟨?_, by simp⟩, ?_⟩
        · rw [List.take_append_of_le_length (by simp), List.take_of_length_le (by simp)]; exact hr
        · rw [List.drop_append_of_le_length (by simp), List.drop_of_length_le (by simp)]; exact hno

theorem finditer_skip (m : Str → Option Nat) (pre w s : Str) : finditer m pre w.length (w ++ s) = finditer m (pre ++ w) 0 s := by
  induction w generalizing pre with
  | nil => simp
  | cons c w ih => rw [List.length_cons, List.cons_append, finditer, ih]; simp

theorem finditer_match (m : Str → Option Nat) (pre w s : Str) (hw : w ≠ []) (hm : m (w ++ s) = some w.length) :
    finditer m pre 0 (w ++ s) = (pre, w, s) :: finditer m (pre ++ w) 0 s := by
  cases w with
  | nil => exact absurd rfl hw
  | cons c w =>
    rw [List.cons_append] at hm ⊢
    rw [finditer, hm]
    simp only [List.length_cons, Nat.add_sub_cancel, finditer_skip]
    rw [← List.cons_append]
    congr 1
    · rw [List.take_append_of_le_length (by simp), List.drop_append_of_le_length (by simp), List.take_of_length_le (by simp),
        List.drop_of_length_le (by simp)]; rfl
    · simp

theorem finditer_none (m : Str → Option Nat) (pre w s : Str) (hm : ∀ a c r, w = a ++ c :: r → m (c :: r ++ s) = none) :
    finditer m pre 0 (w ++ s) = finditer m (pre ++ w) 0 s := by
  induction w generalizing pre with
  | nil => simp
  | cons c w ih =>
    rw [List.cons_append, finditer, ← List.cons_append, hm [] c w rfl]
    simp only
    rw [ih (pre ++ [c]) fun a d r h => hm (c :: a) d r (by rw [h]; rfl)]
    simp

theorem LastNot.cons {x : Char → Bool} {c : Char} {a : Str} (hc : x c = false) (ha : LastNot x a) : LastNot x (c :: a) := by
  intro d r h
  rcases List.eq_nil_or_concat a with rfl | ⟨l, e, rfl⟩
  · cases r with
    | nil => simp at h; rw [← h]; exact hc
    | cons _ r => simp at h
  · rw [List.concat_eq_append, ← List.cons_append] at h
    have := (List.append_inj' h rfl).2
    simp only [List.cons.injEq, and_true] at this
    rw [← this]
    exact ha e l (by simp)

theorem LastNot.tail {x : Char → Bool} {p a : Str} (h : LastNot x (p ++ a)) : LastNot x a := by
  intro c r hr
  exact h c (p ++ r) (by rw [hr, List.append_assoc])

theorem LastNot.append {x : Char → Bool} {p a : Str} (h : LastNot x a) (ha : a ≠ []) : LastNot x (p ++ a) := by
  intro c r hr
  rcases List.eq_nil_or_concat a with rfl | ⟨l, e, rfl⟩
  · exact absurd rfl ha
  · rw [List.concat_eq_append, ← List.append_assoc] at hr
    have := (List.append_inj' hr rfl).2
    simp only [List.cons.injEq, and_true] at this
    rw [← this]
    exact h e l (by simp)

theorem LastNot.nil {x : Char → Bool} : LastNot x [] := by intro c r h; simp at h

/-- Matches of a run of characters of a class followed by a look-ahead: all the maximal runs followed by the right thing. -/
theorem finditer_runs (x : Char → Bool) (ok : Str → Bool) (hok : ∀ c r, x c = true → ok (c :: r) = true → ok r = true) (pre s a w b : Str) :
    (a, w, b) ∈ finditer (fun s => greedyMatch x ok s s.length) pre 0 s ↔
      ∃ a', a = pre ++ a' ∧ s = a' ++ w ++ b ∧ w ≠ [] ∧ w.all x = true ∧ LastNot x a' ∧ HeadNot x b ∧ ok b = true := by
  induction hn : s.length using Nat.strong_induction_on generalizing pre s with
  | _ n ih =>
  subst hn
  cases s with
  | nil =>
    simp only [finditer, List.not_mem_nil, false_iff]
    rintro ⟨a', -, h, hw, -⟩
    simp [hw] at h
  | cons c s =>
    cases hc : x c with
    | false =>
      have hm : greedyMatch x ok (c :: s) (c :: s).length = none := by
        have := greedyMatch_run x ok hok [] (c :: s) rfl (by intro d r h; cases h; exact hc)
        simpa using this
      rw [finditer, hm]
      simp only
      rw [ih s.length (by simp) (pre ++ [c]) s rfl]
      constructor
      · rintro ⟨a', rfl, rfl, h1, h2, h3, h4⟩
        exact ⟨c :: a', by simp, by simp, h1, h2, h3.cons hc, h4⟩
      · rintro ⟨a', rfl, h, h1, h2, h3, h4⟩
        cases a' with
        | nil =>
          cases w with
          | nil => exact absurd rfl h1
          | cons d w =>
            simp only [List.nil_append, List.cons_append, List.cons.injEq] at h
            simp [← h.1, hc] at h2
        | cons d a' =>
          simp only [List.cons_append, List.cons.injEq] at h
          exact ⟨a', by simp [h.1], h.2, h1, h2, LastNot.tail (p := [d]) h3, h4⟩
    | true =>
      have hs : c :: s = (c :: s).takeWhile x ++ (c :: s).dropWhile x := List.takeWhile_append_dropWhile.symm
      have hr := takeWhile_all x (c :: s)
      have hb := headNot_dropWhile x (c :: s)
      have hne : (c :: s).takeWhile x ≠ [] := by simp [hc]
      generalize (c :: s).takeWhile x = run at hs hr hne
      generalize (c :: s).dropWhile x = rest at hs hb
      have hlen : rest.length < (c :: s).length := by
        rw [hs, List.length_append]
        have : 0 < run.length := List.length_pos_iff.2 hne
        omega
      rw [hs] at hlen ⊢
      have hsuf : ∀ u, (∃ p, u = p ++ run ++ rest) → True := fun _ _ => trivial
      have hin : (a, w, b) ∈ finditer (fun s => greedyMatch x ok s s.length) pre 0 (run ++ rest) ↔
          (ok rest = true ∧ (a, w, b) = (pre, run, rest)) ∨ (a, w, b) ∈ finditer (fun s => greedyMatch x ok s s.length) (pre ++ run) 0 rest := by
        cases ho : ok rest with
        | true =>
          rw [finditer_match _ _ _ _ hne]
          · simp
          · rw [greedyMatch_run x ok hok run rest hr hb, if_pos ⟨hne, ho⟩]
        | false =>
          rw [finditer_none]
          · simp
          · intro a1 d r h
            refine greedyMatch_fail x ok hok (d :: r) rest ?_ hb ho _
            rw [h] at hr
            simp only [List.all_append, Bool.and_eq_true] at hr
            exact hr.2
      rw [hin, ih rest.length (by rw [← hs] at hlen; exact hlen) (pre ++ run) rest rfl]
      constructor
      · rintro (⟨ho, he⟩ | ⟨a', rfl, rfl, h1, h2, h3, h4⟩)
        · simp only [Prod.mk.injEq] at he
          obtain ⟨rfl, rfl, rfl⟩ := he
          exact ⟨[], by simp, by simp, hne, hr, LastNot.nil, hb, ho⟩
        · refine ⟨run ++ a', by simp, by simp, h1, h2, ?_, h4⟩
          cases a' with
          | nil =>
            exfalso
            cases w with
            | nil => exact h1 rfl
            | cons d w =>
              have := hb d (w ++ b) (by simp)
              simp [this] at h2
          | cons d a' => exact h3.append (by simp)
      · rintro ⟨a', rfl, h, h1, h2, h3, h4, h5⟩
        by_cases ha : a' = []
        · subst ha
          obtain ⟨rfl, rfl⟩ := run_unique (by simpa using h) hr hb h2 h4
          exact .inl ⟨h5, by simp⟩
        · obtain ⟨a'', rfl, -, h7⟩ := run_prefix (by rw [h, List.append_assoc]) hr ha h3
          exact .inr ⟨a'', by simp, by rw [h7, List.append_assoc], h1, h2, h3.tail, h4, h5⟩

/-- `X{k}` followed by a look-ahead -/
def pieceMatch (x : Char → Bool) (ok : Str → Bool) (k : Nat) (s : Str) : Option Nat :=
  if (s.take k).all x && k ≤ s.length && ok (s.drop k) then some k else none

/-- Matches of a fixed number of characters of a class followed by a look-ahead: the pieces of the maximal runs. -/
theorem finditer_pieces (x : Char → Bool) (ok : Str → Bool) (hok : ∀ c r, x c = true → ok (c :: r) = ok r) (k : Nat) (hk : k ≠ 0)
    (pre s a w b : Str) :
    (a, w, b) ∈ finditer (pieceMatch x ok k) pre 0 s ↔
      ∃ a0 r, a = pre ++ a0 ++ r ∧ s = a0 ++ r ++ w ++ b ∧ w.length = k ∧ w.all x = true ∧ r.all x = true ∧ k ∣ r.length ∧
        LastNot x a0 ∧ ok b = true := by
  have hokr : ∀ r t : Str, r.all x = true → ok (r ++ t) = ok t := by
    intro r t hr
    induction r with
    | nil => rfl
    | cons c r ih =>
      simp only [List.all_cons, Bool.and_eq_true] at hr
      rw [List.cons_append, hok c _ hr.1, ih hr.2]
  induction hn : s.length using Nat.strong_induction_on generalizing pre s with
  | _ n ih =>
  subst hn
  by_cases hm : (s.take k).all x = true ∧ k ≤ s.length ∧ ok (s.drop k) = true
  · -- a match here
    obtain ⟨m1, m2, m3⟩ := hm
    have hs : s = s.take k ++ s.drop k := (List.take_append_drop k s).symm
    have hl : (s.take k).length = k := by simp [m2]
    have hlen : (s.drop k).length < s.length := by simp; omega
    have hms : pieceMatch x ok k s = some k := by
      unfold pieceMatch
      rw [if_pos]
      simp only [Bool.and_eq_true, decide_eq_true_eq]
      exact ⟨⟨m1, m2⟩, m3⟩
    have hih := ih (s.drop k).length hlen (pre ++ s.take k) (s.drop k) rfl
    generalize s.take k = p at hs hl m1 hih
    generalize s.drop k = t at hs hih m3 hlen
    subst hs
    have hpne : p ≠ [] := by rintro rfl; simp at hl; omega
    rw [finditer_match (pieceMatch x ok k) pre p t hpne (by rw [hms, hl]), List.mem_cons, propext hih]
    constructor
    · rintro (he | ⟨a0, r, rfl, rfl, h1, h2, h3, h4, h5, h6⟩)
      · simp only [Prod.mk.injEq] at he
        obtain ⟨rfl, rfl, rfl⟩ := he
        exact ⟨[], [], by simp, by simp, hl, m1, rfl, by simp, LastNot.nil, m3⟩
      · by_cases ha : a0 = []
        · subst ha
          refine ⟨[], p ++ r, by simp, by simp, h1, h2, by simp [m1, h3], ?_, LastNot.nil, h6⟩
          rw [List.length_append, hl]
          exact (Nat.dvd_add_right (Nat.dvd_refl k)).2 h4
        · exact ⟨p ++ a0, r, by simp, by simp, h1, h2, h3, h4, h5.append ha, h6⟩
    · rintro ⟨a0, r, rfl, h, h1, h2, h3, h4, h5, h6⟩
      by_cases ha : a0 = []
      · subst ha
        by_cases hr : r = []
        · subst hr
          simp only [List.nil_append] at h
          obtain ⟨rfl, rfl⟩ := List.append_inj h (by rw [hl, h1])
          exact .inl (by simp)
        · right
          have hrk : k ≤ r.length := Nat.le_of_dvd (List.length_pos_iff.2 hr) h4
          have e : p ++ t = r.take k ++ (r.drop k ++ w ++ b) := by
            rw [h]; simp only [List.nil_append]
            conv_lhs => rw [← List.take_append_drop k r]
            simp only [List.append_assoc]
          obtain ⟨e1, e2⟩ := List.append_inj e (by rw [hl]; simp [hrk])
          refine ⟨[], r.drop k, ?_, by simpa using e2, h1, h2, ?_, ?_, LastNot.nil, h6⟩
          · rw [e1]; simp
          · rw [List.all_eq_true] at h3 ⊢
            exact fun c hc => h3 c (List.mem_of_mem_drop hc)
          · rw [List.length_drop]
            exact Nat.dvd_sub h4 (Nat.dvd_refl k)
      · right
        obtain ⟨a', rfl, -, h7⟩ := run_prefix (a := a0) (t := r ++ w ++ b) (by rw [h]; simp only [List.append_assoc]) m1 ha h5
        exact ⟨a', r, by simp, by rw [h7]; simp, h1, h2, h3, h4, h5.tail, h6⟩
  · -- no match here
    have hms : ∀ a c r, s.takeWhile x = a ++ c :: r → pieceMatch x ok k (c :: r ++ s.dropWhile x) = none := by
      intro a1 c r h
      by_contra hne
      simp only [pieceMatch] at hne
      split at hne
      swap
      · exact hne rfl
      rename_i hc
      simp only [Bool.and_eq_true, decide_eq_true_eq] at hc
      obtain ⟨⟨c1, c2⟩, c3⟩ := hc
      have hb := headNot_dropWhile x s
      have hr := takeWhile_all x s
      have hs : s = s.takeWhile x ++ s.dropWhile x := List.takeWhile_append_dropWhile.symm
      rw [h] at hr hs
      generalize s.dropWhile x = rest at *
      have hle : k ≤ (c :: r).length := by
        by_contra hlt
        rw [List.take_append, List.all_append, Bool.and_eq_true] at c1
        cases rest with
        | nil => simp at c2 hlt; omega
        | cons d rest =>
          obtain ⟨j, hj⟩ : ∃ j, k - (c :: r).length = j + 1 := ⟨k - (c :: r).length - 1, by omega⟩
          rw [hj] at c1
          have := hb d rest rfl
          simp [this] at c1
      simp only [List.all_append, Bool.and_eq_true] at hr
      refine hm ⟨?_, ?_, ?_⟩
      · rw [hs, List.take_append_of_le_length (by simp at hle ⊢; omega)]
        rw [List.all_eq_true]
        intro d hd
        have := List.mem_of_mem_take hd
        rw [List.mem_append] at this
        rcases this with h | h
        · exact (List.all_eq_true.1 hr.1) d h
        · exact (List.all_eq_true.1 hr.2) d h
      · rw [hs]; simp at hle ⊢; omega
      · have d1 : ∀ n (u : Str), u.all x = true → (u.drop n).all x = true := fun n u hu => by
          rw [List.all_eq_true] at hu ⊢
          exact fun c hc => hu c (List.mem_of_mem_drop hc)
        rw [List.drop_append_of_le_length hle, hokr _ _ (d1 _ _ hr.2)] at c3
        rw [hs, List.drop_append_of_le_length (by simp at hle ⊢; omega), hokr]
        · exact c3
        · exact d1 _ _ (by simp only [List.all_append, Bool.and_eq_true]; exact hr)
    have hs : s = s.takeWhile x ++ s.dropWhile x := List.takeWhile_append_dropWhile.symm
    have hr := takeWhile_all x s
    have hb := headNot_dropWhile x s
    generalize s.takeWhile x = run at hs hr hms
    generalize s.dropWhile x = rest at hs hb hms
    -- no decomposition starts in the run
    have hstart : ∀ r w b, s = r ++ w ++ b → w.length = k → w.all x = true → r.all x = true → ok b = true → False := by
      rintro r w b h h1 h2 h3 h4
      refine hm ⟨?_, ?_, ?_⟩
      · have : s.take k <+: r ++ w := by
          rw [List.prefix_iff_eq_take, h]
          rw [List.take_append_of_le_length (by simp; omega)]
          simp
        rw [List.all_eq_true]
        intro d hd
        have := this.subset hd
        rw [List.mem_append] at this
        rcases this with h | h
        · exact (List.all_eq_true.1 h3) d h
        · exact (List.all_eq_true.1 h2) d h
      · rw [h]; simp; omega
      · rw [h, List.drop_append_of_le_length (by simp; omega), hokr, h4]
        rw [List.all_eq_true]
        intro d hd
        have := List.mem_of_mem_drop hd
        rw [List.mem_append] at this
        rcases this with h | h
        · exact (List.all_eq_true.1 h3) d h
        · exact (List.all_eq_true.1 h2) d h
    cases hrun : run with
    | nil =>
      subst hrun
      simp only [List.nil_append] at hs
      cases s with
      | nil =>
        simp only [finditer, List.not_mem_nil, false_iff]
        rintro ⟨a0, r, -, h, hw, -⟩
        have hlen := congrArg List.length h
        simp only [List.length_nil, List.length_append] at hlen
        omega
      | cons c s =>
        have hc : x c = false := hb c s hs.symm
        have hmn : pieceMatch x ok k (c :: s) = none := by
          simp only [pieceMatch]
          rw [if_neg]
          simp only [Bool.and_eq_true, decide_eq_true_eq, and_assoc]
          exact hm
        rw [finditer, hmn]
        simp only
        rw [propext (ih s.length (by simp) (pre ++ [c]) s rfl)]
        constructor
        · rintro ⟨a0, r, rfl, rfl, h1, h2, h3, h4, h5, h6⟩
          exact ⟨c :: a0, r, by simp, by simp, h1, h2, h3, h4, h5.cons hc, h6⟩
        · rintro ⟨a0, r, rfl, h, h1, h2, h3, h4, h5, h6⟩
          cases a0 with
          | nil => exact (hstart r w b (by simpa using h) h1 h2 h3 h6).elim
          | cons d a0 =>
            simp only [List.cons_append, List.cons.injEq] at h
            exact ⟨a0, r, by simp [h.1], h.2, h1, h2, h3, h4, LastNot.tail (p := [d]) h5, h6⟩
    | cons c0 run0 =>
      have hne : run ≠ [] := by rw [hrun]; simp
      rw [← hrun] at *
      have hlen : rest.length < s.length := by
        rw [hs, List.length_append]
        have : 0 < run.length := List.length_pos_iff.2 hne
        omega
      have hfi : finditer (pieceMatch x ok k) pre 0 s = finditer (pieceMatch x ok k) (pre ++ run) 0 rest := by
        rw [hs]
        exact finditer_none (pieceMatch x ok k) pre run rest hms
      rw [hfi, propext (ih rest.length hlen (pre ++ run) rest rfl)]
      constructor
      · rintro ⟨a0, r, rfl, h, h1, h2, h3, h4, h5, h6⟩
        by_cases ha : a0 = []
        · exfalso
          subst ha
          rcases hrw : r ++ w with _ | ⟨d, u⟩
          · simp only [List.append_eq_nil_iff] at hrw
            rw [hrw.2] at h1; simp at h1; omega
          · have hd := hb d (u ++ b) (by rw [h, List.nil_append, hrw]; rfl)
            have : (r ++ w).all x = true := by simp only [List.all_append, Bool.and_eq_true]; exact ⟨h3, h2⟩
            rw [hrw] at this
            simp [hd] at this
        · exact ⟨run ++ a0, r, by simp, by rw [hs, h]; simp, h1, h2, h3, h4, h5.append ha, h6⟩
      · rintro ⟨a0, r, rfl, h, h1, h2, h3, h4, h5, h6⟩
        by_cases ha : a0 = []
        · subst ha
          exact (hstart r w b (by simpa using h) h1 h2 h3 h6).elim
        · obtain ⟨a', rfl, -, h7⟩ := run_prefix (a := a0) (t := r ++ w ++ b) (by rw [← hs, h]; simp only [List.append_assoc]) hr ha h5
          exact ⟨a', r, by simp, by rw [h7]; simp, h1, h2, h3, h4, h5.tail, h6⟩

end Cdtb
