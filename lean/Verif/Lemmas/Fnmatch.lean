import Verif.Model.Fnmatch
import Verif.Spec.Fnmatch
import Verif.Lemmas.Str
/-!
# Lemmas on patterns
-/
namespace Cdtb
set_option autoImplicit false
open Py Spec

/-! ## Classes -/

/-- A text between brackets, with its `!` -/
def IsStuff (stuff : Str) : Prop := (ClassBody stuff ∧ stuff.head? ≠ some '!') ∨ ∃ body, stuff = '!' :: body ∧ ClassBody body

theorem classEnd_some {p stuff r : Str} (h : classEnd p = some (stuff, r)) : p = stuff ++ ']' :: r ∧ IsStuff stuff := by
  unfold classEnd at h
  simp only at h
  split at h
  · cases h
  rename_i a r' hs
  simp only [Option.some.injEq, Prod.mk.injEq] at h
  obtain ⟨rfl, rfl⟩ := h
  obtain ⟨e, hn⟩ := split1_eq_some.1 hs
  rw [List.append_assoc, ← e, List.take_append_drop]
  refine ⟨rfl, ?_⟩
  rcases p with _ | ⟨x, p⟩
  · simp at e
  by_cases hx : x = '!'
  · subst hx
    right
    simp only [List.head?_cons, if_true, List.drop_succ_cons, List.drop_zero] at e ⊢
    rcases p with _ | ⟨y, p⟩
    · simp at e
    by_cases hy : y = ']'
    · subst hy
      simp only [List.head?_cons, if_true, List.drop_succ_cons, List.drop_zero, List.take_succ_cons, List.take_zero] at e ⊢
      exact ⟨']' :: a, rfl, ']', a, rfl, hn⟩
    · simp only [List.head?_cons, Option.some.injEq, hy, if_false, List.drop_succ_cons, List.drop_zero, List.take_succ_cons, List.take_zero] at e ⊢
      rcases a with _ | ⟨z, a⟩
      · simp at e; exact absurd e.1 hy
      · exact ⟨z :: a, rfl, z, a, rfl, fun h' => hn (List.mem_cons_of_mem _ h')⟩
  · left
    simp only [List.head?_cons, Option.some.injEq, hx, if_false, List.drop_zero] at e ⊢
    by_cases hy : x = ']'
    · subst hy
      simp only [if_true, List.drop_succ_cons, List.drop_zero, List.take_succ_cons, List.take_zero] at e ⊢
      exact ⟨⟨']', a, rfl, hn⟩, by simp⟩
    · simp only [hy, if_false, List.drop_zero, List.take_zero, List.nil_append] at e ⊢
      rcases a with _ | ⟨z, a⟩
      · simp at e; exact absurd e.1 hy
      · simp only [List.cons_append, List.cons.injEq] at e
        refine ⟨⟨z, a, rfl, fun h' => hn (List.mem_cons_of_mem _ h')⟩, ?_⟩
        rw [← e.1]; simpa using hx

theorem split1_append {c : Char} {a r : Str} (h : c ∉ a) : split1 c (a ++ c :: r) = some (a, r) := split1_eq_some.2 ⟨rfl, h⟩

theorem classEnd_stuff {stuff : Str} (r : Str) (h : IsStuff stuff) : classEnd (stuff ++ ']' :: r) = some (stuff, r) := by
  unfold classEnd
  rcases h with ⟨⟨x, b, rfl, hb⟩, hx⟩ | ⟨_, rfl, x, b, rfl, hb⟩
  · simp only [List.head?_cons, ne_eq, Option.some.injEq] at hx
    by_cases hy : x = ']'
    · subst hy
      simp [split1_append hb]
    · have : ']' ∉ x :: b := by simp [hb, Ne.symm hy]
      have h2 := split1_append (r := r) this
      simp only [List.cons_append] at h2
      simp [hx, hy, h2]
  · by_cases hy : x = ']'
    · subst hy
      simp [split1_append hb]
    · have : ']' ∉ x :: b := by simp [hb, Ne.symm hy]
      have h2 := split1_append (r := r) this
      simp only [List.cons_append] at h2
      simp [hy, h2]

theorem classEnd_none {p : Str} : classEnd p = none ↔ Unclosed p := by
  constructor
  · intro h body r hb
    constructor
    · intro hx e
      rw [e, classEnd_stuff r (Or.inl ⟨hb, hx⟩)] at h
      cases h
    · intro e
      have := classEnd_stuff r (Or.inr ⟨body, rfl, hb⟩)
      rw [List.cons_append] at this
      rw [e, List.cons_append, this] at h
      cases h
  · intro h
    cases e : classEnd p with
    | none => rfl
    | some x =>
      obtain ⟨stuff, r⟩ := x
      obtain ⟨e1, h1 | ⟨body, rfl, h1⟩⟩ := classEnd_some e
      · exact absurd e1 ((h _ r h1.1).1 h1.2)
      · exact absurd e1 ((h _ r h1).2)

/-! ## Chunks -/

/-- A character put at the start of the first chunk -/
def consHead (x : Char) : List Str → List Str
  | [] => [[x]]
  | c :: cs => (x :: c) :: cs

theorem cutDash_hit {skip : Nat} {a r : Str} {b : Str} (hl : b.length = skip) (h : '-' ∉ a) : cutDash skip (b ++ a ++ '-' :: r) = some (b ++ a, r) := by
  subst hl
  unfold cutDash
  simp [split1_append h]

theorem cutDash_cases (skip : Nat) (s : Str) : (cutDash skip s = none ∧ '-' ∉ s.drop skip) ∨
    ∃ a r, s.drop skip = a ++ '-' :: r ∧ '-' ∉ a ∧ cutDash skip s = some (s.take skip ++ a, r) := by
  unfold cutDash
  cases e : split1 '-' (s.drop skip) with
  | none => exact Or.inl ⟨rfl, split1_eq_none.1 e⟩
  | some x =>
    obtain ⟨a, r⟩ := x
    obtain ⟨h1, h2⟩ := split1_eq_some.1 e
    exact Or.inr ⟨a, r, h1, h2, rfl⟩

/-- One more character before: the search starts one character later. -/
theorem cutDash_cons (skip : Nat) (x : Char) (s : Str) : cutDash (skip + 1) (x :: s) = (cutDash skip s).map fun y => (x :: y.1, y.2) := by
  unfold cutDash
  simp only [List.drop_succ_cons]
  cases split1 '-' (s.drop skip) <;> simp

theorem cutDash_length {skip : Nat} {s a r : Str} (h : cutDash skip s = some (a, r)) : r.length < s.length := by
  obtain ⟨h0, -⟩ | ⟨a', r', e, h1, h2⟩ := cutDash_cases skip s
  · rw [h0] at h; cases h
  · rw [h2] at h
    simp only [Option.some.injEq, Prod.mk.injEq] at h
    have := congrArg List.length e
    simp at this
    rw [← h.2]; omega

theorem chunkLoop_fuel : ∀ (n m skip : Nat) (s : Str), s.length ≤ n → s.length ≤ m → chunkLoop n skip s = chunkLoop m skip s := by
  intro n
  induction n with
  | zero =>
    intro m skip s hn hm
    have : s = [] := List.length_eq_zero_iff.1 (by omega)
    subst this
    cases m with
    | zero => rfl
    | succ m => simp [chunkLoop, cutDash, split1]
  | succ n ih =>
    intro m skip s hn hm
    cases m with
    | zero =>
      have : s = [] := List.length_eq_zero_iff.1 (by omega)
      subst this
      simp [chunkLoop, cutDash, split1]
    | succ m =>
      simp only [chunkLoop]
      cases e : cutDash skip s with
      | none => rfl
      | some x =>
        obtain ⟨a, r⟩ := x
        have := cutDash_length e
        simp only
        rw [ih m 2 r (by omega) (by omega)]

/-- Chunks with enough fuel -/
def rangeChunks (skip : Nat) (s : Str) : List Str := chunkLoop s.length skip s

theorem rangeChunks_eq (skip : Nat) (s : Str) : rangeChunks skip s = match cutDash skip s with
    | none => [s]
    | some (a, r) => if r.isEmpty then [a ++ ['-']] else a :: rangeChunks 2 r := by
  unfold rangeChunks
  rw [chunkLoop_fuel s.length (s.length + 1) skip s (Nat.le_refl _) (by omega)]
  simp only [chunkLoop]
  cases e : cutDash skip s with
  | none => rfl
  | some x =>
    obtain ⟨a, r⟩ := x
    have := cutDash_length e
    simp only
    rw [chunkLoop_fuel s.length r.length 2 r (by omega) (Nat.le_refl _)]

theorem rangeChunks_cons (skip : Nat) (x : Char) (s : Str) : rangeChunks (skip + 1) (x :: s) = consHead x (rangeChunks skip s) := by
  rw [rangeChunks_eq, rangeChunks_eq skip s, cutDash_cons]
  cases e : cutDash skip s with
  | none => simp [consHead]
  | some y =>
    obtain ⟨a, r⟩ := y
    simp only [Option.map_some]
    split <;> simp [consHead]

theorem rangeChunks_no_dash (s : Str) (h : s.head? ≠ some '-') : rangeChunks 0 s = rangeChunks 1 s := by
  rw [rangeChunks_eq, rangeChunks_eq 1 s]
  have : cutDash 0 s = cutDash 1 s := by
    cases s with
    | nil => simp [cutDash, split1]
    | cons y s =>
      have hy : y ≠ '-' := by simpa using h
      simp only [cutDash, List.drop_zero, List.drop_succ_cons, split1, if_neg hy]
      cases split1 '-' s <;> simp
  rw [this]

theorem rangeChunks_char {x : Char} {s : Str} (h : s.head? ≠ some '-') : rangeChunks 1 (x :: s) = consHead x (rangeChunks 1 s) := by
  rw [rangeChunks_cons, rangeChunks_no_dash s h]

theorem rangeChunks_end (x : Char) : rangeChunks 1 [x, '-'] = [[x, '-']] := by
  rw [rangeChunks_eq]; simp [cutDash, split1]

theorem rangeChunks_range (x y : Char) (r : Str) : rangeChunks 1 (x :: '-' :: y :: r) = [x] :: consHead y (rangeChunks 1 r) := by
  rw [rangeChunks_eq]
  simp [cutDash, split1, rangeChunks_cons]

/-! ## Ranges -/

/-- Characters and ranges of a text, from left to right -/
def textItems : Str → List (Char × Char)
  | [] => []
  | [x] => [(x, x)]
  | x :: '-' :: y :: r => (x, y) :: textItems r
  | x :: r => (x, x) :: textItems r

theorem textItems_char {x : Char} {r : Str} (h : ∀ b r', r ≠ '-' :: b :: r') : textItems (x :: r) = (x, x) :: textItems r := by
  rcases r with _ | ⟨y, r⟩
  · simp [textItems]
  · rw [textItems]
    · simp
    · intro b r' e
      exact h _ _ e

theorem textItems_mem : ∀ (s : Str) (c : Char), InClass s c ↔ ∃ x ∈ textItems s, x.1 ≤ c ∧ c ≤ x.2
  | [], c => by
    simp only [textItems, List.not_mem_nil, false_and, exists_false, iff_false]
    intro h; cases h
  | [x], c => by
    simp only [textItems, List.mem_singleton, exists_eq_left]
    constructor
    · intro h
      cases h with
      | char => exact ⟨Char.le_refl _, Char.le_refl _⟩
      | afterChar _ _ _ _ h => cases h
    · rintro ⟨h1, h2⟩
      have := Char.le_antisymm h1 h2
      subst this
      exact .char _ _ (by simp)
  | x :: '-' :: y :: r, c => by
    simp only [textItems, List.mem_cons, exists_eq_or_imp]
    rw [← textItems_mem r c]
    constructor
    · intro h
      cases h with
      | range _ _ _ _ h1 h2 => exact Or.inl ⟨h1, h2⟩
      | afterRange _ _ _ _ h => exact Or.inr h
      | char _ _ h => exact absurd rfl (h _ _)
      | afterChar _ _ _ h => exact absurd rfl (h _ _)
    · rintro (⟨h1, h2⟩ | h)
      · exact .range _ _ _ _ h1 h2
      · exact .afterRange _ _ _ _ h
  | x :: y :: r, c => by
    by_cases hr : ∃ b r', y :: r = '-' :: b :: r'
    · obtain ⟨b, r', e⟩ := hr
      simp only [List.cons.injEq] at e
      obtain ⟨rfl, rfl⟩ := e
      simp only [textItems, List.mem_cons, exists_eq_or_imp]
      rw [← textItems_mem r' c]
      constructor
      · intro h
        cases h with
        | range _ _ _ _ h1 h2 => exact Or.inl ⟨h1, h2⟩
        | afterRange _ _ _ _ h => exact Or.inr h
        | char _ _ h => exact absurd rfl (h _ _)
        | afterChar _ _ _ h => exact absurd rfl (h _ _)
      · rintro (⟨h1, h2⟩ | h)
        · exact .range _ _ _ _ h1 h2
        · exact .afterRange _ _ _ _ h
    · have hr' : ∀ b r', y :: r ≠ '-' :: b :: r' := fun b r' e => hr ⟨b, r', e⟩
      rw [textItems_char hr']
      simp only [List.mem_cons, exists_eq_or_imp]
      rw [← textItems_mem (y :: r) c]
      constructor
      · intro h
        cases h with
        | range => exact absurd rfl (hr' _ _)
        | afterRange => exact absurd rfl (hr' _ _)
        | char => exact Or.inl ⟨Char.le_refl _, Char.le_refl _⟩
        | afterChar _ _ _ _ h => exact Or.inr h
      · rintro (⟨h1, h2⟩ | h)
        · have := Char.le_antisymm h1 h2
          subst this
          exact .char _ _ hr'
        · exact .afterChar _ _ _ hr' h
termination_by s => s.length

theorem rangeChunks_shape (s : Str) : ∃ c cs, rangeChunks 1 s = c :: cs ∧ (c = [] → s = [] ∧ cs = []) := by
  rw [rangeChunks_eq]
  rcases s with _ | ⟨x, s⟩
  · exact ⟨[], [], by simp [cutDash, split1], fun _ => ⟨rfl, rfl⟩⟩
  · have := cutDash_cons 0 x s
    simp only [Nat.zero_add] at this
    rw [this]
    cases cutDash 0 s with
    | none => exact ⟨x :: s, [], rfl, by simp⟩
    | some y =>
      simp only [Option.map_some]
      split
      · exact ⟨_, _, rfl, by simp⟩
      · exact ⟨_, _, rfl, by simp⟩

theorem merge_consHead (y : Char) {c : Str} {cs : List Str} (h : c = [] → cs = []) :
    mergeChunks (consHead y (c :: cs)) = consHead y (mergeChunks (c :: cs)) := by
  simp only [consHead, mergeChunks]
  cases hm : mergeChunks cs with
  | nil => rfl
  | cons d ds =>
    rcases c with _ | ⟨z, c⟩
    · rw [h rfl] at hm; cases hm
    simp only [List.getLast?_cons_cons, List.dropLast_cons_cons]
    cases hl : (z :: c).getLast? with
    | none => simp at hl
    | some x =>
      cases d.head? with
      | none => rfl
      | some w =>
        simp only
        split <;> rfl

theorem join_consHead (x : Char) (m : Str) (ms : List Str) : joinChunks (consHead x (m :: ms)) = .chr x :: joinChunks (m :: ms) := by
  cases ms <;> simp [consHead, joinChunks]

theorem setItems_char (x : Char) {ts : List SetTok} (h : ts.head? ≠ some .dash) : setItems (.chr x :: ts) = (x, x) :: setItems ts := by
  rcases ts with _ | ⟨t, ts⟩
  · simp [setItems, SetTok.char]
  · cases t with
    | dash => simp at h
    | chr c => simp [setItems, SetTok.char]

theorem join_head {m : Str} {ms : List Str} (h : m = [] → ms = []) : (joinChunks (m :: ms)).head? ≠ some .dash := by
  rcases m with _ | ⟨x, m⟩
  · rw [h rfl]; simp [joinChunks]
  · cases ms <;> simp [joinChunks]

/-- Chunks merged and joined are read back as the ranges which are not empty. -/
theorem merged_items : ∀ s : Str, ∃ m ms, mergeChunks (rangeChunks 1 s) = m :: ms ∧ (m = [] → ms = []) ∧
    setItems (joinChunks (m :: ms)) = (textItems s).filter fun x => decide (x.1 ≤ x.2)
  | [] => ⟨[], [], by decide +kernel, fun _ => rfl, rfl⟩
  | x :: s => by
    by_cases hr : ∃ b r', s = '-' :: b :: r'
    · obtain ⟨y, r, rfl⟩ := hr
      obtain ⟨m, ms, h1, h2, h3⟩ := merged_items r
      obtain ⟨c, cs, hc, hs⟩ := rangeChunks_shape r
      have hm : mergeChunks (consHead y (rangeChunks 1 r)) = (y :: m) :: ms := by
        rw [hc, merge_consHead y (fun e => (hs e).2), ← hc, h1]; rfl
      have hstep : mergeChunks (rangeChunks 1 (x :: '-' :: y :: r)) = if y < x then m :: ms else [x] :: (y :: m) :: ms := by
        rw [rangeChunks_range]
        simp only [mergeChunks, hm]
        rfl
      by_cases hxy : y < x
      · refine ⟨m, ms, by rw [hstep, if_pos hxy], h2, ?_⟩
        rw [h3]
        simp [textItems, Char.not_le.2 hxy]
      · refine ⟨[x], (y :: m) :: ms, by rw [hstep, if_neg hxy], by simp, ?_⟩
        have e : joinChunks ((y :: m) :: ms) = .chr y :: joinChunks (m :: ms) := join_consHead y m ms
        simp only [joinChunks, List.map_cons, List.map_nil, List.cons_append, List.nil_append]
        have e2 : joinChunks ([x] :: (y :: m) :: ms) = .chr x :: .dash :: .chr y :: joinChunks (m :: ms) := by
          rw [← e]; simp [joinChunks]
        simp only [e, setItems, SetTok.char, h3, textItems]
        simp [Char.not_lt.1 hxy]
    · have hr' : ∀ b r', s ≠ '-' :: b :: r' := fun b r' e => hr ⟨b, r', e⟩
      obtain ⟨m, ms, h1, h2, h3⟩ := merged_items s
      by_cases hd : s.head? = some '-'
      · rcases s with _ | ⟨z, s⟩
        · cases hd
        · simp only [List.head?_cons, Option.some.injEq] at hd
          subst hd
          rcases s with _ | ⟨w, s⟩
          · refine ⟨[x, '-'], [], by rw [rangeChunks_end]; rfl, by simp, ?_⟩
            simp [joinChunks, setItems, textItems, SetTok.char]
          · exact absurd rfl (hr' _ _)
      · obtain ⟨c, cs, hc, hs⟩ := rangeChunks_shape s
        refine ⟨x :: m, ms, ?_, by simp, ?_⟩
        · rw [rangeChunks_char hd, hc, merge_consHead x (fun e => (hs e).2), ← hc, h1]; rfl
        · have := join_consHead x m ms
          simp only [consHead] at this
          rw [this, setItems_char x (join_head h2), h3, textItems_char hr']
          simp
termination_by s => s.length

/-- The class starts with `!` only when the text does, or after a range in the wrong order. -/
theorem merged_bang : ∀ s : Str, (joinChunks (mergeChunks (rangeChunks 1 s))).head? = some (.chr '!') →
    s.head? = some '!' ∨ ∃ a x y b, s = a ++ x :: '-' :: y :: '!' :: b ∧ y < x
  | [], h => by
    have : (joinChunks (mergeChunks (rangeChunks 1 []))) = [] := by decide +kernel
    rw [this] at h; cases h
  | x :: s, h => by
    by_cases hr : ∃ b r', s = '-' :: b :: r'
    · obtain ⟨y, r, rfl⟩ := hr
      obtain ⟨m, ms, h1, h2, -⟩ := merged_items r
      obtain ⟨c, cs, hc, hs⟩ := rangeChunks_shape r
      have hm : mergeChunks (consHead y (rangeChunks 1 r)) = (y :: m) :: ms := by
        rw [hc, merge_consHead y (fun e => (hs e).2), ← hc, h1]; rfl
      have hstep : mergeChunks (rangeChunks 1 (x :: '-' :: y :: r)) = if y < x then m :: ms else [x] :: (y :: m) :: ms := by
        rw [rangeChunks_range]
        simp only [mergeChunks, hm]
        rfl
      rw [hstep] at h
      by_cases hxy : y < x
      · rw [if_pos hxy, ← h1] at h
        rcases merged_bang r h with h | ⟨a, x', y', b, rfl, h'⟩
        · rcases r with _ | ⟨z, r⟩
          · cases h
          · simp only [List.head?_cons, Option.some.injEq] at h
            subst h
            exact Or.inr ⟨[], x, y, r, rfl, hxy⟩
        · exact Or.inr ⟨x :: '-' :: y :: a, x', y', b, rfl, h'⟩
      · rw [if_neg hxy] at h
        left
        simpa [joinChunks] using h
    · have hr' : ∀ b r', s ≠ '-' :: b :: r' := fun b r' e => hr ⟨b, r', e⟩
      left
      by_cases hd : s.head? = some '-'
      · rcases s with _ | ⟨z, s⟩
        · cases hd
        · simp only [List.head?_cons, Option.some.injEq] at hd
          subst hd
          rcases s with _ | ⟨w, s⟩
          · rw [rangeChunks_end] at h
            simpa [joinChunks, mergeChunks] using h
          · exact absurd rfl (hr' _ _)
      · obtain ⟨m, ms, h1, h2, -⟩ := merged_items s
        obtain ⟨c, cs, hc, hs⟩ := rangeChunks_shape s
        rw [rangeChunks_char hd, hc, merge_consHead x (fun e => (hs e).2), ← hc, h1, join_consHead] at h
        simpa using h
termination_by s => s.length

theorem rangeChunks_none {skip : Nat} {s : Str} (h : '-' ∉ s) : mergeChunks (rangeChunks skip s) = [s] := by
  rw [rangeChunks_eq]
  have : cutDash skip s = none := by
    rcases cutDash_cases skip s with h' | ⟨a, r, e, -, -⟩
    · exact h'.1
    · have : '-' ∈ s.drop skip := by rw [e]; simp
      exact absurd (List.mem_of_mem_drop this) h
  rw [this]
  rfl

/-- Texts between brackets -/
theorem classItem_eq (stuff : Str) : classItem stuff =
    match joinChunks (mergeChunks (rangeChunks (if stuff.head? = some '!' then 2 else 1) stuff)) with
    | [] => .never
    | .chr '!' :: ts => if ts.isEmpty then .any else .set true ts
    | ts => .set false ts := by
  unfold classItem
  by_cases h : '-' ∈ stuff
  · simp only [if_pos h]; rfl
  · simp only [if_neg h]
    rw [rangeChunks_none h]
    rfl

theorem any_items {s : Str} {ts : List SetTok} (h : setItems ts = (textItems s).filter fun x => decide (x.1 ≤ x.2)) (c : Char) :
    ((setItems ts).any fun x => decide (x.1 ≤ c) && decide (c ≤ x.2)) = true ↔ InClass s c := by
  rw [textItems_mem, h, List.any_eq_true]
  constructor
  · rintro ⟨x, hx, hc⟩
    simp only [Bool.and_eq_true, decide_eq_true_eq] at hc
    exact ⟨x, List.mem_of_mem_filter hx, hc⟩
  · rintro ⟨x, hx, h1, h2⟩
    refine ⟨x, List.mem_filter.2 ⟨hx, ?_⟩, by simp [h1, h2]⟩
    simpa using Char.le_trans h1 h2

/-- A class -/
theorem classItem_in {body : Str} (hb : body.head? ≠ some '!') (ho : ∀ a x y b, body = a ++ x :: '-' :: y :: '!' :: b → x ≤ y) (c : Char) :
    (classItem body).accepts c = true ↔ InClass body c := by
  obtain ⟨m, ms, h1, h2, h3⟩ := merged_items body
  have hbang := merged_bang body
  rw [classItem_eq, if_neg hb]
  rw [h1] at hbang ⊢
  rw [← any_items h3]
  generalize joinChunks (m :: ms) = ts at hbang
  split
  · simp [GlobItem.accepts, setItems]
  · rename_i ts'
    exfalso
    rcases hbang rfl with h | ⟨a, x, y, b, e, h⟩
    · exact hb h
    · exact absurd (ho a x y b e) (Char.not_le.2 h)
  · simp [GlobItem.accepts]

/-- A class with `!` -/
theorem classItem_not (body : Str) (c : Char) : (classItem ('!' :: body)).accepts c = true ↔ ¬ InClass body c := by
  obtain ⟨m, ms, h1, h2, h3⟩ := merged_items body
  obtain ⟨c', cs, hc, hs⟩ := rangeChunks_shape body
  have e : mergeChunks (rangeChunks 2 ('!' :: body)) = consHead '!' (m :: ms) := by
    rw [rangeChunks_cons, hc, merge_consHead _ (fun e => (hs e).2), ← hc, h1]
  rw [classItem_eq]
  simp only [List.head?_cons, if_true]
  rw [e, join_consHead, ← any_items h3]
  simp only
  cases hj : joinChunks (m :: ms) with
  | nil => simp [GlobItem.accepts, setItems]
  | cons t ts =>
    simp [GlobItem.accepts]

theorem classItem_star (stuff : Str) : classItem stuff ≠ .star := by
  rw [classItem_eq]
  split <;> try simp
  split <;> simp

/-! ## Pieces -/

/-- Texts matched by pieces -/
inductive ItemsMatch : List GlobItem → Str → Prop
  | nil : ItemsMatch [] []
  | star (is : List GlobItem) (s t : Str) : ItemsMatch is t → ItemsMatch (.star :: is) (s ++ t)
  | one (i : GlobItem) (is : List GlobItem) (c : Char) (s : Str) : i.accepts c = true → ItemsMatch is s → ItemsMatch (i :: is) (c :: s)

theorem items_nil {s : Str} : ItemsMatch [] s ↔ s = [] := by
  constructor
  · intro h; cases h; rfl
  · rintro rfl; exact .nil

theorem items_one {i : GlobItem} (hi : i ≠ .star) {is : List GlobItem} {s : Str} :
    ItemsMatch (i :: is) s ↔ ∃ c t, s = c :: t ∧ i.accepts c = true ∧ ItemsMatch is t := by
  constructor
  · intro h
    cases h with
    | star => exact absurd rfl hi
    | one _ _ c t h1 h2 => exact ⟨c, t, rfl, h1, h2⟩
  · rintro ⟨c, t, rfl, h1, h2⟩
    exact .one _ _ _ _ h1 h2

theorem items_star {is : List GlobItem} {s : Str} : ItemsMatch (.star :: is) s ↔ ∃ u t, s = u ++ t ∧ ItemsMatch is t := by
  constructor
  · intro h
    cases h with
    | star _ u t h => exact ⟨u, t, rfl, h⟩
    | one _ _ c t h => simp [GlobItem.accepts] at h
  · rintro ⟨u, t, rfl, h⟩
    exact .star _ _ _ h

theorem items_star_star {is : List GlobItem} {s : Str} : ItemsMatch (.star :: .star :: is) s ↔ ItemsMatch (.star :: is) s := by
  rw [items_star, items_star]
  constructor
  · rintro ⟨u, t, rfl, h⟩
    obtain ⟨u', t', rfl, h'⟩ := items_star.1 h
    exact ⟨u ++ u', t', by simp, h'⟩
  · rintro ⟨u, t, rfl, h⟩
    exact ⟨u, t, rfl, items_star.2 ⟨[], t, rfl, h⟩⟩

theorem items_addStar {is : List GlobItem} {s : Str} : ItemsMatch (addStar is) s ↔ ItemsMatch (.star :: is) s := by
  unfold addStar
  split
  · rw [items_star_star]
  · rfl

/-! ## Patterns -/

theorem Spec.Ordered.tail {a b : Str} (h : Ordered (a ++ b)) : Ordered b := by
  rintro a' x y b' rfl hm
  exact h (a ++ a') x y b' (by simp) (by simp [hm])

theorem glob_bracket {p s : Str} (h : Glob ('[' :: p) s) :
    (Unclosed p ∧ ∃ t, s = '[' :: t ∧ Glob p t) ∨
    (∃ body r c t, ClassBody body ∧ body.head? ≠ some '!' ∧ p = body ++ ']' :: r ∧ s = c :: t ∧ InClass body c ∧ Glob r t) ∨
    (∃ body r c t, ClassBody body ∧ p = '!' :: body ++ ']' :: r ∧ s = c :: t ∧ ¬ InClass body c ∧ Glob r t) := by
  generalize hq : '[' :: p = q at h
  cases h with
  | done => cases hq
  | star => simp at hq
  | one => simp at hq
  | char _ _ c h1 h2 h3 => simp only [List.cons.injEq] at hq; exact absurd hq.1.symm h3
  | bracket p' t h1 h2 =>
    simp only [List.cons.injEq, true_and] at hq
    subst hq
    exact Or.inl ⟨h1, t, rfl, h2⟩
  | inClass r t body c h1 h2 h3 h4 =>
    simp only [List.cons_append, List.cons.injEq, true_and] at hq
    exact Or.inr (Or.inl ⟨body, r, c, t, h1, h2, hq, rfl, h3, h4⟩)
  | notInClass r t body c h1 h2 h3 =>
    simp only [List.cons_append, List.cons.injEq, true_and] at hq
    exact Or.inr (Or.inr ⟨body, r, c, t, h1, hq, rfl, h2, h3⟩)

/-- A pattern matches the texts matched by its pieces. -/
theorem glob_items : ∀ (fuel : Nat) (pat s : Str), pat.length ≤ fuel → Ordered pat → (ItemsMatch (globItems fuel pat) s ↔ Glob pat s) := by
  intro fuel
  induction fuel with
  | zero =>
    intro pat s hl _
    have : pat = [] := List.length_eq_zero_iff.1 (by omega)
    subst this
    simp only [globItems, items_nil]
    constructor
    · rintro rfl; exact .done
    · intro h; cases h; rfl
  | succ fuel ih =>
    intro pat s hl ho
    rcases pat with _ | ⟨c, p⟩
    · simp only [globItems, items_nil]
      constructor
      · rintro rfl; exact .done
      · intro h; cases h; rfl
    have hp : Ordered p := Spec.Ordered.tail (a := [c]) ho
    have hlp : p.length ≤ fuel := by simpa using hl
    simp only [globItems]
    by_cases h1 : c = '*'
    · subst h1
      rw [if_pos rfl]
      rw [items_addStar, items_star]
      constructor
      · rintro ⟨u, t, rfl, h⟩
        exact .star _ _ _ ((ih p t hlp hp).1 h)
      · intro h
        cases h with
        | star _ u t h => exact ⟨u, t, rfl, (ih p t hlp hp).2 h⟩
        | char _ _ _ h => exact absurd rfl h
    rw [if_neg h1]
    by_cases h2 : c = '?'
    · subst h2
      rw [if_pos rfl, items_one (by simp)]
      constructor
      · rintro ⟨c, t, rfl, -, h⟩
        exact .one _ _ _ ((ih p t hlp hp).1 h)
      · intro h
        cases h with
        | one _ t c h => exact ⟨c, t, rfl, rfl, (ih p t hlp hp).2 h⟩
        | char _ _ _ _ h => exact absurd rfl h
    rw [if_neg h2]
    by_cases h3 : c = '['
    · subst h3
      rw [if_pos rfl]
      cases hc : classEnd p with
      | none =>
        have hu := classEnd_none.1 hc
        simp only
        rw [items_one (by simp)]
        constructor
        · rintro ⟨c, t, rfl, h, h'⟩
          simp only [GlobItem.accepts, beq_iff_eq] at h
          subst h
          exact .bracket _ _ hu ((ih p t hlp hp).1 h')
        · intro h
          rcases glob_bracket h with ⟨-, t, rfl, h'⟩ | ⟨body, r, c, t, hb, hx, e, -⟩ | ⟨body, r, c, t, hb, e, -⟩
          · exact ⟨_, t, rfl, by simp [GlobItem.accepts], (ih p t hlp hp).2 h'⟩
          · exact absurd e ((hu body r hb).1 hx)
          · exact absurd e (hu body r hb).2
      | some x =>
        obtain ⟨stuff, r⟩ := x
        obtain ⟨e, hstuff⟩ := classEnd_some hc
        have hr : Ordered r := by
          rw [e] at hp
          exact Spec.Ordered.tail (a := stuff ++ [']']) (by simpa using hp)
        have hlr : r.length ≤ fuel := by
          rw [e] at hlp
          simp at hlp
          omega
        have hos : ∀ a x y b, stuff = a ++ x :: '-' :: y :: '!' :: b → x ≤ y := by
          rintro a x y b rfl
          exact ho ('[' :: a) x y (b ++ ']' :: r) (by rw [e]; simp) (by simp)
        simp only
        rw [items_one (classItem_star _)]
        constructor
        · rintro ⟨c, t, rfl, h, h'⟩
          rw [e]
          rcases hstuff with ⟨hb, hx⟩ | ⟨body, rfl, hb⟩
          · exact .inClass _ _ _ _ hb hx ((classItem_in hx hos c).1 h) ((ih r t hlr hr).1 h')
          · exact .notInClass _ _ _ _ hb ((classItem_not body c).1 h) ((ih r t hlr hr).1 h')
        · intro h
          rcases glob_bracket h with ⟨hu, -⟩ | ⟨body, r', c, t, hb, hx, e', rfl, h, h'⟩ | ⟨body, r', c, t, hb, e', rfl, h, h'⟩
          · rw [classEnd_none.2 hu] at hc; cases hc
          · have := classEnd_stuff r' (Or.inl ⟨hb, hx⟩)
            rw [← e', hc] at this
            simp only [Option.some.injEq, Prod.mk.injEq] at this
            obtain ⟨rfl, rfl⟩ := this
            exact ⟨c, t, rfl, (classItem_in hx hos c).2 h, (ih r t hlr hr).2 h'⟩
          · have := classEnd_stuff r' (Or.inr ⟨body, rfl, hb⟩)
            rw [← e', hc] at this
            simp only [Option.some.injEq, Prod.mk.injEq] at this
            obtain ⟨rfl, rfl⟩ := this
            exact ⟨c, t, rfl, (classItem_not body c).2 h, (ih r t hlr hr).2 h'⟩
    rw [if_neg h3, items_one (by simp)]
    constructor
    · rintro ⟨c', t, rfl, h, h'⟩
      simp only [GlobItem.accepts, beq_iff_eq] at h
      subst h
      exact .char _ _ _ h1 h2 h3 ((ih p t hlp hp).1 h')
    · intro h
      cases h with
      | star => exact absurd rfl h1
      | one => exact absurd rfl h2
      | char _ t _ _ _ _ h => exact ⟨c, t, rfl, by simp [GlobItem.accepts], (ih p t hlp hp).2 h⟩
      | bracket => exact absurd rfl h3
      | inClass => exact absurd rfl h3
      | notInClass => exact absurd rfl h3

/-! ## Matching -/

theorem matchFixed_iff : ∀ (fixed : List GlobItem) (s t : Str), matchFixed fixed s = some t ↔
    ∃ v, s = v ++ t ∧ v.length = fixed.length ∧ List.Forall₂ (fun i c => i.accepts c = true) fixed v := by
  intro fixed
  induction fixed with
  | nil =>
    intro s t
    simp only [matchFixed, Option.some.injEq]
    constructor
    · rintro rfl; exact ⟨[], rfl, rfl, .nil⟩
    · rintro ⟨v, rfl, h, -⟩
      have : v = [] := List.length_eq_zero_iff.1 h
      simp [this]
  | cons i is ih =>
    intro s t
    rcases s with _ | ⟨c, s⟩
    · simp only [matchFixed]
      constructor
      · intro h; cases h
      · rintro ⟨v, e, h, -⟩
        rcases v with _ | ⟨c, v⟩
        · simp at h
        · simp at e
    · simp only [matchFixed]
      constructor
      · intro h
        split at h
        · rename_i ha
          obtain ⟨v, rfl, h1, h2⟩ := (ih s t).1 h
          exact ⟨c :: v, rfl, by simp [h1], .cons ha h2⟩
        · cases h
      · rintro ⟨v, e, h, h'⟩
        cases h' with
        | cons ha h2 =>
          rename_i c' v'
          simp only [List.cons_append, List.cons.injEq] at e
          obtain ⟨rfl, rfl⟩ := e
          rw [if_pos ha]
          exact (ih _ t).2 ⟨v', rfl, by simpa using h, h2⟩

theorem items_fixed {fixed : List GlobItem} (hf : ∀ i ∈ fixed, i ≠ .star) {is : List GlobItem} {s : Str} :
    ItemsMatch (fixed ++ is) s ↔ ∃ t, matchFixed fixed s = some t ∧ ItemsMatch is t := by
  induction fixed generalizing s with
  | nil => simp [matchFixed]
  | cons i fixed ih =>
    rw [List.cons_append, items_one (hf i (by simp))]
    constructor
    · rintro ⟨c, t, rfl, h1, h2⟩
      simp only [matchFixed, if_pos h1]
      exact (ih (fun j hj => hf j (by simp [hj]))).1 h2
    · rintro ⟨t, h1, h2⟩
      rcases s with _ | ⟨c, s⟩
      · simp [matchFixed] at h1
      · simp only [matchFixed] at h1
        split at h1
        · rename_i ha
          exact ⟨c, s, rfl, ha, (ih (fun j hj => hf j (by simp [hj]))).2 ⟨t, h1, h2⟩⟩
        · cases h1

theorem findFixed_none {fixed : List GlobItem} {s : Str} (h : findFixed fixed s = none) (u v : Str) (e : s = u ++ v) : matchFixed fixed v = none := by
  induction u generalizing s with
  | nil =>
    simp only [List.nil_append] at e
    subst e
    rcases s with _ | ⟨c, s⟩
    · exact h
    · simp only [findFixed] at h
      split at h
      · cases h
      · assumption
  | cons c u ih =>
    subst e
    simp only [List.cons_append, findFixed] at h
    split at h
    · cases h
    · exact ih h rfl

/-- The first place: any other leaves less. -/
theorem findFixed_some {fixed : List GlobItem} {s t : Str} (h : findFixed fixed s = some t) :
    (∃ u v, s = u ++ v ∧ matchFixed fixed v = some t) ∧ ∀ u v w, s = u ++ v → matchFixed fixed v = some w → ∃ x, t = x ++ w := by
  have hlen : ∀ v w, matchFixed fixed v = some w → ∃ x, v = x ++ w ∧ x.length = fixed.length := by
    intro v w hv
    obtain ⟨x, e, hx, -⟩ := (matchFixed_iff _ _ _).1 hv
    exact ⟨x, e, hx⟩
  have key : ∀ {s t : Str}, matchFixed fixed s = some t → ∀ u v w, s = u ++ v → matchFixed fixed v = some w → ∃ x, t = x ++ w := by
    intro s t hs u v w e hv
    obtain ⟨x, rfl, hx⟩ := hlen _ _ hs
    obtain ⟨y, rfl, hy⟩ := hlen _ _ hv
    have : t <:+ u ++ (y ++ w) := ⟨x, e⟩
    have h2 : w <:+ u ++ (y ++ w) := ⟨u ++ y, by simp⟩
    have hle : w.length ≤ t.length := by
      have := congrArg List.length e
      simp at this
      omega
    obtain ⟨z, hz⟩ := List.suffix_of_suffix_length_le h2 this hle
    exact ⟨z, hz.symm⟩
  induction s with
  | nil =>
    simp only [findFixed] at h
    exact ⟨⟨[], [], rfl, h⟩, fun u v w e hv => key h u v w e hv⟩
  | cons c s ih =>
    simp only [findFixed] at h
    split at h
    · rename_i t' ht
      cases h
      exact ⟨⟨[], c :: s, rfl, ht⟩, fun u v w e hv => key ht u v w e hv⟩
    · rename_i hn
      obtain ⟨⟨u, v, rfl, h1⟩, h2⟩ := ih h
      refine ⟨⟨c :: u, v, rfl, h1⟩, ?_⟩
      intro u' v' w e hv
      rcases u' with _ | ⟨c', u'⟩
      · simp only [List.nil_append] at e
        rw [← e, hn] at hv
        cases hv
      · simp only [List.cons_append, List.cons.injEq] at e
        exact h2 u' v' w e.2 hv

theorem endsFixed_iff {fixed : List GlobItem} {s : Str} : endsFixed fixed s = true ↔ ∃ u v, s = u ++ v ∧ matchFixed fixed v = some [] := by
  induction s with
  | nil =>
    simp only [endsFixed, beq_iff_eq]
    constructor
    · intro h; exact ⟨[], [], rfl, h⟩
    · rintro ⟨u, v, e, h⟩
      have := List.append_eq_nil_iff.1 e.symm
      rw [this.2] at h; exact h
  | cons c s ih =>
    simp only [endsFixed, Bool.or_eq_true, beq_iff_eq]
    rw [ih]
    constructor
    · rintro (h | ⟨u, v, rfl, h⟩)
      · exact ⟨[], c :: s, rfl, h⟩
      · exact ⟨c :: u, v, rfl, h⟩
    · rintro ⟨u, v, e, h⟩
      rcases u with _ | ⟨c', u⟩
      · simp only [List.nil_append] at e
        rw [e]; exact Or.inl h
      · simp only [List.cons_append, List.cons.injEq] at e
        exact Or.inr ⟨u, v, e.2, h⟩

theorem items_star_more {is : List GlobItem} {x w : Str} (h : ItemsMatch (.star :: is) w) : ItemsMatch (.star :: is) (x ++ w) := by
  obtain ⟨u, t, rfl, h'⟩ := items_star.1 h
  exact items_star.2 ⟨x ++ u, t, by simp, h'⟩

theorem takeWhile_fixed (is : List GlobItem) : ∀ i ∈ is.takeWhile (· != .star), i ≠ .star := by
  intro i hi
  have := List.all_takeWhile (p := (· != GlobItem.star)) (l := is)
  rw [List.all_eq_true] at this
  simpa using this i hi

theorem dropWhile_star (is : List GlobItem) : is.dropWhile (· != .star) = [] ∨ ∃ r, is.dropWhile (· != .star) = .star :: r := by
  cases h : is.dropWhile (· != .star) with
  | nil => exact Or.inl rfl
  | cons i r =>
    right
    have := List.head?_dropWhile_not (p := (· != GlobItem.star)) is
    rw [h] at this
    simp at this
    exact ⟨r, by rw [this]⟩

theorem matchStars_iff : ∀ (fuel : Nat) (is : List GlobItem) (s : Str), is.length < fuel → (is = [] ∨ ∃ r, is = .star :: r) →
    (matchStars fuel is s = true ↔ ItemsMatch is s) := by
  intro fuel
  induction fuel with
  | zero => intro is s h; omega
  | succ fuel ih =>
    intro is s hl hs
    rcases hs with rfl | ⟨rest, rfl⟩
    · simp [matchStars, items_nil]
    simp only [matchStars]
    have hsplit := List.takeWhile_append_dropWhile (p := (· != GlobItem.star)) (l := rest)
    have hf := takeWhile_fixed rest
    have hd := dropWhile_star rest
    generalize hfix : rest.takeWhile (· != .star) = fixed at hsplit hf
    generalize hmore : rest.dropWhile (· != .star) = more at hsplit hd
    subst hsplit
    rcases hd with rfl | ⟨r, rfl⟩
    · simp only [List.isEmpty_nil, if_true]
      rw [endsFixed_iff, items_star]
      constructor
      · rintro ⟨u, v, rfl, h⟩
        exact ⟨u, v, rfl, (items_fixed hf).2 ⟨[], h, .nil⟩⟩
      · rintro ⟨u, v, rfl, h⟩
        obtain ⟨t, h1, h2⟩ := (items_fixed hf).1 h
        rw [items_nil.1 h2] at h1
        exact ⟨u, v, rfl, h1⟩
    · simp only [List.isEmpty_cons, Bool.false_eq_true, if_false]
      cases h : findFixed fixed s with
      | none =>
        simp only [Bool.false_eq_true, false_iff]
        intro hm
        obtain ⟨u, v, rfl, h'⟩ := items_star.1 hm
        obtain ⟨t, h1, -⟩ := (items_fixed hf).1 h'
        rw [findFixed_none h u v rfl] at h1
        cases h1
      | some t =>
        simp only
        rw [ih _ t (by simp at hl ⊢; omega) (Or.inr ⟨r, rfl⟩)]
        obtain ⟨⟨u, v, rfl, h1⟩, h2⟩ := findFixed_some h
        constructor
        · intro hm
          exact items_star.2 ⟨u, v, rfl, (items_fixed hf).2 ⟨t, h1, hm⟩⟩
        · intro hm
          obtain ⟨u', v', e, h'⟩ := items_star.1 hm
          obtain ⟨t', h3, h4⟩ := (items_fixed hf).1 h'
          obtain ⟨x, rfl⟩ := h2 u' v' t' e h3
          exact items_star_more h4

theorem fnmatchcase_iff {pat : Str} (h : Ordered pat) (name : Str) : fnmatchcase name pat = true ↔ Glob pat name := by
  rw [← glob_items pat.length pat name (Nat.le_refl _) h]
  unfold fnmatchcase
  simp only
  generalize globItems pat.length pat = is
  have hsplit := List.takeWhile_append_dropWhile (p := (· != GlobItem.star)) (l := is)
  have hf := takeWhile_fixed is
  have hd := dropWhile_star is
  have hlen : (is.dropWhile (· != .star)).length < is.length + 1 := by
    have := (List.dropWhile_suffix (p := (· != GlobItem.star)) (l := is)).length_le
    omega
  conv => rhs; rw [← hsplit]
  rw [items_fixed hf]
  cases matchFixed (is.takeWhile (· != .star)) name with
  | none => simp
  | some t => simp [matchStars_iff _ _ t hlen hd]

end Cdtb
