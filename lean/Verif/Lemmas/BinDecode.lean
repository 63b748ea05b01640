import Verif.Lemmas.BinDump
/-!
# Lemmas on the text of BIN files: different values have different texts
-/
namespace Cdtb
set_option autoImplicit false
open Py Spec

/-- Words are found by the first character that cannot be in them. -/
theorem word_unique {p : Char → Prop} {a a' r r' : Str} (ha : ∀ c ∈ a, p c) (ha' : ∀ c ∈ a', p c) (hr : ∀ c, r.head? = some c → ¬ p c)
    (hr' : ∀ c, r'.head? = some c → ¬ p c) (h : a ++ r = a' ++ r') : a = a' ∧ r = r' := by
  induction a generalizing a' with
  | nil =>
    cases a' with
    | nil => exact ⟨rfl, h⟩
    | cons c a' =>
      simp only [List.nil_append] at h
      exact absurd (ha' c (by simp)) (hr c (by rw [h]; rfl))
  | cons c a ih =>
    cases a' with
    | nil =>
      simp only [List.nil_append] at h
      exact absurd (ha c (by simp)) (hr' c (by rw [← h]; rfl))
    | cons c' a' =>
      simp only [List.cons_append, List.cons.injEq] at h
      obtain ⟨h1, h2⟩ := ih (fun c hc => ha c (by simp [hc])) (fun c hc => ha' c (by simp [hc])) h.2
      exact ⟨by rw [h.1, h1], h2⟩

/-- One character that words do not have, then the rest -/
theorem word_sep {c : Char} {a a' r r' : Str} (ha : c ∉ a) (ha' : c ∉ a') (h : a ++ c :: r = a' ++ c :: r') : a = a' ∧ r = r' := by
  obtain ⟨h1, h2⟩ := word_unique (p := fun x => x ≠ c) (fun x hx he => ha (he ▸ hx)) (fun x hx he => ha' (he ▸ hx)) (by simp) (by simp) h
  exact ⟨h1, (List.cons.inj h2).2⟩

/-- What follows the text of an item of a tuple, or of a value -/
def EndsAtom (r : Str) : Prop := ∃ c t, r = c :: t ∧ c ∈ ['>', '\n', ',', ')']
def EndsValue (r : Str) : Prop := ∃ c t, r = c :: t ∧ c ∈ ['>', '\n']

theorem EndsValue.atom {r : Str} (h : EndsValue r) : EndsAtom r := by
  obtain ⟨c, t, rfl, h⟩ := h
  exact ⟨c, t, rfl, by simp at h ⊢; tauto⟩

theorem atom_word {a a' r r' : Str} (ha : ∀ c ∈ a, c ∉ ['>', '\n', ',', ')']) (ha' : ∀ c ∈ a', c ∉ ['>', '\n', ',', ')']) (hr : EndsAtom r) (hr' : EndsAtom r')
    (h : a ++ r = a' ++ r') : a = a' ∧ r = r' := by
  obtain ⟨c, t, rfl, hc⟩ := hr
  obtain ⟨c', t', rfl, hc'⟩ := hr'
  refine word_unique (p := fun c => c ∉ ['>', '\n', ',', ')']) ha ha' ?_ ?_ h
  · intro x hx; simp only [List.head?_cons, Option.some.injEq] at hx; subst hx; exact not_not.2 hc
  · intro x hx; simp only [List.head?_cons, Option.some.injEq] at hx; subst hx; exact not_not.2 hc'

theorem int_dec {n m : Int} {r r' : Str} (hr : EndsAtom r) (hr' : EndsAtom r') (h : showInt n ++ r = showInt m ++ r') : n = m ∧ r = r' := by
  have key : ∀ n : Int, ∀ c ∈ showInt n, c ∉ ['>', '\n', ',', ')'] := by
    intro n c hc hx
    refine showInt_not (n := n) (c := c) ?_ hc
    simp only [List.mem_cons, List.not_mem_nil, or_false] at hx
    rcases hx with rfl | rfl | rfl | rfl <;> decide
  obtain ⟨h1, h2⟩ := atom_word (key n) (key m) hr hr' h
  exact ⟨showInt_inj h1, h2⟩

section
variable {lib : DumpLib}

theorem float_dec (hf : FloatTexts lib.floatRepr) {a b : Nat} (ha : IsNumber a) (hb : IsNumber b) {r r' : Str} (hr : EndsAtom r) (hr' : EndsAtom r')
    (h : lib.floatRepr a ++ r = lib.floatRepr b ++ r') : a = b ∧ r = r' := by
  have key : ∀ n, ∀ c ∈ lib.floatRepr n, c ∉ ['>', '\n', ',', ')'] := by
    intro n c hc hx
    refine hf.chars n c hc ?_
    simp only [List.mem_cons, List.not_mem_nil, or_false] at hx ⊢
    tauto
  obtain ⟨h1, h2⟩ := atom_word (key a) (key b) hr hr' h
  exact ⟨hf.distinct _ _ ha hb h1, h2⟩

/-- The items of a tuple, up to the parenthesis -/
theorem join_dec {α : Type} (f : α → Str) (ok : α → Prop)
    (hdec : ∀ a b r r', ok a → ok b → EndsAtom r → EndsAtom r' → f a ++ r = f b ++ r' → a = b ∧ r = r')
    (l : List α) : ∀ (l' : List α) (a b : α) (r r' : Str), ok a → ok b → (∀ x ∈ l, ok x) → (∀ x ∈ l', ok x) →
      join ", ".toList ((a :: l).map f) ++ ')' :: r = join ", ".toList ((b :: l').map f) ++ ')' :: r' → a :: l = b :: l' ∧ r = r' := by
  have e1 : ∀ x : Str, EndsAtom (')' :: x) := fun x => ⟨_, _, rfl, by simp⟩
  have e2 : ∀ x : Str, EndsAtom (", ".toList ++ x) := fun x => ⟨',', ' ' :: x, rfl, by simp⟩
  have hj : ∀ (a b : α) (l : List α), join ", ".toList ((a :: b :: l).map f) = f a ++ (", ".toList ++ join ", ".toList ((b :: l).map f)) := by
    intro a b l; simp [join]
  have h0 : ∀ a, join ", ".toList ([a].map f) = f a := by intro a; simp [join]
  induction l with
  | nil =>
    intro l' a b r r' ha hb hl hl' h
    cases l' with
    | nil =>
      rw [h0, h0] at h
      obtain ⟨rfl, h2⟩ := hdec _ _ _ _ ha hb (e1 _) (e1 _) h
      exact ⟨rfl, (List.cons.inj h2).2⟩
    | cons b' l' =>
      rw [h0, hj, List.append_assoc, List.append_assoc] at h
      obtain ⟨-, h2⟩ := hdec _ _ _ _ ha hb (e1 _) (e2 _) h
      exact absurd (congrArg List.head? h2) (by rw [show ", ".toList = [',', ' '] from rfl]; simp)
  | cons a' l ih =>
    intro l' a b r r' ha hb hl hl' h
    cases l' with
    | nil =>
      rw [h0, hj, List.append_assoc, List.append_assoc] at h
      obtain ⟨-, h2⟩ := hdec _ _ _ _ ha hb (e2 _) (e1 _) h
      exact absurd (congrArg List.head? h2) (by rw [show ", ".toList = [',', ' '] from rfl]; simp)
    | cons b' l' =>
      rw [hj, hj, List.append_assoc, List.append_assoc, List.append_assoc, List.append_assoc] at h
      obtain ⟨rfl, h2⟩ := hdec _ _ _ _ ha hb (e2 _) (e2 _) h
      obtain ⟨h3, h4⟩ := ih l' a' b' r r' (hl a' (by simp)) (hl' b' (by simp)) (fun x hx => hl x (by simp [hx])) (fun x hx => hl' x (by simp [hx]))
        (List.append_cancel_left h2)
      exact ⟨by rw [h3], h4⟩

theorem tuple_dec {α : Type} (f : α → Str) (ok : α → Prop)
    (hdec : ∀ a b r r', ok a → ok b → EndsAtom r → EndsAtom r' → f a ++ r = f b ++ r' → a = b ∧ r = r')
    (hne : ∀ a, f a ≠ [] ∧ (f a).head? ≠ some ')') (l l' : List α) (r r' : Str) (hl : ∀ x ∈ l, ok x) (hl' : ∀ x ∈ l', ok x)
    (h : tupleText (l.map f) ++ r = tupleText (l'.map f) ++ r') : l = l' ∧ r = r' := by
  have hhead : ∀ (a : α) (l : List α) (x : Str), (join ", ".toList ((a :: l).map f) ++ x).head? ≠ some ')' := by
    intro a l x
    have : ∃ y, join ", ".toList ((a :: l).map f) = f a ++ y := by
      cases l with
      | nil => exact ⟨[], by simp [join]⟩
      | cons b l => exact ⟨", ".toList ++ join ", ".toList ((b :: l).map f), by simp [join]⟩
    obtain ⟨y, hy⟩ := this
    rw [hy]
    obtain ⟨h1, h2⟩ := hne a
    cases hfa : f a with
    | nil => exact absurd hfa h1
    | cons c t => rw [hfa] at h2; simpa using h2
  unfold tupleText at h
  simp only [List.cons_append, List.append_assoc, List.cons.injEq, true_and, List.nil_append] at h
  cases l with
  | nil =>
    cases l' with
    | nil => simp only [List.map_nil, join, List.nil_append, List.cons.injEq, true_and] at h; exact ⟨rfl, h⟩
    | cons b l' =>
      exact absurd (congrArg List.head? h).symm (by simp only [List.map_nil, join, List.nil_append, List.head?_cons]; exact hhead b l' _)
  | cons a l =>
    cases l' with
    | nil => exact absurd (congrArg List.head? h) (by simp only [List.map_nil, join, List.nil_append, List.head?_cons]; exact hhead a l _)
    | cons b l' =>
      exact join_dec f ok hdec l l' a b r r' (hl a (by simp)) (hl' b (by simp)) (fun x hx => hl x (by simp [hx])) (fun x hx => hl' x (by simp [hx])) h

theorem ints_dec {l l' : List Nat} {r r' : Str} (h : tupleText (l.map fun n : Nat => showInt (n : Int)) ++ r = tupleText (l'.map fun n : Nat => showInt (n : Int)) ++ r') :
    l = l' ∧ r = r' := by
  refine tuple_dec (fun n : Nat => showInt (n : Int)) (fun _ => True) ?_ ?_ l l' r r' (by simp) (by simp) h
  · intro a b r r' _ _ hr hr' h
    obtain ⟨h1, h2⟩ := int_dec hr hr' h
    exact ⟨by exact_mod_cast h1, h2⟩
  · intro a
    refine ⟨showInt_ne_nil _, fun h => ?_⟩
    exact showInt_not (n := (a : Int)) (c := ')') (by decide) (List.mem_of_mem_head? h)

theorem floats_dec (hf : FloatTexts lib.floatRepr) {l l' : List Nat} (hl : ∀ b ∈ l, IsNumber b) (hl' : ∀ b ∈ l', IsNumber b) {r r' : Str}
    (h : tupleText (l.map lib.floatRepr) ++ r = tupleText (l'.map lib.floatRepr) ++ r') : l = l' ∧ r = r' := by
  refine tuple_dec lib.floatRepr IsNumber (fun a b r r' ha hb hr hr' h => float_dec hf ha hb hr hr' h) ?_ l l' r r' hl hl' h
  intro a
  exact ⟨hf.nonempty a, fun h => hf.chars a _ (List.mem_of_mem_head? h) (by simp)⟩

theorem matrix_dec (hf : FloatTexts lib.floatRepr) {l l' : List (List Nat)} (hl : ∀ r ∈ l, ∀ b ∈ r, IsNumber b) (hl' : ∀ r ∈ l', ∀ b ∈ r, IsNumber b) {r r' : Str}
    (h : tupleText (l.map fun r => tupleText (r.map lib.floatRepr)) ++ r = tupleText (l'.map fun r => tupleText (r.map lib.floatRepr)) ++ r') :
    l = l' ∧ r = r' := by
  refine tuple_dec (fun r : List Nat => tupleText (r.map lib.floatRepr)) (fun r => ∀ b ∈ r, IsNumber b) (fun a b r r' ha hb _ _ h => floats_dec hf ha hb h) ?_ l l' r r' hl hl' h
  intro a
  simp [tupleText]

/-! ## Quoted texts -/

theorem char_ext {a b : Char} (h : a.toNat = b.toNat) : a = b := Char.toNat_inj.1 h

theorem hexW_dec {w n m : Nat} (hn : n < 16 ^ (w + 1)) (hm : m < 16 ^ (w + 1)) {r r' : Str} (h : hexW (w + 1) n ++ r = hexW (w + 1) m ++ r') : n = m ∧ r = r' := by
  obtain ⟨h1, h2⟩ := List.append_inj h (by rw [hexW_length hn, hexW_length hm])
  exact ⟨hexW_inj h1, h2⟩

/-- How a character is written: itself, or a backslash, a letter, and hexadecimal digits -/
theorem pyEscape_cases (p : Char → Bool) (q c : Char) :
    (pyEscape p q c = [c] ∧ c ≠ q ∧ c ≠ '\\') ∨ (pyEscape p q c = ['\\', c] ∧ (c = q ∨ c = '\\')) ∨
    (pyEscape p q c = ['\\', 't'] ∧ c = '\t') ∨ (pyEscape p q c = ['\\', 'n'] ∧ c = '\n') ∨ (pyEscape p q c = ['\\', 'r'] ∧ c = '\r') ∨
    (pyEscape p q c = '\\' :: 'x' :: hexW 2 c.toNat ∧ c.toNat < 16 ^ 2) ∨ (pyEscape p q c = '\\' :: 'u' :: hexW 4 c.toNat ∧ c.toNat < 16 ^ 4) ∨
    (pyEscape p q c = '\\' :: 'U' :: hexW 8 c.toNat ∧ c.toNat < 16 ^ 8) := by
  have hc : c.toNat < 16 ^ 8 := by
    have := c.valid
    have h2 : c.toNat < 0x110000 := by
      rcases this with h | h
      · have : c.toNat < 0xd800 := h
        omega
      · exact h.2
    omega
  unfold pyEscape
  split_ifs with h1 h2 h3 h4 h5 h6 h7 h8
  · right; left; exact ⟨rfl, h1⟩
  · right; right; left; exact ⟨rfl, h2⟩
  · right; right; right; left; exact ⟨rfl, h3⟩
  · right; right; right; right; left; exact ⟨rfl, h4⟩
  · right; right; right; right; right; left; exact ⟨rfl, by omega⟩
  · left; exact ⟨rfl, not_or.1 h1⟩
  · right; right; right; right; right; left; exact ⟨rfl, by omega⟩
  · right; right; right; right; right; right; left; exact ⟨rfl, by omega⟩
  · right; right; right; right; right; right; right; exact ⟨rfl, hc⟩

theorem pyEscape_dec (p : Char → Bool) (q : Char) (hq : q = '\'' ∨ q = '"') (c c' : Char) (r r' : Str) (h : pyEscape p q c ++ r = pyEscape p q c' ++ r') :
    c = c' ∧ r = r' := by
  have hq1 : q ≠ '\\' ∧ q ≠ 't' ∧ q ≠ 'n' ∧ q ≠ 'r' ∧ q ≠ 'x' ∧ q ≠ 'u' ∧ q ≠ 'U' := by rcases hq with rfl | rfl <;> decide
  have tag : ∀ c : Char, c = q ∨ c = '\\' → c ≠ 't' ∧ c ≠ 'n' ∧ c ≠ 'r' ∧ c ≠ 'x' ∧ c ≠ 'u' ∧ c ≠ 'U' := by
    rintro c (rfl | rfl)
    · exact ⟨hq1.2.1, hq1.2.2.1, hq1.2.2.2.1, hq1.2.2.2.2.1, hq1.2.2.2.2.2.1, hq1.2.2.2.2.2.2⟩
    · decide
  rcases pyEscape_cases p q c with ⟨e, h1, h2⟩ | ⟨e, h1⟩ | ⟨e, h1⟩ | ⟨e, h1⟩ | ⟨e, h1⟩ | ⟨e, h1⟩ | ⟨e, h1⟩ | ⟨e, h1⟩ <;>
  rcases pyEscape_cases p q c' with ⟨e', h1', h2'⟩ | ⟨e', h1'⟩ | ⟨e', h1'⟩ | ⟨e', h1'⟩ | ⟨e', h1'⟩ | ⟨e', h1'⟩ | ⟨e', h1'⟩ | ⟨e', h1'⟩ <;>
  rw [e, e'] at h <;>
  simp only [List.cons_append, List.nil_append, List.cons.injEq, true_and] at h
  all_goals first
    | exact h
    | exact absurd h.1 h2
    | exact absurd h.1.symm h2'
    | exact ⟨h1.trans h1'.symm, h.2⟩
    | exact ⟨h1.trans h1'.symm, h⟩
    | exact absurd h.1 (tag c h1).1
    | exact absurd h.1 (tag c h1).2.1
    | exact absurd h.1 (tag c h1).2.2.1
    | exact absurd h.1 (tag c h1).2.2.2.1
    | exact absurd h.1 (tag c h1).2.2.2.2.1
    | exact absurd h.1 (tag c h1).2.2.2.2.2
    | exact absurd h.1.symm (tag c' h1').1
    | exact absurd h.1.symm (tag c' h1').2.1
    | exact absurd h.1.symm (tag c' h1').2.2.1
    | exact absurd h.1.symm (tag c' h1').2.2.2.1
    | exact absurd h.1.symm (tag c' h1').2.2.2.2.1
    | exact absurd h.1.symm (tag c' h1').2.2.2.2.2
    | exact absurd h.1 (by decide)
    | exact ⟨char_ext (hexW_dec h1 h1' h).1, (hexW_dec h1 h1' h).2⟩

theorem quoted_dec (p : Char → Bool) (q : Char) (hq : q = '\'' ∨ q = '"') (s : Str) : ∀ (s' r r' : Str),
    s.flatMap (pyEscape p q) ++ q :: r = s'.flatMap (pyEscape p q) ++ q :: r' → s = s' ∧ r = r' := by
  have hne : ∀ c (x y : Str), pyEscape p q c ++ x ≠ q :: y := by
    intro c x y h
    have hq1 : q ≠ '\\' := by rcases hq with rfl | rfl <;> decide
    rcases pyEscape_cases p q c with ⟨e, h1, h2⟩ | ⟨e, h1⟩ | ⟨e, h1⟩ | ⟨e, h1⟩ | ⟨e, h1⟩ | ⟨e, h1⟩ | ⟨e, h1⟩ | ⟨e, h1⟩ <;> rw [e] at h <;>
      simp only [List.cons_append, List.cons.injEq] at h
    · exact h1 h.1
    all_goals exact hq1 h.1.symm
  induction s with
  | nil =>
    intro s' r r' h
    cases s' with
    | nil => simpa using h
    | cons c' s' =>
      rw [List.flatMap_cons, List.append_assoc] at h
      exact absurd h.symm (hne _ _ _)
  | cons c s ih =>
    intro s' r r' h
    cases s' with
    | nil =>
      rw [List.flatMap_cons, List.append_assoc] at h
      exact absurd h (hne _ _ _)
    | cons c' s' =>
      rw [List.flatMap_cons, List.flatMap_cons, List.append_assoc, List.append_assoc] at h
      obtain ⟨rfl, h2⟩ := pyEscape_dec p q hq c c' _ _ h
      obtain ⟨rfl, h3⟩ := ih _ _ _ h2
      exact ⟨rfl, h3⟩

theorem pyRepr_dec (p : Char → Bool) {s s' r r' : Str} (h : pyRepr p s ++ r = pyRepr p s' ++ r') : s = s' ∧ r = r' := by
  unfold pyRepr at h
  simp only [List.cons_append, List.append_assoc, List.cons.injEq, List.nil_append] at h
  obtain ⟨hq, h⟩ := h
  rw [← hq] at h
  exact quoted_dec p _ (pyQuote_cases s) s s' r r' h

theorem pyRepr_head (p : Char → Bool) (s r : Str) : ∃ t, pyRepr p s ++ r = '\'' :: t ∨ pyRepr p s ++ r = '"' :: t := by
  unfold pyRepr
  simp only [List.cons_append]
  rcases pyQuote_cases s with h | h <;> rw [h]
  · exact ⟨_, .inl rfl⟩
  · exact ⟨_, .inr rfl⟩

/-! ## Hashes -/

theorem mk'_s (k : BinHashKind) (h : Nat) : (lib.env.mk' k h).s = lib.known k h ∧ (lib.env.mk' k h).h = h ∧ (lib.env.mk' k h).kind = k := ⟨rfl, rfl, rfl⟩

/-- An unknown hash in braces -/
theorem hex_dec {b b' : BinHash} (hk : b.kind = b'.kind) {r r' : Str} (h : '{' :: b.hex ++ ['}'] ++ r = '{' :: b'.hex ++ ['}'] ++ r') : b.h = b'.h ∧ r = r' := by
  simp only [List.cons_append, List.append_assoc, List.cons.injEq, true_and, List.nil_append] at h
  have hh : ∀ b : BinHash, '}' ∉ b.hex := by
    intro b; unfold BinHash.hex; split <;> exact hexW_not (by decide)
  obtain ⟨h1, h2⟩ := word_sep (hh b) (hh b') h
  refine ⟨?_, h2⟩
  unfold BinHash.hex at h1
  rw [← hk] at h1
  split at h1 <;> exact hexW_inj h1

theorem hashRepr_dec (hn : ClearNames lib.known) {k : BinHashKind} {h h' : Nat} {r r' : Str}
    (he : lib.hashRepr (lib.env.mk' k h) ++ r = lib.hashRepr (lib.env.mk' k h') ++ r') : h = h' ∧ r = r' := by
  unfold DumpLib.hashRepr at he
  simp only [(mk'_s k h).1, (mk'_s k h').1] at he
  cases hs : lib.known k h with
  | some s =>
    cases hs' : lib.known k h' with
    | some s' =>
      rw [hs, hs'] at he
      obtain ⟨rfl, h2⟩ := pyRepr_dec _ he
      exact ⟨hn.distinct k h h' s hs hs', h2⟩
    | none =>
      rw [hs, hs'] at he
      simp only at he
      obtain ⟨t, ht⟩ := pyRepr_head lib.printable s r
      rcases ht with ht | ht <;> rw [ht] at he <;> simp at he
  | none =>
    cases hs' : lib.known k h' with
    | some s' =>
      rw [hs, hs'] at he
      simp only at he
      obtain ⟨t, ht⟩ := pyRepr_head lib.printable s' r'
      rcases ht with ht | ht <;> rw [ht] at he <;> simp at he
    | none =>
      rw [hs, hs'] at he
      exact hex_dec (b := lib.env.mk' k h) (b' := lib.env.mk' k h') rfl he

/-- Names that do not start with a brace tell the hash. -/
theorem hashStr_inj (hn : ClearNames lib.known) {k : BinHashKind} {h h' : Nat} (hw : ∀ s, lib.known k h = some s → s.head? ≠ some '{')
    (hw' : ∀ s, lib.known k h' = some s → s.head? ≠ some '{') (he : (lib.env.mk' k h).str = (lib.env.mk' k h').str) : h = h' := by
  unfold BinHash.str at he
  simp only [(mk'_s k h).1, (mk'_s k h').1] at he
  cases hs : lib.known k h with
  | some s =>
    cases hs' : lib.known k h' with
    | some s' =>
      rw [hs, hs'] at he
      simp only at he
      subst he
      exact hn.distinct k h h' s hs hs'
    | none =>
      rw [hs, hs'] at he
      simp only at he
      exact absurd (by rw [he]; rfl) (hw s hs)
  | none =>
    cases hs' : lib.known k h' with
    | some s' =>
      rw [hs, hs'] at he
      simp only at he
      exact absurd (by rw [← he]; rfl) (hw' s' hs')
    | none =>
      rw [hs, hs'] at he
      simp only at he
      exact (hex_dec (b := lib.env.mk' k h) (b' := lib.env.mk' k h') (r := []) (r' := []) rfl (by rw [he])).1

theorem hashStr_not {k : BinHashKind} {h : Nat} {c : Char} (hc : c ∉ "{}0123456789abcdef".toList) (hk : ∀ s, lib.known k h = some s → c ∉ s) :
    c ∉ (lib.env.mk' k h).str := by
  unfold BinHash.str
  rw [(mk'_s k h).1]
  cases hs : lib.known k h with
  | some s => exact hk s hs
  | none =>
    simp only [BinHash.hex, List.cons_append, List.mem_cons, List.mem_append, List.not_mem_nil, or_false, not_or]
    have hx : c ∉ "0123456789abcdef".toList := by
      rw [show "{}0123456789abcdef".toList = '{' :: '}' :: "0123456789abcdef".toList from rfl] at hc
      simp only [List.mem_cons, not_or] at hc; exact hc.2.2
    rw [show "{}0123456789abcdef".toList = '{' :: '}' :: "0123456789abcdef".toList from rfl] at hc
    simp only [List.mem_cons, not_or] at hc
    refine ⟨hc.1, ?_, hc.2.1⟩
    split <;> exact hexW_not hx

/-- A name of a field or of a type, then a space -/
theorem name_dec (hn : ClearNames lib.known) {k : BinHashKind} (hk : k = .field ∨ k = .type) {h h' : Nat} {r r' : Str}
    (he : (lib.env.mk' k h).str ++ " ".toList ++ r = (lib.env.mk' k h').str ++ " ".toList ++ r') : h = h' ∧ r = r' := by
  have hsp : ∀ h, ' ' ∉ (lib.env.mk' k h).str := fun h => hashStr_not (by decide) (fun s hs => (hn.word k h s hs hk).1)
  rw [List.append_assoc, List.append_assoc] at he
  obtain ⟨h1, h2⟩ := word_sep (hsp h) (hsp h') he
  exact ⟨hashStr_inj hn (fun s hs => (hn.word k h s hs hk).2.2.2) (fun s hs => (hn.word k h' s hs hk).2.2.2) h1, h2⟩

end
end Cdtb
