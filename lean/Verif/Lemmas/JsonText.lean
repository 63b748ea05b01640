import Verif.Spec.JsonText
import Verif.Model.JsonText
import Verif.Lemmas.Num
import Verif.Lemmas.BinTyped
/-!
# Lemmas on JSON texts: the text of a value, and what it denotes
-/
namespace Cdtb
set_option autoImplicit false
open Py Spec

/-! ## Texts denote one value -/

theorem hexDigit_unique {c : Char} {n m : Nat} (h : HexDigit c n) (h' : HexDigit c m) : n = m := by
  have e : ∀ n, HexDigit c n → n < 16 ∧ (c = "0123456789abcdef".toList[n]! ∨ c = "0123456789ABCDEF".toList[n]!) := by
    intro n hn
    rcases hn with hn | hn
    · have hl : n < 16 := by
        have := (List.getElem?_eq_some_iff.1 hn).1
        simpa using this
      exact ⟨hl, Or.inl (by rw [List.getElem!_eq_getElem?_getD, hn]; rfl)⟩
    · have hl : n < 16 := by
        have := (List.getElem?_eq_some_iff.1 hn).1
        simpa using this
      exact ⟨hl, Or.inr (by rw [List.getElem!_eq_getElem?_getD, hn]; rfl)⟩
  obtain ⟨h1, h2⟩ := e n h
  obtain ⟨h3, h4⟩ := e m h'
  have key : ∀ n < 16, ∀ m < 16, (("0123456789abcdef".toList[n]! = "0123456789abcdef".toList[m]! ∨ "0123456789abcdef".toList[n]! = "0123456789ABCDEF".toList[m]!) ∨
      ("0123456789ABCDEF".toList[n]! = "0123456789abcdef".toList[m]! ∨ "0123456789ABCDEF".toList[n]! = "0123456789ABCDEF".toList[m]!)) → n = m := by
    decide +kernel
  apply key n h1 m h3
  rcases h2 with h2 | h2 <;> rcases h4 with h4 | h4 <;> rw [← h2, ← h4] <;> simp

theorem hex4_unique {a b r s : Str} {n m : Nat} (h : Spec.Hex4 a n) (h' : Spec.Hex4 b m) (e : a ++ r = b ++ s) : n = m ∧ a = b ∧ r = s := by
  obtain ⟨a1, a2, a3, a4, x1, x2, x3, x4, rfl, h1, h2, h3, h4, rfl⟩ := h
  obtain ⟨b1, b2, b3, b4, y1, y2, y3, y4, rfl, g1, g2, g3, g4, rfl⟩ := h'
  simp only [List.cons_append, List.nil_append, List.cons.injEq] at e
  obtain ⟨rfl, rfl, rfl, rfl, rfl⟩ := e
  rw [hexDigit_unique h1 g1, hexDigit_unique h2 g2, hexDigit_unique h3 g3, hexDigit_unique h4 g4]
  exact ⟨rfl, rfl, rfl⟩

theorem char_toNat_inj {c d : Char} (h : c.toNat = d.toNat) : c = d := by
  apply Char.ext
  apply UInt32.toNat_inj.1
  exact h

theorem char_no_surrogate (c : Char) : ¬ (0xD800 ≤ c.toNat ∧ c.toNat < 0xE000) := by
  have := c.valid
  rcases this with h | h
  · intro ⟨h1, _⟩
    have : c.toNat < 0xD800 := h
    omega
  · intro ⟨_, h2⟩
    have : 0xDFFF < c.toNat := h.1
    omega

theorem jsonEscapes_unique {e c d : Char} (h : (e, c) ∈ jsonEscapes) (h' : (e, d) ∈ jsonEscapes) : c = d := by
  have : ∀ x ∈ jsonEscapes, ∀ y ∈ jsonEscapes, x.1 = y.1 → x.2 = y.2 := by decide +kernel
  exact this _ h _ h' rfl

theorem jsonEscapes_ne_u {c : Char} (h : ('u', c) ∈ jsonEscapes) : False := by
  have : ∀ x ∈ jsonEscapes, x.1 ≠ 'u' := by decide +kernel
  exact this _ h rfl

theorem jsonChars_unique {t s : Str} (h : JsonChars t s) : ∀ {t' s' r r' : Str}, JsonChars t' s' → t ++ '"' :: r = t' ++ '"' :: r' → s = s' ∧ r = r' := by
  induction h with
  | nil =>
    intro t' s' r r' h' e
    cases h' with
    | nil => simpa using e
    | plain c t s h1 h2 h3 h4 => simp only [List.nil_append, List.cons_append, List.cons.injEq] at e; exact absurd e.1.symm h1
    | escape => simp at e
    | unicode => simp at e
    | pair => simp at e
  | plain c t s h1 h2 h3 h4 ih =>
    intro t' s' r r' h' e
    cases h' with
    | nil => simp only [List.nil_append, List.cons_append, List.cons.injEq] at e; exact absurd e.1 h1
    | plain c' t' s' _ _ _ g =>
      simp only [List.cons_append, List.cons.injEq] at e
      obtain ⟨rfl, e⟩ := e
      obtain ⟨rfl, rfl⟩ := ih g e
      exact ⟨rfl, rfl⟩
    | escape => simp only [List.cons_append, List.cons.injEq] at e; exact absurd e.1 h2
    | unicode => simp only [List.cons_append, List.cons.injEq] at e; exact absurd e.1 h2
    | pair => simp only [List.cons_append, List.cons.injEq] at e; exact absurd e.1 h2
  | escape x c t s h1 h2 ih =>
    intro t' s' r r' h' e
    cases h' with
    | nil => simp at e
    | plain c' t' s' _ g _ _ => simp only [List.cons_append, List.cons.injEq] at e; exact absurd e.1.symm g
    | escape x' c' t' s' g1 g2 =>
      simp only [List.cons_append, List.cons.injEq, true_and] at e
      obtain ⟨rfl, e⟩ := e
      obtain ⟨rfl, rfl⟩ := ih g2 e
      exact ⟨by rw [jsonEscapes_unique h1 g1], rfl⟩
    | unicode => simp only [List.cons_append, List.cons.injEq, true_and] at e; obtain ⟨rfl, _⟩ := e; exact (jsonEscapes_ne_u h1).elim
    | pair => simp only [List.cons_append, List.cons.injEq, true_and] at e; obtain ⟨rfl, _⟩ := e; exact (jsonEscapes_ne_u h1).elim
  | unicode ds c t s h1 h2 ih =>
    intro t' s' r r' h' e
    cases h' with
    | nil => simp at e
    | plain c' t' s' _ g _ _ => simp only [List.cons_append, List.cons.injEq] at e; exact absurd e.1.symm g
    | escape x' c' t' s' g1 g2 => simp only [List.cons_append, List.cons.injEq, true_and] at e; obtain ⟨rfl, _⟩ := e; exact (jsonEscapes_ne_u g1).elim
    | unicode ds' c' t' s' g1 g2 =>
      simp only [List.cons_append, List.append_assoc, List.cons.injEq, true_and] at e
      obtain ⟨e1, -, e2⟩ := hex4_unique h1 g1 e
      obtain ⟨rfl, rfl⟩ := ih g2 e2
      exact ⟨by rw [char_toNat_inj e1], rfl⟩
    | pair ds1 ds2 hi lo c' t' s' g1 g2 g3 g4 g5 g6 g7 g8 =>
      simp only [List.cons_append, List.append_assoc, List.cons.injEq, true_and] at e
      obtain ⟨e1, -, e2⟩ := hex4_unique h1 g1 e
      exact absurd ⟨e1 ▸ g3, by omega⟩ (char_no_surrogate c)
  | pair ds1 ds2 hi lo c t s h1 h2 h3 h4 h5 h6 h7 h8 ih =>
    intro t' s' r r' h' e
    cases h' with
    | nil => simp at e
    | plain c' t' s' _ g _ _ => simp only [List.cons_append, List.cons.injEq] at e; exact absurd e.1.symm g
    | escape x' c' t' s' g1 g2 => simp only [List.cons_append, List.cons.injEq, true_and] at e; obtain ⟨rfl, _⟩ := e; exact (jsonEscapes_ne_u g1).elim
    | unicode ds' c' t' s' g1 g2 =>
      simp only [List.cons_append, List.append_assoc, List.cons.injEq, true_and] at e
      obtain ⟨e1, -, e2⟩ := hex4_unique h1 g1 e
      exact absurd ⟨e1 ▸ h3, by omega⟩ (char_no_surrogate c')
    | pair ds1' ds2' hi' lo' c' t' s' g1 g2 g3 g4 g5 g6 g7 g8 =>
      simp only [List.cons_append, List.append_assoc, List.cons.injEq, true_and] at e
      obtain ⟨rfl, -, e2⟩ := hex4_unique h1 g1 e
      simp only [List.cons.injEq, true_and] at e2
      obtain ⟨rfl, -, e3⟩ := hex4_unique h2 g2 e2
      obtain ⟨rfl, rfl⟩ := ih g8 e3
      exact ⟨by rw [char_toNat_inj (h7.trans g7.symm)], rfl⟩

/-- Characters of constants and numbers -/
def jsonWordChars : Str := "0123456789+-.eENaInfityulrs".toList

theorem Spec.JsonDigits.wordChars {t : Str} (h : JsonDigits t) : ∀ c ∈ t, c ∈ jsonWordChars := by
  have : ∀ c ∈ "0123456789".toList, c ∈ jsonWordChars := by decide +kernel
  exact fun c hc => this c (h.2 c hc)

theorem Spec.JsonNumber.wordChars {t : Str} (h : JsonNumber t) : t ≠ [] ∧ (∀ c ∈ t, c ∈ jsonWordChars) ∧ ∃ c ∈ t, c ∈ "0123456789".toList := by
  obtain ⟨sign, int, frac, exp, rfl, h1, ⟨h2, -⟩, h3, h4⟩ := h
  obtain ⟨d, hd⟩ := List.exists_mem_of_ne_nil _ h2.1
  refine ⟨fun e => ?_, ?_, d, ?_, h2.2 d hd⟩
  · simp only [List.append_eq_nil_iff] at e; exact h2.1 e.1.1.2
  · have hm : '-' ∈ jsonWordChars ∧ '+' ∈ jsonWordChars ∧ '.' ∈ jsonWordChars ∧ 'e' ∈ jsonWordChars ∧ 'E' ∈ jsonWordChars := by decide +kernel
    intro c hc
    rcases List.mem_append.1 hc with hc | hc
    · rcases List.mem_append.1 hc with hc | hc
      · rcases List.mem_append.1 hc with hc | hc
        · rcases h1 with rfl | rfl
          · simp at hc
          · rw [List.mem_singleton.1 hc]; exact hm.1
        · exact h2.wordChars c hc
      · rcases h3 with rfl | ⟨ds, rfl, h3⟩
        · simp at hc
        · rcases List.mem_cons.1 hc with rfl | hc
          · exact hm.2.2.1
          · exact h3.wordChars c hc
    · rcases h4 with rfl | ⟨e, s, ds, rfl, he, hs, hds⟩
      · simp at hc
      · rcases List.mem_append.1 hc with hc | hc
        · rcases List.mem_cons.1 hc with rfl | hc
          · rcases he with rfl | rfl
            · exact hm.2.2.2.1
            · exact hm.2.2.2.2
          · rcases hs with rfl | rfl | rfl
            · simp at hc
            · rw [List.mem_singleton.1 hc]; exact hm.2.1
            · rw [List.mem_singleton.1 hc]; exact hm.1
        · exact hds.wordChars c hc
  · simp [hd]

theorem Spec.JsonNum.wordChars {t : Str} (h : JsonNum t) : t ≠ [] ∧ (∀ c ∈ t, c ∈ jsonWordChars) ∧ t ≠ "null".toList ∧ t ≠ "true".toList ∧ t ≠ "false".toList := by
  rcases h with h | rfl | rfl | rfl
  · obtain ⟨h1, h2, c, hc, hd⟩ := h.wordChars
    refine ⟨h1, h2, ?_, ?_, ?_⟩
    · rintro rfl
      exact absurd hd ((by decide +kernel : ∀ c ∈ "null".toList, c ∉ "0123456789".toList) c hc)
    · rintro rfl
      exact absurd hd ((by decide +kernel : ∀ c ∈ "true".toList, c ∉ "0123456789".toList) c hc)
    · rintro rfl
      exact absurd hd ((by decide +kernel : ∀ c ∈ "false".toList, c ∉ "0123456789".toList) c hc)
  · decide +kernel
  · decide +kernel
  · decide +kernel

theorem Spec.JsonWord.wordChars {t : Str} {v : Json} (h : JsonWord t v) : t ≠ [] ∧ ∀ c ∈ t, c ∈ jsonWordChars := by
  cases h with
  | null => decide +kernel
  | true => decide +kernel
  | false => decide +kernel
  | num t h => exact ⟨h.wordChars.1, h.wordChars.2.1⟩

theorem Spec.JsonWord.unique {t : Str} {v v' : Json} (h : JsonWord t v) (h' : JsonWord t v') : v = v' := by
  have hne : ("null".toList ≠ "true".toList ∧ "null".toList ≠ "false".toList ∧ "true".toList ≠ "false".toList) := by decide +kernel
  generalize ht : t = u at h'
  cases h with
  | null =>
    cases h' with
    | null => rfl
    | true => exact absurd ht hne.1
    | false => exact absurd ht hne.2.1
    | num t h => subst ht; exact absurd rfl h.wordChars.2.2.1
  | true =>
    cases h' with
    | null => exact absurd ht.symm hne.1
    | true => rfl
    | false => exact absurd ht hne.2.2
    | num t h => subst ht; exact absurd rfl h.wordChars.2.2.2.1
  | false =>
    cases h' with
    | null => exact absurd ht.symm hne.2.1
    | true => exact absurd ht.symm hne.2.2
    | false => rfl
    | num t h => subst ht; exact absurd rfl h.wordChars.2.2.2.2
  | num t h =>
    cases h' with
    | null => subst ht; exact absurd rfl h.wordChars.2.2.1
    | true => subst ht; exact absurd rfl h.wordChars.2.2.2.1
    | false => subst ht; exact absurd rfl h.wordChars.2.2.2.2
    | num t' h' => rw [ht]

/-- The text that follows a value does not go on with a word -/
def Ends (r : Str) : Prop := ∀ c r', r = c :: r' → c ∉ jsonWordChars

theorem span_unique {P : Char → Prop} {a b r s : Str} (ha : ∀ c ∈ a, P c) (hb : ∀ c ∈ b, P c) (hr : ∀ c r', r = c :: r' → ¬ P c)
    (hs : ∀ c r', s = c :: r' → ¬ P c) (e : a ++ r = b ++ s) : a = b ∧ r = s := by
  induction a generalizing b with
  | nil =>
    cases b with
    | nil => exact ⟨rfl, e⟩
    | cons c b => exact absurd (hb c (by simp)) (hr c _ e)
  | cons c a ih =>
    cases b with
    | nil => exact absurd (ha c (by simp)) (hs c _ e.symm)
    | cons d b =>
      simp only [List.cons_append, List.cons.injEq] at e
      obtain ⟨rfl, e⟩ := e
      obtain ⟨rfl, rfl⟩ := ih (fun c hc => ha c (by simp [hc])) (fun c hc => hb c (by simp [hc])) e
      exact ⟨rfl, rfl⟩

/-- Whitespace is read as far as possible. -/
theorem ws_unique {a b r s : Str} (ha : JsonWs a) (hb : JsonWs b) (hr : ∀ c r', r = c :: r' → ¬ (c = ' ' ∨ c = '\n' ∨ c = '\t' ∨ c = '\r'))
    (hs : ∀ c r', s = c :: r' → ¬ (c = ' ' ∨ c = '\n' ∨ c = '\t' ∨ c = '\r')) (e : a ++ r = b ++ s) : a = b ∧ r = s :=
  span_unique ha hb hr hs e

/-- A character of a word, or one that opens a string, an array or an object -/
def Opens (c : Char) : Prop := c ∈ jsonWordChars ∨ c = '"' ∨ c = '[' ∨ c = '{'

theorem Opens.facts {c : Char} (h : Opens c) : ¬ (c = ' ' ∨ c = '\n' ∨ c = '\t' ∨ c = '\r') ∧ c ≠ ']' ∧ c ≠ '}' ∧ c ≠ ',' := by
  rcases h with h | rfl | rfl | rfl
  · exact (by decide +kernel : ∀ c ∈ jsonWordChars, ¬ (c = ' ' ∨ c = '\n' ∨ c = '\t' ∨ c = '\r') ∧ c ≠ ']' ∧ c ≠ '}' ∧ c ≠ ',') c h
  · decide +kernel
  · decide +kernel
  · decide +kernel

theorem Spec.JsonText.opens {t : Str} {v : Json} (h : JsonText t v) : ∃ c t', t = c :: t' ∧ Opens c := by
  cases h with
  | word t v h =>
    obtain ⟨h1, h2⟩ := h.wordChars
    cases t with
    | nil => exact absurd rfl h1
    | cons c t => exact ⟨c, t, rfl, Or.inl (h2 c (by simp))⟩
  | str => exact ⟨_, _, rfl, Or.inr (Or.inl rfl)⟩
  | empty => exact ⟨_, _, rfl, Or.inr (Or.inr (Or.inl rfl))⟩
  | arr => exact ⟨_, _, rfl, Or.inr (Or.inr (Or.inl rfl))⟩
  | emptyObj => exact ⟨_, _, rfl, Or.inr (Or.inr (Or.inr rfl))⟩
  | obj => exact ⟨_, _, rfl, Or.inr (Or.inr (Or.inr rfl))⟩

theorem Spec.JsonItems.opens {t : Str} {l : List Json} (h : JsonItems t l) : ∃ c t', t = c :: t' ∧ Opens c := by
  cases h with
  | one t w v h => obtain ⟨c, t', rfl, hc⟩ := h.opens; exact ⟨c, _, rfl, hc⟩
  | more t w w' t' v l h => obtain ⟨c, t'', rfl, hc⟩ := h.opens; exact ⟨c, _, rfl, hc⟩

theorem Spec.JsonMembers.opens {t : Str} {l : List (Str × Json)} (h : JsonMembers t l) : ∃ c t', t = c :: t' ∧ Opens c := by
  cases h with
  | one => exact ⟨_, _, rfl, Or.inr (Or.inl rfl)⟩
  | more => exact ⟨_, _, rfl, Or.inr (Or.inl rfl)⟩

theorem Opens.solid {c : Char} {t s : Str} (h : Opens c) : ∀ d r', c :: t ++ s = d :: r' → ¬ (d = ' ' ∨ d = '\n' ∨ d = '\t' ∨ d = '\r') := by
  intro d r' e
  simp only [List.cons_append, List.cons.injEq] at e
  rw [← e.1]; exact h.facts.1

theorem solid_lit {c : Char} {t : Str} (h : ¬ (c = ' ' ∨ c = '\n' ∨ c = '\t' ∨ c = '\r')) :
    ∀ d r', c :: t = d :: r' → ¬ (d = ' ' ∨ d = '\n' ∨ d = '\t' ∨ d = '\r') := by
  intro d r' e
  simp only [List.cons.injEq] at e
  rw [← e.1]; exact h

theorem ends_ws {w : Str} (hw : JsonWs w) {c : Char} {r : Str} (hc : c ∉ jsonWordChars) : Ends (w ++ c :: r) := by
  intro d r' e
  cases w with
  | nil => simp only [List.nil_append, List.cons.injEq] at e; rw [← e.1]; exact hc
  | cons x w =>
    simp only [List.cons_append, List.cons.injEq] at e
    rw [← e.1]
    rcases hw x (by simp) with rfl | rfl | rfl | rfl <;> decide +kernel

theorem word_other {t : Str} {v : Json} (h : JsonWord t v) {c : Char} {r s : Str} (hc : c ∉ jsonWordChars) (e : t ++ r = c :: s) : False := by
  obtain ⟨h1, h2⟩ := h.wordChars
  cases t with
  | nil => exact h1 rfl
  | cons d t =>
    simp only [List.cons_append, List.cons.injEq] at e
    exact hc (e.1 ▸ h2 d (by simp))

theorem jsonWordChars_not : '"' ∉ jsonWordChars ∧ '[' ∉ jsonWordChars ∧ '{' ∉ jsonWordChars ∧ ']' ∉ jsonWordChars ∧ '}' ∉ jsonWordChars ∧ ',' ∉ jsonWordChars := by
  decide +kernel

theorem solid_close : (¬ (']' = ' ' ∨ ']' = '\n' ∨ ']' = '\t' ∨ ']' = '\r')) ∧ (¬ ('}' = ' ' ∨ '}' = '\n' ∨ '}' = '\t' ∨ '}' = '\r')) ∧
    (¬ (',' = ' ' ∨ ',' = '\n' ∨ ',' = '\t' ∨ ',' = '\r')) ∧ (¬ (':' = ' ' ∨ ':' = '\n' ∨ ':' = '\t' ∨ ':' = '\r')) := by decide +kernel

mutual
theorem jsonText_unique {t : Str} {v : Json} (h : JsonText t v) {t' : Str} {v' : Json} {r r' : Str} (h' : JsonText t' v') (hr : Ends r) (hr' : Ends r')
    (e : t ++ r = t' ++ r') : v = v' ∧ r = r' := by
  cases h with
  | word t v h =>
    cases h' with
    | word t' v' h' =>
      obtain ⟨rfl, rfl⟩ := span_unique (P := fun c => c ∈ jsonWordChars) h.wordChars.2 h'.wordChars.2 hr hr' e
      exact ⟨h.unique h', rfl⟩
    | str => exact (word_other h jsonWordChars_not.1 e).elim
    | empty => exact (word_other h jsonWordChars_not.2.1 e).elim
    | arr => exact (word_other h jsonWordChars_not.2.1 e).elim
    | emptyObj => exact (word_other h jsonWordChars_not.2.2.1 e).elim
    | obj => exact (word_other h jsonWordChars_not.2.2.1 e).elim
  | str t s h =>
    cases h' with
    | word t' v' h' => exact (word_other h' jsonWordChars_not.1 e.symm).elim
    | str t' s' h' =>
      simp only [List.cons_append, List.append_assoc, List.cons.injEq, true_and, List.nil_append] at e
      obtain ⟨rfl, rfl⟩ := jsonChars_unique h h' e
      exact ⟨rfl, rfl⟩
    | empty => simp at e
    | arr => simp at e
    | emptyObj => simp at e
    | obj => simp at e
  | empty w hw =>
    cases h' with
    | word t' v' h' => exact (word_other h' jsonWordChars_not.2.1 e.symm).elim
    | str => simp at e
    | empty w' hw' =>
      simp only [List.cons_append, List.append_assoc, List.cons.injEq, true_and, List.nil_append] at e
      have := (ws_unique hw hw' (solid_lit solid_close.1) (solid_lit solid_close.1) e).2
      simp only [List.cons.injEq, true_and] at this
      exact ⟨rfl, this⟩
    | arr w' t' l hw' hl =>
      simp only [List.cons_append, List.append_assoc, List.cons.injEq, true_and, List.nil_append] at e
      obtain ⟨c, x, rfl, hc⟩ := hl.opens
      have := (ws_unique hw hw' (solid_lit solid_close.1) hc.solid e).2
      simp only [List.cons_append, List.cons.injEq] at this
      exact absurd this.1.symm hc.facts.2.1
    | emptyObj => simp at e
    | obj => simp at e
  | arr w t l hw hl =>
    cases h' with
    | word t' v' h' => exact (word_other h' jsonWordChars_not.2.1 e.symm).elim
    | str => simp at e
    | empty w' hw' =>
      simp only [List.cons_append, List.append_assoc, List.cons.injEq, true_and, List.nil_append] at e
      obtain ⟨c, x, rfl, hc⟩ := hl.opens
      have := (ws_unique hw hw' hc.solid (solid_lit solid_close.1) e).2
      simp only [List.cons_append, List.cons.injEq] at this
      exact absurd this.1 hc.facts.2.1
    | arr w' t' l' hw' hl' =>
      simp only [List.cons_append, List.append_assoc, List.cons.injEq, true_and, List.nil_append] at e
      have e2 : t ++ ']' :: r = t' ++ ']' :: r' := by
        obtain ⟨c, x, rfl, hc⟩ := hl.opens
        obtain ⟨c', x', rfl, hc'⟩ := hl'.opens
        exact (ws_unique hw hw' hc.solid hc'.solid e).2
      obtain ⟨rfl, rfl⟩ := jsonItems_unique hl hl' e2
      exact ⟨rfl, rfl⟩
    | emptyObj => simp at e
    | obj => simp at e
  | emptyObj w hw =>
    cases h' with
    | word t' v' h' => exact (word_other h' jsonWordChars_not.2.2.1 e.symm).elim
    | str => simp at e
    | empty => simp at e
    | arr => simp at e
    | emptyObj w' hw' =>
      simp only [List.cons_append, List.append_assoc, List.cons.injEq, true_and, List.nil_append] at e
      have := (ws_unique hw hw' (solid_lit solid_close.2.1) (solid_lit solid_close.2.1) e).2
      simp only [List.cons.injEq, true_and] at this
      exact ⟨rfl, this⟩
    | obj w' t' l hw' hl =>
      simp only [List.cons_append, List.append_assoc, List.cons.injEq, true_and, List.nil_append] at e
      obtain ⟨c, x, rfl, hc⟩ := hl.opens
      have := (ws_unique hw hw' (solid_lit solid_close.2.1) hc.solid e).2
      simp only [List.cons_append, List.cons.injEq] at this
      exact absurd this.1.symm hc.facts.2.2.1
  | obj w t l hw hl =>
    cases h' with
    | word t' v' h' => exact (word_other h' jsonWordChars_not.2.2.1 e.symm).elim
    | str => simp at e
    | empty => simp at e
    | arr => simp at e
    | emptyObj w' hw' =>
      simp only [List.cons_append, List.append_assoc, List.cons.injEq, true_and, List.nil_append] at e
      obtain ⟨c, x, rfl, hc⟩ := hl.opens
      have := (ws_unique hw hw' hc.solid (solid_lit solid_close.2.1) e).2
      simp only [List.cons_append, List.cons.injEq] at this
      exact absurd this.1 hc.facts.2.2.1
    | obj w' t' l' hw' hl' =>
      simp only [List.cons_append, List.append_assoc, List.cons.injEq, true_and, List.nil_append] at e
      have e2 : t ++ '}' :: r = t' ++ '}' :: r' := by
        obtain ⟨c, x, rfl, hc⟩ := hl.opens
        obtain ⟨c', x', rfl, hc'⟩ := hl'.opens
        exact (ws_unique hw hw' hc.solid hc'.solid e).2
      obtain ⟨rfl, rfl⟩ := jsonMembers_unique hl hl' e2
      exact ⟨rfl, rfl⟩
theorem jsonItems_unique {t : Str} {l : List Json} (h : JsonItems t l) {t' : Str} {l' : List Json} {r r' : Str} (h' : JsonItems t' l')
    (e : t ++ ']' :: r = t' ++ ']' :: r') : l = l' ∧ r = r' := by
  cases h with
  | one t w v h hw =>
    cases h' with
    | one t' w' v' h' hw' =>
      simp only [List.append_assoc] at e
      obtain ⟨rfl, e⟩ := jsonText_unique h h' (ends_ws hw jsonWordChars_not.2.2.2.1) (ends_ws hw' jsonWordChars_not.2.2.2.1) e
      have := (ws_unique hw hw' (solid_lit solid_close.1) (solid_lit solid_close.1) e).2
      simp only [List.cons.injEq, true_and] at this
      exact ⟨rfl, this⟩
    | more t' w' w'' t'' v' l' h' hw' hw'' hl' =>
      simp only [List.append_assoc, List.cons_append] at e
      obtain ⟨rfl, e⟩ := jsonText_unique h h' (ends_ws hw jsonWordChars_not.2.2.2.1) (ends_ws hw' jsonWordChars_not.2.2.2.2.2) e
      have := (ws_unique hw hw' (solid_lit solid_close.1) (solid_lit solid_close.2.2.1) e).2
      simp at this
  | more t w w2 t2 v l h hw hw2 hl =>
    cases h' with
    | one t' w' v' h' hw' =>
      simp only [List.append_assoc, List.cons_append] at e
      obtain ⟨rfl, e⟩ := jsonText_unique h h' (ends_ws hw jsonWordChars_not.2.2.2.2.2) (ends_ws hw' jsonWordChars_not.2.2.2.1) e
      have := (ws_unique hw hw' (solid_lit solid_close.2.2.1) (solid_lit solid_close.1) e).2
      simp at this
    | more t' w' w'' t'' v' l' h' hw' hw'' hl' =>
      simp only [List.append_assoc, List.cons_append] at e
      obtain ⟨rfl, e⟩ := jsonText_unique h h' (ends_ws hw jsonWordChars_not.2.2.2.2.2) (ends_ws hw' jsonWordChars_not.2.2.2.2.2) e
      have e := (ws_unique hw hw' (solid_lit solid_close.2.2.1) (solid_lit solid_close.2.2.1) e).2
      simp only [List.cons.injEq, true_and] at e
      have e2 : t2 ++ ']' :: r = t'' ++ ']' :: r' := by
        obtain ⟨c, x, rfl, hc⟩ := hl.opens
        obtain ⟨c', x', rfl, hc'⟩ := hl'.opens
        exact (ws_unique hw2 hw'' hc.solid hc'.solid e).2
      obtain ⟨rfl, rfl⟩ := jsonItems_unique hl hl' e2
      exact ⟨rfl, rfl⟩
theorem jsonMembers_unique {t : Str} {l : List (Str × Json)} (h : JsonMembers t l) {t' : Str} {l' : List (Str × Json)} {r r' : Str} (h' : JsonMembers t' l')
    (e : t ++ '}' :: r = t' ++ '}' :: r') : l = l' ∧ r = r' := by
  cases h with
  | one n k w1 w2 t w v hn hw1 hw2 h hw =>
    cases h' with
    | one n' k' w1' w2' t' w' v' hn' hw1' hw2' h' hw' =>
      simp only [List.cons_append, List.append_assoc, List.cons.injEq, true_and] at e
      obtain ⟨rfl, e⟩ := jsonChars_unique hn hn' e
      have e := (ws_unique hw1 hw1' (solid_lit solid_close.2.2.2) (solid_lit solid_close.2.2.2) e).2
      simp only [List.cons.injEq, true_and] at e
      have e : t ++ (w ++ '}' :: r) = t' ++ (w' ++ '}' :: r') := by
        obtain ⟨c, x, rfl, hc⟩ := h.opens
        obtain ⟨c', x', rfl, hc'⟩ := h'.opens
        exact (ws_unique hw2 hw2' hc.solid hc'.solid e).2
      obtain ⟨rfl, e⟩ := jsonText_unique h h' (ends_ws hw jsonWordChars_not.2.2.2.2.1) (ends_ws hw' jsonWordChars_not.2.2.2.2.1) e
      have := (ws_unique hw hw' (solid_lit solid_close.2.1) (solid_lit solid_close.2.1) e).2
      simp only [List.cons.injEq, true_and] at this
      exact ⟨rfl, this⟩
    | more n' k' w1' w2' t' w' w'' t'' v' l' hn' hw1' hw2' h' hw' hw'' hl' =>
      simp only [List.cons_append, List.append_assoc, List.cons.injEq, true_and] at e
      obtain ⟨rfl, e⟩ := jsonChars_unique hn hn' e
      have e := (ws_unique hw1 hw1' (solid_lit solid_close.2.2.2) (solid_lit solid_close.2.2.2) e).2
      simp only [List.cons.injEq, true_and] at e
      have e : t ++ (w ++ '}' :: r) = t' ++ (w' ++ ',' :: (w'' ++ (t'' ++ '}' :: r'))) := by
        obtain ⟨c, x, rfl, hc⟩ := h.opens
        obtain ⟨c', x', rfl, hc'⟩ := h'.opens
        exact (ws_unique hw2 hw2' hc.solid hc'.solid e).2
      obtain ⟨rfl, e⟩ := jsonText_unique h h' (ends_ws hw jsonWordChars_not.2.2.2.2.1) (ends_ws hw' jsonWordChars_not.2.2.2.2.2) e
      have := (ws_unique hw hw' (solid_lit solid_close.2.1) (solid_lit solid_close.2.2.1) e).2
      simp at this
  | more n k w1 w2 t w w3 t3 v l hn hw1 hw2 h hw hw3 hl =>
    cases h' with
    | one n' k' w1' w2' t' w' v' hn' hw1' hw2' h' hw' =>
      simp only [List.cons_append, List.append_assoc, List.cons.injEq, true_and] at e
      obtain ⟨rfl, e⟩ := jsonChars_unique hn hn' e
      have e := (ws_unique hw1 hw1' (solid_lit solid_close.2.2.2) (solid_lit solid_close.2.2.2) e).2
      simp only [List.cons.injEq, true_and] at e
      have e : t ++ (w ++ ',' :: (w3 ++ (t3 ++ '}' :: r))) = t' ++ (w' ++ '}' :: r') := by
        obtain ⟨c, x, rfl, hc⟩ := h.opens
        obtain ⟨c', x', rfl, hc'⟩ := h'.opens
        exact (ws_unique hw2 hw2' hc.solid hc'.solid e).2
      obtain ⟨rfl, e⟩ := jsonText_unique h h' (ends_ws hw jsonWordChars_not.2.2.2.2.2) (ends_ws hw' jsonWordChars_not.2.2.2.2.1) e
      have := (ws_unique hw hw' (solid_lit solid_close.2.2.1) (solid_lit solid_close.2.1) e).2
      simp at this
    | more n' k' w1' w2' t' w' w'' t'' v' l' hn' hw1' hw2' h' hw' hw'' hl' =>
      simp only [List.cons_append, List.append_assoc, List.cons.injEq, true_and] at e
      obtain ⟨rfl, e⟩ := jsonChars_unique hn hn' e
      have e := (ws_unique hw1 hw1' (solid_lit solid_close.2.2.2) (solid_lit solid_close.2.2.2) e).2
      simp only [List.cons.injEq, true_and] at e
      have e : t ++ (w ++ ',' :: (w3 ++ (t3 ++ '}' :: r))) = t' ++ (w' ++ ',' :: (w'' ++ (t'' ++ '}' :: r'))) := by
        obtain ⟨c, x, rfl, hc⟩ := h.opens
        obtain ⟨c', x', rfl, hc'⟩ := h'.opens
        exact (ws_unique hw2 hw2' hc.solid hc'.solid e).2
      obtain ⟨rfl, e⟩ := jsonText_unique h h' (ends_ws hw jsonWordChars_not.2.2.2.2.2) (ends_ws hw' jsonWordChars_not.2.2.2.2.2) e
      have e := (ws_unique hw hw' (solid_lit solid_close.2.2.1) (solid_lit solid_close.2.2.1) e).2
      simp only [List.cons.injEq, true_and] at e
      have e2 : t3 ++ '}' :: r = t'' ++ '}' :: r' := by
        obtain ⟨c, x, rfl, hc⟩ := hl.opens
        obtain ⟨c', x', rfl, hc'⟩ := hl'.opens
        exact (ws_unique hw3 hw'' hc.solid hc'.solid e).2
      obtain ⟨rfl, rfl⟩ := jsonMembers_unique hl hl' e2
      exact ⟨rfl, rfl⟩
end

/-! ## Texts that are written -/

theorem digitsRev_last {n : Nat} : ∀ fuel, n < fuel → n ≠ 0 → ∃ l d, digitsRev 10 fuel n = l ++ [d] ∧ d ≠ 0 := by
  intro fuel
  induction fuel generalizing n with
  | zero => intro h; omega
  | succ fuel ih =>
    intro h h0
    unfold digitsRev
    split
    · exact ⟨[], n, rfl, h0⟩
    · obtain ⟨l, d, e, hd⟩ := ih (n := n / 10) (by omega) (by omega)
      exact ⟨n % 10 :: l, d, by rw [e]; rfl, hd⟩

theorem showNat_digits10 (n : Nat) : JsonDigits (showNat 10 n) := by
  refine ⟨showNat_ne_nil 10 n, fun c hc => ?_⟩
  obtain ⟨d, hd, rfl⟩ := showNat_mem (by omega) (by omega) hc
  exact (by decide +kernel : ∀ d < 10, digitChar d ∈ "0123456789".toList) d hd

theorem showNat_zero_head (n : Nat) : showNat 10 n = ['0'] ∨ ∀ ds, showNat 10 n ≠ '0' :: ds := by
  by_cases h0 : n = 0
  · subst h0; left; decide +kernel
  · right
    intro ds e
    obtain ⟨l, d, hl, hd⟩ := digitsRev_last (n := n) (n + 1) (by omega) h0
    have hd10 : d < 10 := digitsRev_lt (b := 10) (by omega) (n + 1) n d (by rw [hl]; simp)
    rw [showNat_eq, hl, List.reverse_append] at e
    simp only [List.reverse_cons, List.reverse_nil, List.nil_append, List.cons_append, List.map_cons, List.cons.injEq] at e
    exact (by decide +kernel : ∀ d < 10, d ≠ 0 → digitChar d ≠ '0') d hd10 hd e.1

theorem showInt_number (n : Int) : JsonNumber (showInt n) := by
  unfold showInt
  split
  · exact ⟨['-'], showNat 10 n.natAbs, [], [], by simp, Or.inr rfl, ⟨showNat_digits10 _, showNat_zero_head _⟩, Or.inl rfl, Or.inl rfl⟩
  · exact ⟨[], showNat 10 n.natAbs, [], [], by simp, Or.inl rfl, ⟨showNat_digits10 _, showNat_zero_head _⟩, Or.inl rfl, Or.inl rfl⟩

theorem hexDigit_digitChar {d : Nat} (h : d < 16) : HexDigit (digitChar d) d :=
  Or.inl ((by decide +kernel : ∀ d < 16, "0123456789abcdef".toList[d]? = some (digitChar d)) d h)

theorem hex4_spec {n : Nat} (h : n < 65536) : Spec.Hex4 (hex4 n) n :=
  ⟨_, _, _, _, n / 4096 % 16, n / 256 % 16, n / 16 % 16, n % 16, rfl, hexDigit_digitChar (Nat.mod_lt _ (by omega)), hexDigit_digitChar (Nat.mod_lt _ (by omega)),
    hexDigit_digitChar (Nat.mod_lt _ (by omega)), hexDigit_digitChar (Nat.mod_lt _ (by omega)), by omega⟩

theorem char_lt (c : Char) : c.toNat < 0x110000 := by
  rcases c.valid with h | h
  · have : c.toNat < 0xD800 := h
    omega
  · exact h.2

theorem escape_chars (lib : JsonWriter) (c : Char) {t s : Str} (h : JsonChars t s) : JsonChars (lib.escape c ++ t) (c :: s) := by
  have h7 := char_lt c
  unfold JsonWriter.escape
  by_cases g1 : c = '"'
  · rw [if_pos g1, g1]; exact .escape _ _ _ _ (by decide +kernel) h
  rw [if_neg g1]
  by_cases g2 : c = '\\'
  · rw [if_pos g2, g2]; exact .escape _ _ _ _ (by decide +kernel) h
  rw [if_neg g2]
  by_cases g3 : c = '\n'
  · rw [if_pos g3, g3]; exact .escape _ _ _ _ (by decide +kernel) h
  rw [if_neg g3]
  by_cases g4 : c = '\r'
  · rw [if_pos g4, g4]; exact .escape _ _ _ _ (by decide +kernel) h
  rw [if_neg g4]
  by_cases g5 : c = '\t'
  · rw [if_pos g5, g5]; exact .escape _ _ _ _ (by decide +kernel) h
  rw [if_neg g5]
  by_cases g6 : c = '\x0c'
  · rw [if_pos g6, g6]; exact .escape _ _ _ _ (by decide +kernel) h
  rw [if_neg g6]
  by_cases g7 : c = '\x08'
  · rw [if_pos g7, g7]; exact .escape _ _ _ _ (by decide +kernel) h
  rw [if_neg g7]
  by_cases g8 : c.toNat < 32
  · rw [if_pos g8]; exact .unicode _ _ _ _ (hex4_spec (by omega)) h
  rw [if_neg g8]
  by_cases g9 : (!lib.ascii) = true
  · rw [if_pos g9]; exact .plain _ _ _ g1 g2 (by omega) h
  rw [if_neg g9]
  by_cases g10 : c.toNat < 127
  · rw [if_pos g10]; exact .plain _ _ _ g1 g2 (by omega) h
  rw [if_neg g10]
  by_cases g11 : c.toNat = 127
  · rw [if_pos g11]
    by_cases g12 : lib.escDel = true
    · rw [if_pos g12]; exact .unicode _ _ _ _ (hex4_spec (by omega)) h
    · rw [if_neg g12]; exact .plain _ _ _ g1 g2 (by omega) h
  rw [if_neg g11]
  by_cases g13 : c.toNat < 0x10000
  · rw [if_pos g13]; exact .unicode _ _ _ _ (hex4_spec (by omega)) h
  rw [if_neg g13]
  have := JsonChars.pair _ _ _ _ c t s (hex4_spec (n := 0xD800 + (c.toNat - 0x10000) / 0x400) (by omega))
    (hex4_spec (n := 0xDC00 + (c.toNat - 0x10000) % 0x400) (by omega)) (by omega) (by omega) (by omega) (by omega) (by omega) h
  exact this

theorem string_chars (lib : JsonWriter) (s : Str) : JsonChars (s.flatMap lib.escape) s := by
  induction s with
  | nil => exact .nil
  | cons c s ih => rw [List.flatMap_cons]; exact escape_chars lib c ih

theorem string_text (lib : JsonWriter) (s : Str) : JsonText (lib.string s) (.str s) := .str _ _ (string_chars lib s)

theorem commas_items (lib : JsonWriter) (hc : ∀ n, JsonWs (lib.commaWs n)) (level : Nat) {ts : List Str} {vs : List Json}
    (h : List.Forall₂ JsonText ts vs) (hne : ts ≠ []) (w : Str) (hw : JsonWs w) : JsonItems (lib.commas level ts ++ w) vs := by
  induction h with
  | nil => exact absurd rfl hne
  | @cons t v ts vs h1 h2 ih =>
    cases ts with
    | nil => cases h2; exact .one _ _ _ h1 hw
    | cons t' ts =>
      have := JsonItems.more t [] (lib.commaWs level) _ v vs h1 (by intro c hc; simp at hc) (hc level) (ih (by simp))
      simpa only [JsonWriter.commas, List.append_assoc, List.cons_append, List.append_nil, List.nil_append] using this

theorem arr_text (lib : JsonWriter) (hg : GoodWriter lib) (level : Nat) {ts : List Str} {vs : List Json} (h : List.Forall₂ JsonText ts vs) :
    JsonText (lib.brackets '[' ']' level ts) (.arr vs) := by
  unfold JsonWriter.brackets
  split
  · rename_i he
    cases h with
    | nil => exact .empty [] (by intro c hc; simp at hc)
    | cons => simp at he
  · rename_i he
    have := JsonText.arr _ _ _ (hg.open_ (level + 1)) (commas_items lib hg.comma (level + 1) h (by rintro rfl; simp at he) _ (hg.close level))
    simpa only [List.append_assoc, List.cons_append] using this

/-- The text of a member, and the member -/
def MemberText (lib : JsonWriter) (t : Str) (kv : Str × Json) : Prop := ∃ u, t = lib.member kv.1 u ∧ JsonText u kv.2

theorem commas_members (lib : JsonWriter) (hg : GoodWriter lib) (level : Nat) {ts : List Str} {vs : List (Str × Json)}
    (h : List.Forall₂ (MemberText lib) ts vs) (hne : ts ≠ []) (w : Str) (hw : JsonWs w) : JsonMembers (lib.commas level ts ++ w) vs := by
  induction h with
  | nil => exact absurd rfl hne
  | @cons t v ts vs h1 h2 ih =>
    obtain ⟨u, rfl, hu⟩ := h1
    obtain ⟨k, v⟩ := v
    cases ts with
    | nil =>
      cases h2
      have := JsonMembers.one _ k _ _ u w v (string_chars lib k) hg.colon.1 hg.colon.2 hu hw
      simpa only [JsonWriter.commas, JsonWriter.member, JsonWriter.string, List.append_assoc, List.cons_append, List.nil_append] using this
    | cons t' ts =>
      have := JsonMembers.more _ k _ _ u [] (lib.commaWs level) _ v vs (string_chars lib k) hg.colon.1 hg.colon.2 hu (by intro c hc; simp at hc) (hg.comma level)
        (ih (by simp))
      simpa only [JsonWriter.commas, JsonWriter.member, JsonWriter.string, List.append_assoc, List.cons_append, List.append_nil, List.nil_append] using this

theorem obj_text (lib : JsonWriter) (hg : GoodWriter lib) (level : Nat) {ts : List Str} {vs : List (Str × Json)} (h : List.Forall₂ (MemberText lib) ts vs) :
    JsonText (lib.brackets '{' '}' level ts) (.obj vs) := by
  unfold JsonWriter.brackets
  split
  · rename_i he
    cases h with
    | nil => exact .emptyObj [] (by intro c hc; simp at hc)
    | cons => simp at he
  · rename_i he
    have := JsonText.obj _ _ _ (hg.open_ (level + 1)) (commas_members lib hg (level + 1) h (by rintro rfl; simp at he) _ (hg.close level))
    simpa only [List.append_assoc, List.cons_append] using this

theorem nums_text {α : Type} (lib : JsonWriter) (hg : GoodWriter lib) (level : Nat) (f : α → Str) (hf : ∀ x, JsonNum (f x)) (l : List α) :
    JsonText (lib.brackets '[' ']' level (l.map f)) (.arr (l.map fun x => .num (f x))) := by
  apply arr_text lib hg
  induction l with
  | nil => exact .nil
  | cons x l ih => exact .cons (.word _ _ (.num _ (hf x))) ih

mutual
theorem dumps_text (lib : JsonWriter) (hg : GoodWriter lib) (name : Ser → Str) (hn : ∀ k n, lib.key k = .ok n → name k = n) :
    ∀ (s : Ser) (level : Nat) (t : Str), lib.dumps level s = .ok t → JsonText t (jsonOf lib.showF name s)
  | .none, level, t, h => by simp only [JsonWriter.dumps, Except.ok.injEq] at h; subst h; exact .word _ _ .null
  | .bool true, level, t, h => by simp only [JsonWriter.dumps, Except.ok.injEq] at h; subst h; exact .word _ _ .true
  | .bool false, level, t, h => by simp only [JsonWriter.dumps, Except.ok.injEq] at h; subst h; exact .word _ _ .false
  | .int n, level, t, h => by
    simp only [JsonWriter.dumps, Except.ok.injEq] at h; subst h; exact .word _ _ (.num _ (Or.inl (showInt_number n)))
  | .float b, level, t, h => by simp only [JsonWriter.dumps, Except.ok.injEq] at h; subst h; exact .word _ _ (.num _ (hg.floats b))
  | .tuple l, level, t, h => by
    simp only [JsonWriter.dumps, Except.ok.injEq] at h; subst h
    rw [jsonOf]
    exact nums_text lib hg level (fun n : Nat => showInt n) (fun n => Or.inl (showInt_number n)) l
  | .floats l, level, t, h => by
    simp only [JsonWriter.dumps, Except.ok.injEq] at h; subst h
    exact nums_text lib hg level lib.showF hg.floats l
  | .matrix rows, level, t, h => by
    simp only [JsonWriter.dumps, Except.ok.injEq] at h; subst h
    apply arr_text lib hg
    induction rows with
    | nil => exact .nil
    | cons r rows ih => exact .cons (nums_text lib hg (level + 1) lib.showF hg.floats r) ih
  | .str s, level, t, h => by simp only [JsonWriter.dumps, Except.ok.injEq] at h; subst h; exact string_text lib s
  | .list l, level, t, h => by
    simp only [JsonWriter.dumps, bind, Except.bind] at h
    split at h
    · simp at h
    · rename_i ts hts
      simp only [Except.ok.injEq] at h; subst h
      exact arr_text lib hg level (dumpsList_text lib hg name hn l _ ts hts)
  | .obj d, level, t, h => by
    simp only [JsonWriter.dumps, bind, Except.bind] at h
    split at h
    · simp at h
    · rename_i ts hts
      simp only [Except.ok.injEq] at h; subst h
      exact obj_text lib hg level (dumpsObj_text lib hg name hn d _ ts hts)
  | .dict d, level, t, h => by
    simp only [JsonWriter.dumps, bind, Except.bind] at h
    split at h
    · simp at h
    · rename_i ts hts
      simp only [Except.ok.injEq] at h; subst h
      exact obj_text lib hg level (dumpsDict_text lib hg name hn d _ ts hts)
theorem dumpsList_text (lib : JsonWriter) (hg : GoodWriter lib) (name : Ser → Str) (hn : ∀ k n, lib.key k = .ok n → name k = n) :
    ∀ (l : List Ser) (level : Nat) (ts : List Str), lib.dumpsList level l = .ok ts → List.Forall₂ JsonText ts (jsonList lib.showF name l)
  | [], level, ts, h => by simp only [JsonWriter.dumpsList, Except.ok.injEq] at h; subst h; exact .nil
  | s :: l, level, ts, h => by
    simp only [JsonWriter.dumpsList, bind, Except.bind] at h
    split at h
    · simp at h
    rename_i t ht
    split at h
    · simp at h
    rename_i ts' hts
    simp only [Except.ok.injEq] at h; subst h
    exact .cons (dumps_text lib hg name hn s level t ht) (dumpsList_text lib hg name hn l level ts' hts)
theorem dumpsObj_text (lib : JsonWriter) (hg : GoodWriter lib) (name : Ser → Str) (hn : ∀ k n, lib.key k = .ok n → name k = n) :
    ∀ (l : List (Str × Ser)) (level : Nat) (ts : List Str), lib.dumpsObj level l = .ok ts → List.Forall₂ (MemberText lib) ts (jsonObj lib.showF name l)
  | [], level, ts, h => by simp only [JsonWriter.dumpsObj, Except.ok.injEq] at h; subst h; exact .nil
  | (k, s) :: l, level, ts, h => by
    simp only [JsonWriter.dumpsObj, bind, Except.bind] at h
    split at h
    · simp at h
    rename_i t ht
    split at h
    · simp at h
    rename_i ts' hts
    simp only [Except.ok.injEq] at h; subst h
    exact .cons ⟨t, rfl, dumps_text lib hg name hn s level t ht⟩ (dumpsObj_text lib hg name hn l level ts' hts)
theorem dumpsDict_text (lib : JsonWriter) (hg : GoodWriter lib) (name : Ser → Str) (hn : ∀ k n, lib.key k = .ok n → name k = n) :
    ∀ (l : List (Ser × Ser)) (level : Nat) (ts : List Str), lib.dumpsDict level l = .ok ts → List.Forall₂ (MemberText lib) ts (jsonDict lib.showF name l)
  | [], level, ts, h => by simp only [JsonWriter.dumpsDict, Except.ok.injEq] at h; subst h; exact .nil
  | (k, s) :: l, level, ts, h => by
    simp only [JsonWriter.dumpsDict, bind, Except.bind] at h
    split at h
    · simp at h
    rename_i n hk
    split at h
    · simp at h
    rename_i t ht
    split at h
    · simp at h
    rename_i ts' hts
    simp only [Except.ok.injEq] at h; subst h
    exact .cons ⟨t, by rw [hn k n hk], dumps_text lib hg name hn s level t ht⟩ (dumpsDict_text lib hg name hn l level ts' hts)
end

/-! ## Characters -/

/-- What a property of characters must accept to hold for whole texts -/
structure TextChars (lib : JsonWriter) (P : Char → Prop) : Prop where
  word : ∀ c ∈ jsonWordChars, P c
  marks : P '[' ∧ P ']' ∧ P '{' ∧ P '}' ∧ P ',' ∧ P ':' ∧ P '"'
  colon : (∀ c ∈ lib.colonWs.1, P c) ∧ ∀ c ∈ lib.colonWs.2, P c
  open_ : ∀ n, ∀ c ∈ lib.openWs n, P c
  comma : ∀ n, ∀ c ∈ lib.commaWs n, P c
  close : ∀ n, ∀ c ∈ lib.closeWs n, P c
  escape : ∀ c, ∀ x ∈ lib.escape c, P x

section
variable {lib : JsonWriter} {P : Char → Prop}

theorem string_all (hP : TextChars lib P) (s : Str) : ∀ c ∈ lib.string s, P c := by
  intro c hc
  unfold JsonWriter.string at hc
  simp only [List.cons_append, List.mem_cons, List.mem_append, List.mem_flatMap, List.not_mem_nil, or_false] at hc
  rcases hc with rfl | ⟨x, -, hx⟩ | rfl
  · exact hP.marks.2.2.2.2.2.2
  · exact hP.escape x c hx
  · exact hP.marks.2.2.2.2.2.2

theorem commas_all (hP : TextChars lib P) (level : Nat) (ts : List Str) (h : ∀ t ∈ ts, ∀ c ∈ t, P c) : ∀ c ∈ lib.commas level ts, P c := by
  induction ts with
  | nil => intro c hc; simp [JsonWriter.commas] at hc
  | cons t ts ih =>
    have ih := ih (fun t ht => h t (List.mem_cons_of_mem _ ht))
    cases ts with
    | nil => exact h t (by simp)
    | cons t' ts =>
      intro c hc
      rw [JsonWriter.commas] at hc
      · simp only [List.mem_append, List.mem_cons, List.append_assoc, List.cons_append] at hc
        rcases hc with hc | rfl | hc | hc
        · exact h t (by simp) c hc
        · exact hP.marks.2.2.2.2.1
        · exact hP.comma level c hc
        · exact ih c hc
      · simp

theorem brackets_all (hP : TextChars lib P) {o c : Char} (ho : P o) (hc : P c) (level : Nat) (ts : List Str) (h : ∀ t ∈ ts, ∀ c ∈ t, P c) :
    ∀ x ∈ lib.brackets o c level ts, P x := by
  intro x hx
  unfold JsonWriter.brackets at hx
  split at hx
  · simp only [List.mem_cons, List.not_mem_nil, or_false] at hx
    rcases hx with rfl | rfl
    · exact ho
    · exact hc
  · simp only [List.cons_append, List.append_assoc, List.mem_cons, List.mem_append, List.not_mem_nil, or_false] at hx
    rcases hx with rfl | hx | hx | hx | rfl
    · exact ho
    · exact hP.open_ _ x hx
    · exact commas_all hP _ ts h x hx
    · exact hP.close _ x hx
    · exact hc

theorem member_all (hP : TextChars lib P) (k t : Str) (h : ∀ c ∈ t, P c) : ∀ c ∈ lib.member k t, P c := by
  intro c hc
  unfold JsonWriter.member at hc
  simp only [List.cons_append, List.append_assoc, List.mem_cons, List.mem_append] at hc
  rcases hc with hc | hc | rfl | hc | hc
  · exact string_all hP k c hc
  · exact hP.colon.1 c hc
  · exact hP.marks.2.2.2.2.2.1
  · exact hP.colon.2 c hc
  · exact h c hc

theorem nums_all {α : Type} (hP : TextChars lib P) (level : Nat) (f : α → Str) (hf : ∀ x, JsonNum (f x)) (l : List α) :
    ∀ c ∈ lib.brackets '[' ']' level (l.map f), P c := by
  apply brackets_all hP hP.marks.1 hP.marks.2.1
  intro t ht c hc
  obtain ⟨x, -, rfl⟩ := List.mem_map.1 ht
  exact hP.word c ((hf x).wordChars.2.1 c hc)

mutual
theorem dumps_all (hg : GoodWriter lib) (hP : TextChars lib P) : ∀ (s : Ser) (level : Nat) (t : Str), lib.dumps level s = .ok t → ∀ c ∈ t, P c
  | .none, level, t, h => by
    simp only [JsonWriter.dumps, Except.ok.injEq] at h; subst h
    exact fun c hc => hP.word c ((by decide +kernel : ∀ c ∈ "null".toList, c ∈ jsonWordChars) c hc)
  | .bool true, level, t, h => by
    simp only [JsonWriter.dumps, Except.ok.injEq] at h; subst h
    exact fun c hc => hP.word c ((by decide +kernel : ∀ c ∈ "true".toList, c ∈ jsonWordChars) c hc)
  | .bool false, level, t, h => by
    simp only [JsonWriter.dumps, Except.ok.injEq] at h; subst h
    exact fun c hc => hP.word c ((by decide +kernel : ∀ c ∈ "false".toList, c ∈ jsonWordChars) c hc)
  | .int n, level, t, h => by
    simp only [JsonWriter.dumps, Except.ok.injEq] at h; subst h
    exact fun c hc => hP.word c ((showInt_number n).wordChars.2.1 c hc)
  | .float b, level, t, h => by
    simp only [JsonWriter.dumps, Except.ok.injEq] at h; subst h
    exact fun c hc => hP.word c ((hg.floats b).wordChars.2.1 c hc)
  | .tuple l, level, t, h => by
    simp only [JsonWriter.dumps, Except.ok.injEq] at h; subst h
    exact nums_all hP level (fun n : Nat => showInt n) (fun n => Or.inl (showInt_number n)) l
  | .floats l, level, t, h => by
    simp only [JsonWriter.dumps, Except.ok.injEq] at h; subst h
    exact nums_all hP level lib.showF hg.floats l
  | .matrix rows, level, t, h => by
    simp only [JsonWriter.dumps, Except.ok.injEq] at h; subst h
    apply brackets_all hP hP.marks.1 hP.marks.2.1
    intro t ht
    obtain ⟨r, -, rfl⟩ := List.mem_map.1 ht
    exact nums_all hP (level + 1) lib.showF hg.floats r
  | .str s, level, t, h => by simp only [JsonWriter.dumps, Except.ok.injEq] at h; subst h; exact string_all hP s
  | .list l, level, t, h => by
    simp only [JsonWriter.dumps, bind, Except.bind] at h
    split at h
    · simp at h
    · rename_i ts hts
      simp only [Except.ok.injEq] at h; subst h
      exact brackets_all hP hP.marks.1 hP.marks.2.1 level ts (dumpsList_all hg hP l _ ts hts)
  | .obj d, level, t, h => by
    simp only [JsonWriter.dumps, bind, Except.bind] at h
    split at h
    · simp at h
    · rename_i ts hts
      simp only [Except.ok.injEq] at h; subst h
      exact brackets_all hP hP.marks.2.2.1 hP.marks.2.2.2.1 level ts (dumpsObj_all hg hP d _ ts hts)
  | .dict d, level, t, h => by
    simp only [JsonWriter.dumps, bind, Except.bind] at h
    split at h
    · simp at h
    · rename_i ts hts
      simp only [Except.ok.injEq] at h; subst h
      exact brackets_all hP hP.marks.2.2.1 hP.marks.2.2.2.1 level ts (dumpsDict_all hg hP d _ ts hts)
theorem dumpsList_all (hg : GoodWriter lib) (hP : TextChars lib P) : ∀ (l : List Ser) (level : Nat) (ts : List Str), lib.dumpsList level l = .ok ts →
    ∀ t ∈ ts, ∀ c ∈ t, P c
  | [], level, ts, h => by simp only [JsonWriter.dumpsList, Except.ok.injEq] at h; subst h; simp
  | s :: l, level, ts, h => by
    simp only [JsonWriter.dumpsList, bind, Except.bind] at h
    split at h
    · simp at h
    rename_i t ht
    split at h
    · simp at h
    rename_i ts' hts
    simp only [Except.ok.injEq] at h; subst h
    intro u hu
    rcases List.mem_cons.1 hu with rfl | hu
    · exact dumps_all hg hP s level _ ht
    · exact dumpsList_all hg hP l level ts' hts u hu
theorem dumpsObj_all (hg : GoodWriter lib) (hP : TextChars lib P) : ∀ (l : List (Str × Ser)) (level : Nat) (ts : List Str), lib.dumpsObj level l = .ok ts →
    ∀ t ∈ ts, ∀ c ∈ t, P c
  | [], level, ts, h => by simp only [JsonWriter.dumpsObj, Except.ok.injEq] at h; subst h; simp
  | (k, s) :: l, level, ts, h => by
    simp only [JsonWriter.dumpsObj, bind, Except.bind] at h
    split at h
    · simp at h
    rename_i t ht
    split at h
    · simp at h
    rename_i ts' hts
    simp only [Except.ok.injEq] at h; subst h
    intro u hu
    rcases List.mem_cons.1 hu with rfl | hu
    · exact member_all hP k t (dumps_all hg hP s level _ ht)
    · exact dumpsObj_all hg hP l level ts' hts u hu
theorem dumpsDict_all (hg : GoodWriter lib) (hP : TextChars lib P) : ∀ (l : List (Ser × Ser)) (level : Nat) (ts : List Str), lib.dumpsDict level l = .ok ts →
    ∀ t ∈ ts, ∀ c ∈ t, P c
  | [], level, ts, h => by simp only [JsonWriter.dumpsDict, Except.ok.injEq] at h; subst h; simp
  | (k, s) :: l, level, ts, h => by
    simp only [JsonWriter.dumpsDict, bind, Except.bind] at h
    split at h
    · simp at h
    rename_i n hk
    split at h
    · simp at h
    rename_i t ht
    split at h
    · simp at h
    rename_i ts' hts
    simp only [Except.ok.injEq] at h; subst h
    intro u hu
    rcases List.mem_cons.1 hu with rfl | hu
    · exact member_all hP n t (dumps_all hg hP s level _ ht)
    · exact dumpsDict_all hg hP l level ts' hts u hu
end

end

/-- Printable ASCII -/
def Printable (c : Char) : Prop := 32 ≤ c.toNat ∧ c.toNat < 128

theorem hex4_printable (n : Nat) : ∀ c ∈ hex4 n, Printable c := by
  have hd : ∀ d < 16, Printable (digitChar d) := by unfold Printable; decide +kernel
  intro c hc
  simp only [hex4, List.mem_cons, List.not_mem_nil, or_false] at hc
  rcases hc with rfl | rfl | rfl | rfl <;> exact hd _ (Nat.mod_lt _ (by omega))

theorem unicode_printable (n : Nat) : ∀ c ∈ '\\' :: 'u' :: hex4 n, Printable c := by
  intro c hc
  simp only [List.mem_cons] at hc
  rcases hc with rfl | rfl | hc
  · unfold Printable; decide +kernel
  · unfold Printable; decide +kernel
  · exact hex4_printable n c hc

theorem escape_printable (lib : JsonWriter) (ha : lib.ascii = true) (c : Char) : ∀ x ∈ lib.escape c, Printable x := by
  unfold JsonWriter.escape
  by_cases g1 : c = '"'
  · rw [if_pos g1]; unfold Printable; decide +kernel
  rw [if_neg g1]
  by_cases g2 : c = '\\'
  · rw [if_pos g2]; unfold Printable; decide +kernel
  rw [if_neg g2]
  by_cases g3 : c = '\n'
  · rw [if_pos g3]; unfold Printable; decide +kernel
  rw [if_neg g3]
  by_cases g4 : c = '\r'
  · rw [if_pos g4]; unfold Printable; decide +kernel
  rw [if_neg g4]
  by_cases g5 : c = '\t'
  · rw [if_pos g5]; unfold Printable; decide +kernel
  rw [if_neg g5]
  by_cases g6 : c = '\x0c'
  · rw [if_pos g6]; unfold Printable; decide +kernel
  rw [if_neg g6]
  by_cases g7 : c = '\x08'
  · rw [if_pos g7]; unfold Printable; decide +kernel
  rw [if_neg g7]
  by_cases g8 : c.toNat < 32
  · rw [if_pos g8]; exact unicode_printable _
  rw [if_neg g8, if_neg (by rw [ha]; decide)]
  by_cases g10 : c.toNat < 127
  · rw [if_pos g10]; intro x hx; rw [List.mem_singleton.1 hx]; exact ⟨by omega, by omega⟩
  rw [if_neg g10]
  by_cases g11 : c.toNat = 127
  · rw [if_pos g11]
    by_cases g12 : lib.escDel = true
    · rw [if_pos g12]; exact unicode_printable _
    · rw [if_neg g12]; intro x hx; rw [List.mem_singleton.1 hx]; exact ⟨by omega, by omega⟩
  rw [if_neg g11]
  by_cases g13 : c.toNat < 0x10000
  · rw [if_pos g13]; exact unicode_printable _
  rw [if_neg g13]
  intro x hx
  rcases List.mem_append.1 hx with hx | hx
  · exact unicode_printable _ x hx
  · exact unicode_printable _ x hx

theorem all_ite {Q : Char → Prop} {p : Prop} [Decidable p] {a b : Str} (ha : ∀ x ∈ a, Q x) (hb : ∀ x ∈ b, Q x) : ∀ x ∈ (if p then a else b), Q x := by
  split
  · exact ha
  · exact hb

/-- No line break, whatever the options -/
theorem escape_no_break (lib : JsonWriter) (c : Char) : ∀ x ∈ lib.escape c, x ≠ '\n' := by
  have hp : ∀ x, Printable x → x ≠ '\n' := by rintro x ⟨h, -⟩ rfl; exact absurd h (by decide)
  unfold JsonWriter.escape
  by_cases g1 : c = '"'
  · rw [if_pos g1]; decide +kernel
  rw [if_neg g1]
  by_cases g2 : c = '\\'
  · rw [if_pos g2]; decide +kernel
  rw [if_neg g2]
  by_cases g3 : c = '\n'
  · rw [if_pos g3]; decide +kernel
  rw [if_neg g3]
  have hc : ∀ x ∈ [c], x ≠ '\n' := fun x hx => by rw [List.mem_singleton.1 hx]; exact g3
  have hu : ∀ n, ∀ x ∈ '\\' :: 'u' :: hex4 n, x ≠ '\n' := fun n x hx => hp x (unicode_printable n x hx)
  refine all_ite (by decide +kernel) (all_ite (by decide +kernel) (all_ite (by decide +kernel) (all_ite (by decide +kernel) (all_ite (hu _) (all_ite hc
    (all_ite hc (all_ite (all_ite (hu _) hc) (all_ite (hu _) ?_))))))))
  intro x hx
  rcases List.mem_append.1 hx with hx | hx
  · exact hu _ x hx
  · exact hu _ x hx

end Cdtb
