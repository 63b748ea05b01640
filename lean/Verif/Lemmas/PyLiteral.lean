import Verif.Spec.PyLiteral
import Verif.Model.BinDump
import Verif.Lemmas.Hex
namespace Cdtb
set_option autoImplicit false
open Py Spec

theorem hexN_hexW {w n : Nat} (h : n < 16 ^ (w + 1)) : HexN (w + 1) (hexW (w + 1) n) n where
  length := hexW_length h
  digits c hc := by obtain ⟨d, hd, rfl⟩ := hexW_mem hc; exact (idxOf_digitChar d hd).2
  value := hexValue_hexW _ n

theorem hexN_unique {w n : Nat} {s t : Str} (h : HexN w s n) (h' : HexN w t n) : s = t :=
  (hexValue_inj s t 0 0 (by rw [h.length, h'.length]) h.digits h'.digits (by
    have := h.value.trans h'.value.symm
    exact this)).2

theorem hexW_eq {w n : Nat} {s : Str} (h : n < 16 ^ (w + 1)) (hs : HexN (w + 1) s n) : s = hexW (w + 1) n := hexN_unique hs (hexN_hexW h)

theorem char_bound (c : Char) : c.toNat < 16 ^ 8 := by
  have := c.valid
  unfold UInt32.isValidChar Nat.isValidChar at this
  simp only [Char.toNat]
  omega

theorem toNat_ne {c d : Char} (h : c ≠ d) : c.toNat ≠ d.toNat := fun e => h (Char.toNat_inj.1 e)

theorem pyEscape_iff (printable : Char → Bool) (q c : Char) (t : Str) (hq : q = '\'' ∨ q = '"') :
    LiteralChar printable q c t ↔ t = pyEscape printable q c := by
  have ht : '\t'.toNat = 9 := rfl
  have hn : '\n'.toNat = 10 := rfl
  have hr : '\r'.toNat = 13 := rfl
  have hb : '\\'.toNat = 92 := rfl
  have hq2 : q.toNat = 39 ∨ q.toNat = 34 := by rcases hq with rfl | rfl <;> simp
  have hqb : q ≠ '\\' := by rcases hq with rfl | rfl <;> decide
  have hqt : q ≠ '\t' ∧ q ≠ '\n' ∧ q ≠ '\r' := by rcases hq with rfl | rfl <;> decide
  have hs : ∀ d : Char, (32 ≤ d.toNat ∧ d.toNat ≤ 126) → ShownAsIs printable d := fun d h => .inl h
  constructor
  · intro h
    unfold pyEscape
    cases h with
    | plain c hp h1 h2 =>
      have e1 : c ≠ '\t' ∧ c ≠ '\n' ∧ c ≠ '\r' := by
        refine ⟨?_, ?_, ?_⟩ <;> (rintro rfl; rcases hp with hp | hp <;> simp [ht, hn, hr] at hp)
      rw [if_neg (by simp [h1, h2]), if_neg e1.1, if_neg e1.2.1, if_neg e1.2.2]
      rcases hp with hp | hp
      · rw [if_neg (by omega), if_pos (by omega)]
      · rw [if_neg (by omega), if_pos (.inr hp.2)]
    | quote => simp
    | backslash => simp
    | tab => simp [hqt.1.symm]
    | newline => simp [hqt.2.1.symm]
    | «return» => simp [hqt.2.2.symm]
    | hex2 c x h1 h2 h3 hx =>
      have e0 : c ≠ q := by rintro rfl; exact h1 (hs _ (by omega))
      have e1 : c ≠ '\\' := by rintro rfl; exact h1 (hs _ (by omega))
      simp only [List.mem_cons, List.not_mem_nil, or_false, not_or] at h2
      have hx' := hexW_eq (w := 1) (by omega) hx
      rw [if_neg (by simp [e0, e1]), if_neg h2.1, if_neg h2.2.1, if_neg h2.2.2]
      simp only [ShownAsIs, not_or, not_and] at h1
      by_cases h4 : c.toNat < 32 ∨ c.toNat = 127
      · rw [if_pos h4, hx']
      · rw [if_neg h4, if_neg, if_pos (by omega), hx']
        rintro (h5 | h5)
        · omega
        · exact h1.2 (by omega) h5
    | hex4 c x h1 h2 h3 hx =>
      have e0 := toNat_ne (c := c) (d := q)
      have hx' := hexW_eq (w := 3) (by omega) hx
      simp only [ShownAsIs, not_or, not_and] at h1
      rw [if_neg, if_neg, if_neg, if_neg, if_neg (by omega), if_neg, if_neg (by omega), if_pos (by omega), hx']
      · rintro (h5 | h5)
        · omega
        · exact h1.2 (by omega) h5
      · rintro rfl; omega
      · rintro rfl; omega
      · rintro rfl; omega
      · rintro (rfl | rfl) <;> omega
    | hex8 c x h1 h2 hx =>
      have hx' := hexW_eq (w := 7) (char_bound c) hx
      simp only [ShownAsIs, not_or, not_and] at h1
      rw [if_neg, if_neg, if_neg, if_neg, if_neg (by omega), if_neg, if_neg (by omega), if_neg (by omega), hx']
      · rintro (h5 | h5)
        · omega
        · exact h1.2 (by omega) h5
      · rintro rfl; omega
      · rintro rfl; omega
      · rintro rfl; omega
      · rintro (rfl | rfl) <;> omega
  · rintro rfl
    unfold pyEscape
    split
    · rename_i h
      rcases h with rfl | rfl
      · exact .quote
      · exact .backslash
    · rename_i h0
      simp only [not_or] at h0
      split
      · rename_i h; subst h; exact .tab
      · split
        · rename_i h; subst h; exact .newline
        · split
          · rename_i h; subst h; exact .return
          · rename_i h1 h2 h3
            have hm : c ∉ ['\t', '\n', '\r'] := by simp [h1, h2, h3]
            split
            · rename_i h
              exact .hex2 c _ (by rintro (h' | h') <;> omega) hm (by omega) (hexN_hexW (w := 1) (by omega))
            · rename_i h4
              split
              · rename_i h5
                refine .plain c ?_ h0.1 h0.2
                rcases h5 with h5 | h5
                · exact .inl (by omega)
                · by_cases h6 : c.toNat < 127
                  · exact .inl (by omega)
                  · exact .inr ⟨by omega, h5⟩
              · rename_i h5
                simp only [not_or] at h5
                have hp : ¬ ShownAsIs printable c := by
                  rintro (h' | h')
                  · omega
                  · exact h5.2 h'.2
                split
                · exact .hex2 c _ hp hm (by omega) (hexN_hexW (w := 1) (by omega))
                · split
                  · exact .hex4 c _ hp (by omega) (by omega) (hexN_hexW (w := 3) (by omega))
                  · exact .hex8 c _ hp (by omega) (hexN_hexW (w := 7) (char_bound c))

theorem literalBody_iff (printable : Char → Bool) (q : Char) (hq : q = '\'' ∨ q = '"') (s t : Str) :
    LiteralBody printable q s t ↔ t = s.flatMap (pyEscape printable q) := by
  constructor
  · intro h
    induction h with
    | nil => rfl
    | cons h _ ih => rw [List.flatMap_cons, ← ih, (pyEscape_iff printable q _ _ hq).1 h]
  · rintro rfl
    induction s with
    | nil => exact .nil
    | cons c s ih => exact .cons ((pyEscape_iff printable q c _ hq).2 rfl) ih

theorem literal_iff (printable : Char → Bool) (s t : Str) : Literal printable s t ↔ t = pyRepr printable s := by
  unfold pyRepr pyQuote
  constructor
  · intro h
    cases h with
    | single t h1 h2 =>
      rw [if_neg (by rintro ⟨h3, h4⟩; rcases h1 with h1 | h1 <;> contradiction), (literalBody_iff printable _ (.inl rfl) s t).1 h2]
    | double t h1 h2 h3 => rw [if_pos ⟨h1, h2⟩, (literalBody_iff printable _ (.inr rfl) s t).1 h3]
  · rintro rfl
    by_cases h : '\'' ∈ s ∧ '"' ∉ s
    · rw [if_pos h]; exact .double _ h.1 h.2 ((literalBody_iff printable _ (.inr rfl) s _).2 rfl)
    · rw [if_neg h]; refine .single _ ?_ ((literalBody_iff printable _ (.inl rfl) s _).2 rfl)
      by_cases h1 : '\'' ∈ s
      · exact .inr (by_contra fun h2 => h ⟨h1, h2⟩)
      · exact .inl h1

end Cdtb
