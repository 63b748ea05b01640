import Verif.Model.RstText
import Verif.Spec.RstText
/-!
# Lemmas on texts of string tables
-/
namespace Cdtb
set_option autoImplicit false
open Py Spec

/-! ## Encodings of characters -/

theorem byte_ofNat {n : Nat} (h : n < 256) : (UInt8.ofNat n).toNat = n := by
  simp only [UInt8.toNat_ofNat']
  omega

theorem char_valid (c : Char) : c.toNat < 0xD800 ∨ (0xDFFF < c.toNat ∧ c.toNat < 0x110000) := c.valid

/-- Bytes of the encoding of a character -/
theorem enc_cases (c : Char) :
    (c.toNat < 0x80 ∧ ∃ b0, String.utf8EncodeChar c = [b0] ∧ b0.toNat = c.toNat) ∨
    (0x80 ≤ c.toNat ∧ c.toNat < 0x800 ∧ ∃ b0 b1, String.utf8EncodeChar c = [b0, b1] ∧ b0.toNat = c.toNat / 64 + 0xC0 ∧ b1.toNat = c.toNat % 64 + 0x80) ∨
    (0x800 ≤ c.toNat ∧ c.toNat < 0x10000 ∧ ∃ b0 b1 b2, String.utf8EncodeChar c = [b0, b1, b2] ∧ b0.toNat = c.toNat / 4096 + 0xE0 ∧
      b1.toNat = c.toNat / 64 % 64 + 0x80 ∧ b2.toNat = c.toNat % 64 + 0x80) ∨
    (0x10000 ≤ c.toNat ∧ ∃ b0 b1 b2 b3, String.utf8EncodeChar c = [b0, b1, b2, b3] ∧ b0.toNat = c.toNat / 262144 + 0xF0 ∧
      b1.toNat = c.toNat / 4096 % 64 + 0x80 ∧ b2.toNat = c.toNat / 64 % 64 + 0x80 ∧ b3.toNat = c.toNat % 64 + 0x80) := by
  have hv := char_valid c
  unfold String.utf8EncodeChar
  have hc : c.val.toNat = c.toNat := rfl
  simp only [hc]
  generalize c.toNat = v at hv
  split
  · left
    refine ⟨by omega, _, rfl, ?_⟩
    rw [byte_ofNat (by omega)]
  · right
    split
    · left
      refine ⟨by omega, by omega, _, _, rfl, ?_, ?_⟩
      · rw [byte_ofNat (by omega)]; omega
      · rw [byte_ofNat (by omega)]
    · right
      split
      · left
        refine ⟨by omega, by omega, _, _, _, rfl, ?_, ?_, ?_⟩
        · rw [byte_ofNat (by omega)]; omega
        · rw [byte_ofNat (by omega)]
        · rw [byte_ofNat (by omega)]
      · right
        refine ⟨by omega, _, _, _, _, rfl, ?_, ?_, ?_, ?_⟩
        · rw [byte_ofNat (by omega)]; omega
        · rw [byte_ofNat (by omega)]
        · rw [byte_ofNat (by omega)]
        · rw [byte_ofNat (by omega)]

theorem ofNat_toNat {n : Nat} (h : n < 0xD800 ∨ (0xDFFF < n ∧ n < 0x110000)) : (Char.ofNat n).toNat = n := by
  have h' : n.isValidChar := h
  unfold Char.ofNat
  rw [dif_pos h']
  rfl

theorem isCont_iff {b : UInt8} : isCont b = true ↔ 0x80 ≤ b.toNat ∧ b.toNat < 0xC0 := by simp [isCont]

theorem second3_iff {b0 b1 : UInt8} : second3 b0 b1 = true ↔
    (0x80 ≤ b1.toNat ∧ b1.toNat < 0xC0) ∧ (b0.toNat = 0xE0 → 0xA0 ≤ b1.toNat) ∧ (b0.toNat = 0xED → b1.toNat < 0xA0) := by
  unfold second3
  rw [Bool.and_eq_true, isCont_iff]
  split
  · simp only [decide_eq_true_eq]; omega
  · simp only [decide_eq_true_eq]; omega

theorem second4_iff {b0 b1 : UInt8} : second4 b0 b1 = true ↔
    (0x80 ≤ b1.toNat ∧ b1.toNat < 0xC0) ∧ (b0.toNat = 0xF0 → 0x90 ≤ b1.toNat) ∧ (b0.toNat = 0xF4 → b1.toNat < 0x90) := by
  unfold second4
  rw [Bool.and_eq_true, isCont_iff]
  split
  · simp only [decide_eq_true_eq]; omega
  · simp only [decide_eq_true_eq]; omega

/-- The characters of valid bytes -/
theorem enc1 {b0 : UInt8} (h : b0.toNat < 0x80) : String.utf8EncodeChar (Char.ofNat b0.toNat) = [b0] := by
  have e := ofNat_toNat (n := b0.toNat) (by omega)
  rcases enc_cases (Char.ofNat b0.toNat) with ⟨h1, x, hx, hv⟩ | ⟨h1, -⟩ | ⟨h1, -⟩ | ⟨h1, -⟩
  · rw [hx]; rw [e] at hv; rw [UInt8.toNat_inj.1 hv]
  all_goals omega

theorem enc2 {b0 b1 : UInt8} (h0 : 0xC2 ≤ b0.toNat ∧ b0.toNat < 0xE0) (h1 : isCont b1 = true) :
    String.utf8EncodeChar (Char.ofNat ((b0.toNat - 0xC0) * 64 + (b1.toNat - 0x80))) = [b0, b1] := by
  rw [isCont_iff] at h1
  generalize hn : (b0.toNat - 0xC0) * 64 + (b1.toNat - 0x80) = n
  have e := ofNat_toNat (n := n) (by omega)
  rcases enc_cases (Char.ofNat n) with ⟨h, -⟩ | ⟨-, -, x, y, hx, hv, hw⟩ | ⟨h, -⟩ | ⟨h, -⟩
  · omega
  · rw [hx]; rw [e] at hv hw
    rw [UInt8.toNat_inj.1 (show x.toNat = b0.toNat by omega), UInt8.toNat_inj.1 (show y.toNat = b1.toNat by omega)]
  all_goals omega

theorem enc3 {b0 b1 b2 : UInt8} (h0 : 0xE0 ≤ b0.toNat ∧ b0.toNat < 0xF0) (h1 : second3 b0 b1 = true) (h2 : isCont b2 = true) :
    String.utf8EncodeChar (Char.ofNat ((b0.toNat - 0xE0) * 4096 + (b1.toNat - 0x80) * 64 + (b2.toNat - 0x80))) = [b0, b1, b2] := by
  rw [second3_iff] at h1
  rw [isCont_iff] at h2
  generalize hn : (b0.toNat - 0xE0) * 4096 + (b1.toNat - 0x80) * 64 + (b2.toNat - 0x80) = n
  have e := ofNat_toNat (n := n) (by omega)
  rcases enc_cases (Char.ofNat n) with ⟨h, -⟩ | ⟨h, h', -⟩ | ⟨-, -, x, y, z, hx, hv, hw, hz⟩ | ⟨h, -⟩
  · omega
  · omega
  · rw [hx]; rw [e] at hv hw hz
    rw [UInt8.toNat_inj.1 (show x.toNat = b0.toNat by omega), UInt8.toNat_inj.1 (show y.toNat = b1.toNat by omega),
      UInt8.toNat_inj.1 (show z.toNat = b2.toNat by omega)]
  · omega

theorem enc4 {b0 b1 b2 b3 : UInt8} (h0 : 0xF0 ≤ b0.toNat ∧ b0.toNat < 0xF5) (h1 : second4 b0 b1 = true) (h2 : isCont b2 = true) (h3 : isCont b3 = true) :
    String.utf8EncodeChar (Char.ofNat ((b0.toNat - 0xF0) * 262144 + (b1.toNat - 0x80) * 4096 + (b2.toNat - 0x80) * 64 + (b3.toNat - 0x80))) =
      [b0, b1, b2, b3] := by
  rw [second4_iff] at h1
  rw [isCont_iff] at h2 h3
  generalize hn : (b0.toNat - 0xF0) * 262144 + (b1.toNat - 0x80) * 4096 + (b2.toNat - 0x80) * 64 + (b3.toNat - 0x80) = n
  have e := ofNat_toNat (n := n) (by omega)
  rcases enc_cases (Char.ofNat n) with ⟨h, -⟩ | ⟨h, h', -⟩ | ⟨h, h', -⟩ | ⟨-, x, y, z, w, hx, hv, hw, hz, ht⟩
  · omega
  · omega
  · omega
  · rw [hx]; rw [e] at hv hw hz ht
    rw [UInt8.toNat_inj.1 (show x.toNat = b0.toNat by omega), UInt8.toNat_inj.1 (show y.toNat = b1.toNat by omega),
      UInt8.toNat_inj.1 (show z.toNat = b2.toNat by omega), UInt8.toNat_inj.1 (show w.toNat = b3.toNat by omega)]

/-- Bytes of encodings -/
theorem enc_bytes (c : Char) :
    (∃ b0, String.utf8EncodeChar c = [b0] ∧ b0.toNat < 0x80) ∨
    (∃ b0 b1, String.utf8EncodeChar c = [b0, b1] ∧ (0xC2 ≤ b0.toNat ∧ b0.toNat < 0xE0) ∧ isCont b1 = true) ∨
    (∃ b0 b1 b2, String.utf8EncodeChar c = [b0, b1, b2] ∧ (0xE0 ≤ b0.toNat ∧ b0.toNat < 0xF0) ∧ second3 b0 b1 = true ∧ isCont b2 = true) ∨
    (∃ b0 b1 b2 b3, String.utf8EncodeChar c = [b0, b1, b2, b3] ∧ (0xF0 ≤ b0.toNat ∧ b0.toNat < 0xF5) ∧ second4 b0 b1 = true ∧ isCont b2 = true ∧
      isCont b3 = true) := by
  have hv := char_valid c
  simp only [isCont_iff, second3_iff, second4_iff]
  rcases enc_cases c with ⟨h, x, hx, e⟩ | ⟨h, h', x, y, hx, e, e'⟩ | ⟨h, h', x, y, z, hx, e, e', e''⟩ | ⟨h, x, y, z, w, hx, e, e', e'', e'''⟩
  · exact Or.inl ⟨x, hx, by omega⟩
  · exact Or.inr (Or.inl ⟨x, y, hx, by omega, by omega⟩)
  · exact Or.inr (Or.inr (Or.inl ⟨x, y, z, hx, by omega, by omega, by omega⟩))
  · exact Or.inr (Or.inr (Or.inr ⟨x, y, z, w, hx, by omega, by omega, by omega, by omega⟩))

/-- A character is read from its encoding. -/
theorem head_enc (c : Char) (r : Bytes) : ∃ b0 rest, String.utf8EncodeChar c = b0 :: rest ∧ utf8Head b0 (rest ++ r) = (some c, rest.length) := by
  have hinj : ∀ c', String.utf8EncodeChar c' = String.utf8EncodeChar c → c' = c := by
    intro c' h
    have : utf8Bytes [c'] = utf8Bytes [c] := by simp [utf8Bytes, h]
    simpa using utf8Bytes_inj this
  rcases enc_bytes c with ⟨b0, e, h0⟩ | ⟨b0, b1, e, h0, h1⟩ | ⟨b0, b1, b2, e, h0, h1, h2⟩ | ⟨b0, b1, b2, b3, e, h0, h1, h2, h3⟩
  · refine ⟨b0, [], e, ?_⟩
    have := hinj _ ((enc1 h0).trans e.symm)
    simp [utf8Head, h0, this]
  · refine ⟨b0, [b1], e, ?_⟩
    have := hinj _ ((enc2 h0 h1).trans e.symm)
    simp only [utf8Head, if_neg (show ¬ b0.toNat < 0x80 by omega), if_neg (show ¬ b0.toNat < 0xC2 by omega), if_pos h0.2, List.cons_append, h1, if_true, this,
      List.length_cons, List.length_nil]
  · refine ⟨b0, [b1, b2], e, ?_⟩
    have := hinj _ ((enc3 h0 h1 h2).trans e.symm)
    simp only [utf8Head, if_neg (show ¬ b0.toNat < 0x80 by omega), if_neg (show ¬ b0.toNat < 0xC2 by omega), if_neg (show ¬ b0.toNat < 0xE0 by omega),
      if_pos h0.2, List.cons_append, h1, h2, if_true, this, List.length_cons, List.length_nil]
  · refine ⟨b0, [b1, b2, b3], e, ?_⟩
    have := hinj _ ((enc4 h0 h1 h2 h3).trans e.symm)
    simp only [utf8Head, if_neg (show ¬ b0.toNat < 0x80 by omega), if_neg (show ¬ b0.toNat < 0xC2 by omega), if_neg (show ¬ b0.toNat < 0xE0 by omega),
      if_neg (show ¬ b0.toNat < 0xF0 by omega), if_pos h0.2, List.cons_append, h1, h2, h3, if_true, this, List.length_cons, List.length_nil]

/-- A sequence which is not a character -/
structure BadSeq (m r : Bytes) : Prop where
  ne : m ≠ []
  none : ∀ c, ¬ String.utf8EncodeChar c <+: m ++ r
  start : m.length = 1 ∨ Starts m
  max : ∀ b r', r = b :: r' → ¬ Starts (m ++ [b])

/-- What is read is a character or a sequence which is not one. -/
theorem head_sound (b0 : UInt8) (rest : Bytes) :
    (utf8Head b0 rest).2 ≤ rest.length ∧
    (∀ c, (utf8Head b0 rest).1 = some c → String.utf8EncodeChar c = b0 :: rest.take (utf8Head b0 rest).2) ∧
    ((utf8Head b0 rest).1 = none → BadSeq (b0 :: rest.take (utf8Head b0 rest).2) (rest.drop (utf8Head b0 rest).2)) := by
  have hnone : (utf8Head b0 rest).1 = none → ∀ c, ¬ String.utf8EncodeChar c <+: b0 :: rest := by
    rintro h c ⟨t, ht⟩
    obtain ⟨b0', rest', e, hh⟩ := head_enc c t
    rw [e, List.cons_append, List.cons.injEq] at ht
    obtain ⟨rfl, rfl⟩ := ht
    rw [hh] at h
    cases h
  have s2 : ∀ b0 b1, Starts [b0, b1] → ((0xC2 ≤ b0.toNat ∧ b0.toNat < 0xE0) ∧ isCont b1 = true) ∨
      ((0xE0 ≤ b0.toNat ∧ b0.toNat < 0xF0) ∧ second3 b0 b1 = true) ∨ ((0xF0 ≤ b0.toNat ∧ b0.toNat < 0xF5) ∧ second4 b0 b1 = true) := by
    rintro b0 b1 ⟨c, t, ht⟩
    rcases enc_bytes c with ⟨x, e, h0⟩ | ⟨x, y, e, h0, h1⟩ | ⟨x, y, z, e, h0, h1, h2⟩ | ⟨x, y, z, w, e, h0, h1, h2, h3⟩ <;> rw [e] at ht <;>
      simp only [List.cons_append, List.cons.injEq, List.nil_append] at ht
    · exact absurd ht.2 (by simp)
    · obtain ⟨rfl, rfl, -⟩ := ht; exact Or.inl ⟨h0, h1⟩
    · obtain ⟨rfl, rfl, -⟩ := ht; exact Or.inr (Or.inl ⟨h0, h1⟩)
    · obtain ⟨rfl, rfl, -⟩ := ht; exact Or.inr (Or.inr ⟨h0, h1⟩)
  have s3 : ∀ b0 b1 b2, Starts [b0, b1, b2] → 0xE0 ≤ b0.toNat ∧ isCont b2 = true := by
    rintro b0 b1 b2 ⟨c, t, ht⟩
    rcases enc_bytes c with ⟨x, e, h0⟩ | ⟨x, y, e, h0, h1⟩ | ⟨x, y, z, e, h0, h1, h2⟩ | ⟨x, y, z, w, e, h0, h1, h2, h3⟩ <;> rw [e] at ht <;>
      simp only [List.cons_append, List.cons.injEq, List.nil_append] at ht
    · exact absurd ht.2 (by simp)
    · exact absurd ht.2.2 (by simp)
    · obtain ⟨rfl, rfl, rfl, -⟩ := ht; exact ⟨h0.1, h2⟩
    · obtain ⟨rfl, rfl, rfl, -⟩ := ht; exact ⟨by omega, h2⟩
  have s4 : ∀ b0 b1 b2 b3, Starts [b0, b1, b2, b3] → isCont b3 = true := by
    rintro b0 b1 b2 b3 ⟨c, t, ht⟩
    rcases enc_bytes c with ⟨x, e, h0⟩ | ⟨x, y, e, h0, h1⟩ | ⟨x, y, z, e, h0, h1, h2⟩ | ⟨x, y, z, w, e, h0, h1, h2, h3⟩ <;> rw [e] at ht <;>
      simp only [List.cons_append, List.cons.injEq, List.nil_append] at ht
    · exact absurd ht.2 (by simp)
    · exact absurd ht.2.2 (by simp)
    · exact absurd ht.2.2.2 (by simp)
    · obtain ⟨rfl, rfl, rfl, rfl, -⟩ := ht; exact h3
  have hcont : isCont 0x80 = true := by decide
  -- a single byte
  have bad1 : (utf8Head b0 rest).1 = none → (∀ b r', rest = b :: r' → ¬ Starts [b0, b]) → BadSeq [b0] rest := fun hn hm =>
    ⟨by simp, hnone hn, Or.inl rfl, hm⟩
  by_cases h1 : b0.toNat < 0x80
  · have e : utf8Head b0 rest = (some (Char.ofNat b0.toNat), 0) := by simp [utf8Head, h1]
    rw [e]
    refine ⟨Nat.zero_le _, ?_, by simp⟩
    intro c hc
    cases hc
    simpa using enc1 h1
  by_cases h2 : b0.toNat < 0xC2
  · have e : utf8Head b0 rest = (none, 0) := by simp [utf8Head, h1, h2]
    rw [e] at bad1 ⊢
    refine ⟨Nat.zero_le _, by simp, fun _ => ?_⟩
    simp only [List.take_zero, List.drop_zero]
    refine bad1 rfl fun b r' _ hs => ?_
    rcases s2 _ _ hs with h | h | h <;> omega
  by_cases h3 : b0.toNat < 0xE0
  · rcases rest with _ | ⟨b1, r⟩
    · have e : utf8Head b0 [] = (none, 0) := by simp [utf8Head, h1, h2, h3]
      rw [e] at bad1 ⊢
      exact ⟨Nat.zero_le _, by simp, fun _ => bad1 rfl (by simp)⟩
    · by_cases hc : isCont b1 = true
      · have e : utf8Head b0 (b1 :: r) = (some (Char.ofNat ((b0.toNat - 0xC0) * 64 + (b1.toNat - 0x80))), 1) := by simp [utf8Head, h1, h2, h3, hc]
        rw [e]
        refine ⟨by simp, ?_, by simp⟩
        intro c hc'
        obtain rfl := Option.some.inj hc'
        simpa using enc2 ⟨by omega, h3⟩ hc
      · have e : utf8Head b0 (b1 :: r) = (none, 0) := by simp [utf8Head, h1, h2, h3, hc]
        rw [e] at bad1 ⊢
        refine ⟨Nat.zero_le _, by simp, fun _ => ?_⟩
        refine bad1 rfl fun b r' hb hs => ?_
        cases hb
        rcases s2 _ _ hs with h | h | h
        · exact hc h.2
        · omega
        · omega
  by_cases h4 : b0.toNat < 0xF0
  · rcases rest with _ | ⟨b1, r⟩
    · have e : utf8Head b0 [] = (none, 0) := by simp [utf8Head, h1, h2, h3, h4]
      rw [e] at bad1 ⊢
      exact ⟨Nat.zero_le _, by simp, fun _ => bad1 rfl (by simp)⟩
    · by_cases hc : second3 b0 b1 = true
      · rcases r with _ | ⟨b2, r⟩
        · have e : utf8Head b0 [b1] = (none, 1) := by simp [utf8Head, h1, h2, h3, h4, hc]
          rw [e] at hnone ⊢
          refine ⟨by simp, by simp, fun _ => ⟨by simp, by simpa using hnone rfl, Or.inr ?_, by simp⟩⟩
          exact ⟨_, [0x80], (enc3 ⟨by omega, h4⟩ hc hcont).symm⟩
        · by_cases hd : isCont b2 = true
          · have e : utf8Head b0 (b1 :: b2 :: r) = (some (Char.ofNat ((b0.toNat - 0xE0) * 4096 + (b1.toNat - 0x80) * 64 + (b2.toNat - 0x80))), 2) := by
              simp [utf8Head, h1, h2, h3, h4, hc, hd]
            rw [e]
            refine ⟨by simp, ?_, by simp⟩
            intro c hc'
            obtain rfl := Option.some.inj hc'
            simpa using enc3 ⟨by omega, h4⟩ hc hd
          · have e : utf8Head b0 (b1 :: b2 :: r) = (none, 1) := by simp [utf8Head, h1, h2, h3, h4, hc, hd]
            rw [e] at hnone ⊢
            refine ⟨by simp, by simp, fun _ => ⟨by simp, by simpa using hnone rfl, Or.inr ?_, ?_⟩⟩
            · exact ⟨_, [0x80], (enc3 ⟨by omega, h4⟩ hc hcont).symm⟩
            · intro b r' hb hs
              cases hb
              exact hd (s3 _ _ _ hs).2
      · have e : utf8Head b0 (b1 :: r) = (none, 0) := by simp [utf8Head, h1, h2, h3, h4, hc]
        rw [e] at bad1 ⊢
        refine ⟨Nat.zero_le _, by simp, fun _ => ?_⟩
        refine bad1 rfl fun b r' hb hs => ?_
        cases hb
        rcases s2 _ _ hs with h | h | h
        · omega
        · exact hc h.2
        · omega
  by_cases h5 : b0.toNat < 0xF5
  · rcases rest with _ | ⟨b1, r⟩
    · have e : utf8Head b0 [] = (none, 0) := by simp [utf8Head, h1, h2, h3, h4, h5]
      rw [e] at bad1 ⊢
      exact ⟨Nat.zero_le _, by simp, fun _ => bad1 rfl (by simp)⟩
    · by_cases hc : second4 b0 b1 = true
      · have st : Starts [b0, b1] := ⟨_, [0x80, 0x80], (enc4 ⟨by omega, h5⟩ hc hcont hcont).symm⟩
        rcases r with _ | ⟨b2, r⟩
        · have e : utf8Head b0 [b1] = (none, 1) := by simp [utf8Head, h1, h2, h3, h4, h5, hc]
          rw [e] at hnone ⊢
          exact ⟨by simp, by simp, fun _ => ⟨by simp, by simpa using hnone rfl, Or.inr st, by simp⟩⟩
        · by_cases hd : isCont b2 = true
          · have st' : Starts [b0, b1, b2] := ⟨_, [0x80], (enc4 ⟨by omega, h5⟩ hc hd hcont).symm⟩
            rcases r with _ | ⟨b3, r⟩
            · have e : utf8Head b0 [b1, b2] = (none, 2) := by simp [utf8Head, h1, h2, h3, h4, h5, hc, hd]
              rw [e] at hnone ⊢
              exact ⟨by simp, by simp, fun _ => ⟨by simp, by simpa using hnone rfl, Or.inr st', by simp⟩⟩
            · by_cases he : isCont b3 = true
              · have e : utf8Head b0 (b1 :: b2 :: b3 :: r) = (some (Char.ofNat ((b0.toNat - 0xF0) * 262144 + (b1.toNat - 0x80) * 4096 +
                    (b2.toNat - 0x80) * 64 + (b3.toNat - 0x80))), 3) := by
                  simp [utf8Head, h1, h2, h3, h4, h5, hc, hd, he]
                rw [e]
                refine ⟨by simp, ?_, by simp⟩
                intro c hc'
                obtain rfl := Option.some.inj hc'
                simpa using enc4 ⟨by omega, h5⟩ hc hd he
              · have e : utf8Head b0 (b1 :: b2 :: b3 :: r) = (none, 2) := by simp [utf8Head, h1, h2, h3, h4, h5, hc, hd, he]
                rw [e] at hnone ⊢
                refine ⟨by simp, by simp, fun _ => ⟨by simp, by simpa using hnone rfl, Or.inr st', ?_⟩⟩
                intro b r' hb hs
                cases hb
                exact he (s4 _ _ _ _ hs)
          · have e : utf8Head b0 (b1 :: b2 :: r) = (none, 1) := by simp [utf8Head, h1, h2, h3, h4, h5, hc, hd]
            rw [e] at hnone ⊢
            refine ⟨by simp, by simp, fun _ => ⟨by simp, by simpa using hnone rfl, Or.inr st, ?_⟩⟩
            intro b r' hb hs
            cases hb
            exact hd (s3 _ _ _ hs).2
      · have e : utf8Head b0 (b1 :: r) = (none, 0) := by simp [utf8Head, h1, h2, h3, h4, h5, hc]
        rw [e] at bad1 ⊢
        refine ⟨Nat.zero_le _, by simp, fun _ => ?_⟩
        refine bad1 rfl fun b r' hb hs => ?_
        cases hb
        rcases s2 _ _ hs with h | h | h
        · omega
        · omega
        · exact hc h.2
  · have e : utf8Head b0 rest = (none, 0) := by simp [utf8Head, h1, h2, h3, h4, h5]
    rw [e] at bad1 ⊢
    refine ⟨Nat.zero_le _, by simp, fun _ => ?_⟩
    simp only [List.take_zero, List.drop_zero]
    refine bad1 rfl fun b r' _ hs => ?_
    rcases s2 _ _ hs with h | h | h <;> omega

/-! ## Decoding -/

theorem decodeFrom_drop : ∀ (r : Bytes) (k : Nat), decodeFrom r k = decodeFrom (r.drop k) 0
  | [], k => by cases k <;> simp [decodeFrom]
  | b :: r, 0 => by simp
  | b :: r, k + 1 => by
    rw [decodeFrom, List.drop_succ_cons]
    exact decodeFrom_drop r k

theorem decodeReplace_cons (b : UInt8) (r : Bytes) :
    decodeReplace (b :: r) = (utf8Head b r).1.getD (Char.ofNat 0xFFFD) :: decodeReplace (r.drop (utf8Head b r).2) := by
  rw [decodeReplace, decodeFrom, decodeFrom_drop]
  rfl

theorem decodes_replace : ∀ b : Bytes, Decodes b (decodeReplace b)
  | [] => .done
  | b :: r => by
    obtain ⟨h1, h2, h3⟩ := head_sound b r
    rw [decodeReplace_cons]
    have ih := decodes_replace (r.drop (utf8Head b r).2)
    cases hh : (utf8Head b r).1 with
    | some c =>
      have := Decodes.char c _ _ ih
      rw [h2 c hh, List.cons_append, List.take_append_drop] at this
      exact this
    | none =>
      obtain ⟨g1, g2, g3, g4⟩ := h3 hh
      have := Decodes.bad _ _ _ g1 g2 g3 g4 ih
      rw [List.cons_append, List.take_append_drop] at this
      exact this
termination_by b => b.length
decreasing_by simp; omega

theorem decodes_unique {b : Bytes} {s : Str} (h : Decodes b s) : s = decodeReplace b := by
  induction h with
  | done => rfl
  | char c r s _ ih =>
    obtain ⟨b0, rest, e, hh⟩ := head_enc c r
    rw [e, List.cons_append, decodeReplace_cons, hh]
    simp [ih]
  | bad m r s g1 g2 g3 g4 _ ih =>
    rcases m with _ | ⟨b0, m⟩
    · exact absurd rfl g1
    obtain ⟨h1, h2, h3⟩ := head_sound b0 (m ++ r)
    rw [List.cons_append, decodeReplace_cons]
    cases hh : (utf8Head b0 (m ++ r)).1 with
    | some c =>
      exfalso
      apply g2 c
      rw [h2 c hh]
      exact ⟨(m ++ r).drop (utf8Head b0 (m ++ r)).2, by simp⟩
    | none =>
      obtain ⟨k1, k2, k3, k4⟩ := h3 hh
      generalize hn : (utf8Head b0 (m ++ r)).2 = n at h1 k1 k2 k3 k4
      have hlen : n = m.length := by
        rcases Nat.lt_trichotomy n m.length with hlt | heq | hgt
        · exfalso
          have hd : ∃ x t, (m ++ r).drop n = x :: t ∧ m = m.take n ++ x :: m.drop (n + 1) := by
            rw [List.drop_append_of_le_length (by omega)]
            rw [List.drop_eq_getElem_cons hlt]
            refine ⟨m[n], _, rfl, ?_⟩
            rw [← List.drop_eq_getElem_cons hlt, List.take_append_drop]
          obtain ⟨x, t, e1, e2⟩ := hd
          apply k4 x t e1
          rcases g3 with g3 | ⟨c, g3⟩
          · simp at g3
            rw [g3] at hlt
            simp at hlt
          · refine ⟨c, List.IsPrefix.trans ?_ g3⟩
            rw [List.take_append_of_le_length (by omega)]
            refine ⟨m.drop (n + 1), ?_⟩
            conv => rhs; rw [e2]
            simp
        · exact heq
        · exfalso
          rcases r with _ | ⟨x, t⟩
          · simp at h1; omega
          · apply g4 x t rfl
            rcases k3 with k3 | ⟨c, k3⟩
            · simp at k3 h1; omega
            · refine ⟨c, List.IsPrefix.trans ?_ k3⟩
              refine List.prefix_of_prefix_length_le (l₃ := b0 :: (m ++ x :: t)) ⟨t, by simp⟩ ⟨(m ++ x :: t).drop n, by simp⟩ ?_
              simp at h1 ⊢
              omega
      subst hlen
      simp [ih]

theorem decodeReplace_utf8 (a : Str) (r : Bytes) : decodeReplace (utf8Bytes a ++ r) = a ++ decodeReplace r := by
  induction a with
  | nil => rfl
  | cons c a ih =>
    obtain ⟨b0, rest, e, hh⟩ := head_enc c (utf8Bytes a ++ r)
    have : utf8Bytes (c :: a) ++ r = b0 :: (rest ++ (utf8Bytes a ++ r)) := by
      have h : utf8Bytes (c :: a) = String.utf8EncodeChar c ++ utf8Bytes a := by simp [utf8Bytes]
      rw [h, e]; simp
    rw [this, decodeReplace_cons, hh]
    simp [ih]

theorem utf8_ok {b : Bytes} {s : Str} (h : utf8 b = .ok s) : b = utf8Bytes s := by
  unfold utf8 at h
  cases hd : b.toByteArray.utf8Decode? with
  | none => rw [hd] at h; cases h
  | some a =>
    have hs : b.toByteArray.utf8Decode?.isSome := by rw [hd]; rfl
    obtain ⟨m, hm⟩ := ByteArray.isSome_utf8Decode?_iff.1 hs
    have e : b = utf8Bytes m := by
      have h1 : m.utf8Encode = (utf8Bytes m).toByteArray := rfl
      rw [h1] at hm
      have := congrArg (fun x : ByteArray => x.data.toList) hm
      simpa using this
    rw [hd] at h
    have h' : utf8 b = .ok s := by unfold utf8; rw [hd]; exact h
    rw [e, utf8_utf8Bytes] at h'
    rw [e, Except.ok.inj h']

/-! ## Base 64 -/

theorem b64_letter : ∀ n, n < 64 → letters[n]? = some (b64Char n) := by decide +kernel

theorem b64Char_inj : ∀ n, n < 64 → ∀ m, m < 64 → b64Char n = b64Char m → n = m := by decide +kernel

theorem letter_iff {c : Char} {v : Nat} : Letter c v ↔ v < 64 ∧ c = b64Char v := by
  unfold Letter
  have hl : letters.length = 64 := by decide +kernel
  constructor
  · intro h
    have hv : v < 64 := by
      rw [← hl]
      exact (List.getElem?_eq_some_iff.1 h).1
    rw [b64_letter v hv] at h
    exact ⟨hv, (Option.some.inj h).symm⟩
  · rintro ⟨hv, rfl⟩
    exact b64_letter v hv

theorem base64_encode : ∀ b : Bytes, Base64 b (b64encode b)
  | [] => .done
  | [a] => by
    have := a.toNat_lt
    exact .one a _ _ (a.toNat / 4) (a.toNat % 4 * 16) (letter_iff.2 ⟨by omega, rfl⟩) (letter_iff.2 ⟨by omega, rfl⟩) (by omega)
  | [a, b] => by
    have := a.toNat_lt
    have := b.toNat_lt
    exact .two a b _ _ _ (a.toNat / 4) (a.toNat % 4 * 16 + b.toNat / 16) (b.toNat % 16 * 4) (letter_iff.2 ⟨by omega, rfl⟩) (letter_iff.2 ⟨by omega, rfl⟩)
      (letter_iff.2 ⟨by omega, rfl⟩) (by omega)
  | a :: b :: c :: r => by
    have := a.toNat_lt
    have := b.toNat_lt
    have := c.toNat_lt
    exact .three a b c r _ _ _ _ _ (a.toNat / 4) (a.toNat % 4 * 16 + b.toNat / 16) (b.toNat % 16 * 4 + c.toNat / 64) (c.toNat % 64)
      (letter_iff.2 ⟨by omega, rfl⟩) (letter_iff.2 ⟨by omega, rfl⟩) (letter_iff.2 ⟨by omega, rfl⟩) (letter_iff.2 ⟨by omega, rfl⟩) (by omega)
      (base64_encode r)

theorem base64_unique {b : Bytes} {s : Str} (h : Base64 b s) : s = b64encode b := by
  induction h with
  | done => rfl
  | three a b c r w x y z s i j k l h1 h2 h3 h4 e _ ih =>
    rw [letter_iff] at h1 h2 h3 h4
    obtain ⟨h1, rfl⟩ := h1
    obtain ⟨h2, rfl⟩ := h2
    obtain ⟨h3, rfl⟩ := h3
    obtain ⟨h4, rfl⟩ := h4
    have := a.toNat_lt
    have := b.toNat_lt
    have := c.toNat_lt
    rw [b64encode, ih, show i = a.toNat / 4 by omega, show j = a.toNat % 4 * 16 + b.toNat / 16 by omega,
      show k = b.toNat % 16 * 4 + c.toNat / 64 by omega, show l = c.toNat % 64 by omega]
  | two a b w x y i j k h1 h2 h3 e =>
    rw [letter_iff] at h1 h2 h3
    obtain ⟨h1, rfl⟩ := h1
    obtain ⟨h2, rfl⟩ := h2
    obtain ⟨h3, rfl⟩ := h3
    have := a.toNat_lt
    have := b.toNat_lt
    rw [b64encode, show i = a.toNat / 4 by omega, show j = a.toNat % 4 * 16 + b.toNat / 16 by omega, show k = b.toNat % 16 * 4 by omega]
  | one a w x i j h1 h2 e =>
    rw [letter_iff] at h1 h2
    obtain ⟨h1, rfl⟩ := h1
    obtain ⟨h2, rfl⟩ := h2
    have := a.toNat_lt
    rw [b64encode, show i = a.toNat / 4 by omega, show j = a.toNat % 4 * 16 by omega]

/-- Letters are not the padding. -/
theorem letter_ne {v : Nat} (h : v < 64) : b64Char v ≠ '=' := by
  revert v
  decide +kernel

theorem base64_inj {b b' : Bytes} {s : Str} (h : Base64 b s) (h' : Base64 b' s) : b = b' := by
  induction h generalizing b' with
  | done => cases h'; rfl
  | three a b c r w x y z s i j k l h1 h2 h3 h4 e _ ih =>
    rw [letter_iff] at h1 h2 h3 h4
    cases h' with
    | three a' b' c' r' _ _ _ _ _ i' j' k' l' g1 g2 g3 g4 e' g =>
      rw [letter_iff] at g1 g2 g3 g4
      have k1 := b64Char_inj _ h1.1 _ g1.1 (h1.2.symm.trans g1.2)
      have k2 := b64Char_inj _ h2.1 _ g2.1 (h2.2.symm.trans g2.2)
      have k3 := b64Char_inj _ h3.1 _ g3.1 (h3.2.symm.trans g3.2)
      have k4 := b64Char_inj _ h4.1 _ g4.1 (h4.2.symm.trans g4.2)
      have := a.toNat_lt
      have := b.toNat_lt
      have := c.toNat_lt
      have := a'.toNat_lt
      have := b'.toNat_lt
      have := c'.toNat_lt
      subst k1 k2 k3 k4
      rw [ih g, UInt8.toNat_inj.1 (show a.toNat = a'.toNat by omega), UInt8.toNat_inj.1 (show b.toNat = b'.toNat by omega),
        UInt8.toNat_inj.1 (show c.toNat = c'.toNat by omega)]
    | two => exact absurd h4.2.symm (letter_ne h4.1)
    | one => exact absurd h4.2.symm (letter_ne h4.1)
  | two a b w x y i j k h1 h2 h3 e =>
    rw [letter_iff] at h1 h2 h3
    cases h' with
    | three a' b' c' r' _ _ _ _ _ i' j' k' l' g1 g2 g3 g4 e' g =>
      rw [letter_iff] at g4
      exact absurd g4.2.symm (letter_ne g4.1)
    | two a' b' _ _ _ i' j' k' g1 g2 g3 e' =>
      rw [letter_iff] at g1 g2 g3
      have k1 := b64Char_inj _ h1.1 _ g1.1 (h1.2.symm.trans g1.2)
      have k2 := b64Char_inj _ h2.1 _ g2.1 (h2.2.symm.trans g2.2)
      have k3 := b64Char_inj _ h3.1 _ g3.1 (h3.2.symm.trans g3.2)
      have := a.toNat_lt
      have := b.toNat_lt
      have := a'.toNat_lt
      have := b'.toNat_lt
      subst k1 k2 k3
      rw [UInt8.toNat_inj.1 (show a.toNat = a'.toNat by omega), UInt8.toNat_inj.1 (show b.toNat = b'.toNat by omega)]
    | one => exact absurd h3.2.symm (letter_ne h3.1)
  | one a w x i j h1 h2 e =>
    rw [letter_iff] at h1 h2
    cases h' with
    | three a' b' c' r' _ _ _ _ _ i' j' k' l' g1 g2 g3 g4 e' g =>
      rw [letter_iff] at g4
      exact absurd g4.2.symm (letter_ne g4.1)
    | two a' b' _ _ _ i' j' k' g1 g2 g3 e' =>
      rw [letter_iff] at g3
      exact absurd g3.2.symm (letter_ne g3.1)
    | one a' _ _ i' j' g1 g2 e' =>
      rw [letter_iff] at g1 g2
      have k1 := b64Char_inj _ h1.1 _ g1.1 (h1.2.symm.trans g1.2)
      have k2 := b64Char_inj _ h2.1 _ g2.1 (h2.2.symm.trans g2.2)
      subst k1 k2
      rw [UInt8.toNat_inj.1 (show a.toNat = a'.toNat by omega)]

end Cdtb
