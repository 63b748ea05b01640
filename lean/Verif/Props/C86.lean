import Verif.Lemmas.RstText
import Verif.Props.C17
/-!
# C86 Texts of string tables with errors, and encrypted ones
-/
namespace Cdtb
set_option autoImplicit false
open Py Spec

/-! ## UTF-8 with errors -/

/-- Decoding never fails, and its only result is the sequence of characters of the bytes, where each sequence that is not a character gives U+FFFD. -/
theorem C86_decode (b : Bytes) (s : Str) : Decodes b s ↔ decodeReplace b = s :=
  ⟨fun h => (decodes_unique h).symm, fun h => h ▸ decodes_replace b⟩

/-- Valid parts are kept: what follows them does not change them. -/
theorem C86_valid (a : Str) (r : Bytes) : decodeReplace (utf8Bytes a ++ r) = a ++ decodeReplace r := decodeReplace_utf8 a r

/-- Bytes that are valid as a whole are decoded as `bytes.decode('utf-8')` does. -/
theorem C86_strict (b : Bytes) (s : Str) (h : utf8 b = .ok s) : decodeReplace b = s := by
  rw [utf8_ok h]
  have := decodeReplace_utf8 s []
  simpa [decodeReplace, decodeFrom] using this

/-- The first byte of a character is not a continuation byte. -/
theorem enc_starts (b : UInt8) (r : Bytes) (h : ∃ c, b :: r = String.utf8EncodeChar c) : isCont b = false := by
  obtain ⟨c, hc⟩ := h
  rw [← Bool.not_eq_true, isCont_iff]
  rcases enc_bytes c with ⟨x, e, h0⟩ | ⟨x, y, e, h0, h1⟩ | ⟨x, y, z, e, h0, h1, h2⟩ | ⟨x, y, z, w, e, h0, h1, h2, h3⟩ <;> rw [e, List.cons.injEq] at hc <;>
    obtain ⟨rfl, -⟩ := hc <;> omega

/-- A byte of another encoding, such as a quote of windows-1252, is replaced alone: what comes before, and what comes after when it starts with a
character, is kept. -/
theorem C86_stray_byte (a : Str) (b : UInt8) (r : Bytes) (hb : 0x80 ≤ b.toNat) (hr : ∀ x r', r = x :: r' → ¬ (0x80 ≤ x.toNat ∧ x.toNat < 0xC0)) :
    decodeReplace (utf8Bytes a ++ b :: r) = a ++ '�' :: decodeReplace r := by
  rw [decodeReplace_utf8]
  congr 1
  refine (C86_decode _ _).1 (Decodes.bad [b] r _ (by simp) ?_ (Or.inl rfl) ?_ (decodes_replace r))
  · rintro c ⟨t, ht⟩
    rcases enc_bytes c with ⟨x, e, h0⟩ | ⟨x, y, e, h0, h1⟩ | ⟨x, y, z, e, h0, h1, h2⟩ | ⟨x, y, z, w, e, h0, h1, h2, h3⟩ <;> rw [e] at ht <;>
      simp only [List.cons_append, List.cons.injEq, List.nil_append] at ht
    · obtain ⟨rfl, -⟩ := ht; omega
    · exact hr _ _ ht.2.symm (isCont_iff.1 h1)
    · exact hr _ _ ht.2.symm (second3_iff.1 h1).1
    · exact hr _ _ ht.2.symm (second4_iff.1 h1).1
  · rintro x r' rfl ⟨c, t, ht⟩
    have hx := hr x r' rfl
    rcases enc_bytes c with ⟨x, e, h0⟩ | ⟨x, y, e, h0, h1⟩ | ⟨x, y, z, e, h0, h1, h2⟩ | ⟨x, y, z, w, e, h0, h1, h2, h3⟩ <;> rw [e] at ht <;>
      simp only [List.cons_append, List.cons.injEq, List.nil_append] at ht
    · simp at ht
    · obtain ⟨-, rfl, -⟩ := ht; exact hx (isCont_iff.1 h1)
    · obtain ⟨-, rfl, -⟩ := ht; exact hx (second3_iff.1 h1).1
    · obtain ⟨-, rfl, -⟩ := ht; exact hx (second4_iff.1 h1).1

/-- In particular between two texts. -/
theorem C86_between (a c : Str) (b : UInt8) (hb : 0x80 ≤ b.toNat) : decodeReplace (utf8Bytes a ++ b :: utf8Bytes c) = a ++ '�' :: c := by
  rw [C86_stray_byte a b _ hb]
  · have := decodeReplace_utf8 c []
    rw [List.append_nil] at this
    rw [this]
    simp [decodeReplace, decodeFrom]
  · intro x r' h
    rcases c with _ | ⟨c, t⟩
    · simp [utf8Bytes] at h
    · have hu : utf8Bytes (c :: t) = String.utf8EncodeChar c ++ utf8Bytes t := by simp [utf8Bytes]
      rw [hu] at h
      obtain ⟨b0, rest, e, -⟩ := head_enc c []
      rw [e, List.cons_append, List.cons.injEq] at h
      obtain ⟨rfl, -⟩ := h
      have := enc_starts b0 rest ⟨c, e.symm⟩
      rw [← Bool.not_eq_true, isCont_iff] at this
      exact this

/-- Texts are not longer than their bytes. -/
theorem C86_length (b : Bytes) : (decodeReplace b).length ≤ b.length := by
  have h := decodes_replace b
  generalize decodeReplace b = s at h
  induction h with
  | done => simp
  | char c r s _ ih =>
    obtain ⟨b0, rest, e, -⟩ := head_enc c []
    rw [e]
    simp
    omega
  | bad m r s g1 _ _ _ _ ih =>
    have := List.length_pos_iff.2 g1
    simp
    omega

/-! ## Base 64 -/

/-- Encrypted texts are given in base 64, with padding. -/
theorem C86_base64 (b : Bytes) (s : Str) : Base64 b s ↔ b64encode b = s :=
  ⟨fun h => (base64_unique h).symm, fun h => h ▸ base64_encode b⟩

/-- Their bytes can be found again. -/
theorem C86_injective (b b' : Bytes) (h : b64encode b = b64encode b') : b = b' :=
  base64_inj (base64_encode b) (h ▸ base64_encode b')

/-- Four characters for three bytes; all are letters of base 64 or the padding -/
theorem C86_shape (b : Bytes) : (b64encode b).length = (b.length + 2) / 3 * 4 ∧ ∀ c ∈ b64encode b, c ∈ letters ∨ c = '=' := by
  have h := base64_encode b
  generalize b64encode b = s at h
  have hm : ∀ {c v}, Letter c v → c ∈ letters := fun h => List.mem_of_getElem? h
  induction h with
  | done => simp
  | three a b c r w x y z s i j k l h1 h2 h3 h4 e _ ih =>
    obtain ⟨ih1, ih2⟩ := ih
    refine ⟨by simp [ih1]; omega, ?_⟩
    intro c hc
    simp only [List.mem_cons] at hc
    rcases hc with rfl | rfl | rfl | rfl | hc
    · exact Or.inl (hm h1)
    · exact Or.inl (hm h2)
    · exact Or.inl (hm h3)
    · exact Or.inl (hm h4)
    · exact ih2 c hc
  | two a b w x y i j k h1 h2 h3 e =>
    refine ⟨by simp, ?_⟩
    intro c hc
    simp only [List.mem_cons, List.not_mem_nil, or_false] at hc
    rcases hc with rfl | rfl | rfl | rfl
    · exact Or.inl (hm h1)
    · exact Or.inl (hm h2)
    · exact Or.inl (hm h3)
    · exact Or.inr rfl
  | one a w x i j h1 h2 e =>
    refine ⟨by simp, ?_⟩
    intro c hc
    simp only [List.mem_cons, List.not_mem_nil, or_false] at hc
    rcases hc with rfl | rfl | rfl | rfl
    · exact Or.inl (hm h1)
    · exact Or.inl (hm h2)
    · exact Or.inr rfl
    · exact Or.inr rfl

/-! ## Tables -/

theorem rstEnv_decode (xxh3 xxh64 : Str → Nat) (lower : Str → Str) (b : Bytes) : (rstEnv xxh3 xxh64 lower).decode b = decodeReplace b := by
  unfold RstEnv.decode
  cases h : utf8 b with
  | ok s => exact (C86_strict b s h).symm
  | error _ => rfl

/-- A table is read whatever the bytes of its texts are, and each of its hashes has the text described for its offset. -/
theorem C86_table (xxh3 xxh64 : Str → Nat) (lower : Str → Str) (version gameVersion : Nat) (hv : 2 ≤ version ∧ version ≤ 5)
    (config : Option Str) (hc : ∀ s, config = some s → (utf8Bytes s).length < 256 ^ 4)
    (entries : List (Nat × Nat)) (hn : entries.length < 256 ^ 4)
    (he : ∀ e ∈ entries, e.2 < 2 ^ rstBits version gameVersion ∧ e.1 < 2 ^ (64 - rstBits version gameVersion))
    (encrypted : Bool) (h5 : version = 5 → encrypted = false) (texts : Bytes) (ts : List Str)
    (ht : List.Forall₂ (fun e t => TableText encrypted texts e.1 t) entries ts) :
    ∃ r, (parseRst (rstEnv xxh3 xxh64 lower) gameVersion).run (rstFile version gameVersion config entries encrypted texts) = .ok r ∧
      (∀ h, r.entries.get? h = lastText ((entries.map (·.2)).zip ts) h) ∧
      (∀ h, h ∈ r.entries.keys ↔ h ∈ entries.map (·.2)) := by
  have ht' : List.Forall₂ (fun e t => TextAt (rstEnv xxh3 xxh64 lower) encrypted texts e.1 t) entries ts := by
    refine List.Forall₂.imp ?_ ht
    rintro e t (⟨raw, rest, _, h1, h2, h3, h4⟩ | ⟨size, payload, rest, _, h1, h2, h3, h4, h6⟩)
    · rw [← (C86_decode _ _).1 h4, ← rstEnv_decode xxh3 xxh64 lower]
      refine TextAt.plain raw rest (by simpa using h1) h2 ?_
      cases encrypted with
      | false => exact Or.inl rfl
      | true => exact Or.inr (h3 rfl)
    · rw [← (C86_base64 _ _).1 h6]
      subst h3
      exact TextAt.encrypted payload rest (by simpa using h2) (by omega) h1
  obtain ⟨r, h1, -, -, -, h2, h3⟩ := C17_decode (rstEnv xxh3 xxh64 lower) version gameVersion hv config hc entries hn he encrypted h5 texts ts ht'
  exact ⟨r, h1, h2, h3⟩

/-! ## Cases that meet the hypotheses -/

/-- `C86_decode`: an overlong sequence, a surrogate, a code over U+10FFFF, and starts of characters -/
example : decodeReplace [0x61, 0xC0, 0xAF] = "a��".toList ∧ decodeReplace [0xED, 0xA0, 0x80, 0x62] = "���b".toList ∧
    decodeReplace [0xF4, 0x90, 0x80, 0x80] = "����".toList ∧ decodeReplace [0xF0, 0x9F, 0x98, 0x63] = "�c".toList ∧
    decodeReplace [0xE2, 0x82] = "�".toList ∧ decodeReplace [0xE2, 0x82, 0xAC] = "€".toList := by decide +kernel

/-- `C86_between`: a quote of windows-1252 -/
example : decodeReplace [0x69, 0x74, 0x92, 0x73] = "it�s".toList := C86_between "it".toList "s".toList 0x92 (by decide)

/-- `C86_base64` -/
example : b64encode [0x4D, 0x61, 0x6E] = "TWFu".toList ∧ b64encode [0x4D, 0x61] = "TWE=".toList ∧ b64encode [0x4D] = "TQ==".toList ∧
    b64encode [0xFB, 0xFF, 0xBF, 0] = "+/+/AA==".toList := by decide +kernel

/-- `C86_table`: a text with an error and an encrypted one -/
example : ∃ r, (parseRst (rstEnv (fun _ => 0) (fun _ => 0) id) 1500).run
      (rstFile 4 1500 none [(0, 7), (5, 8)] true [0x69, 0x74, 0x92, 0x73, 0, 255, 2, 0, 0x4D, 0x61]) = .ok r ∧
    r.entries.get? 7 = some "it�s".toList ∧ r.entries.get? 8 = some "TWE=".toList := by
  obtain ⟨r, h1, h2, -⟩ := C86_table (fun _ => 0) (fun _ => 0) id 4 1500 (by decide) none (by simp) [(0, 7), (5, 8)] (by decide) (by decide) true (by decide)
    [0x69, 0x74, 0x92, 0x73, 0, 255, 2, 0, 0x4D, 0x61] ["it�s".toList, "TWE=".toList]
    (.cons (.plain [0x69, 0x74, 0x92, 0x73] _ _ rfl (by decide) (by decide) ((C86_decode _ _).2 (by decide +kernel)))
      (.cons (.coded [2, 0] [0x4D, 0x61] [] _ rfl rfl (by decide) (by decide) ((C86_base64 _ _).2 (by decide +kernel))) .nil))
  refine ⟨r, h1, ?_, ?_⟩
  · rw [h2]; decide +kernel
  · rw [h2]; decide +kernel

end Cdtb
