import Verif.Model.Bin
import Verif.Spec.Fnv
/-!
# C20 BIN hashes
-/
namespace Cdtb
set_option autoImplicit false
open Py Spec

theorem lowerByte_eq (c : Char) (h : c.toNat < 128) :
    lowerByte (UInt8.ofNat c.toNat) = UInt8.ofNat c.toLower.toNat := by
  have key : ∀ n : Fin 128, lowerByte (UInt8.ofNat n.val) = UInt8.ofNat (Char.ofNat n.val).toLower.toNat := by
    decide +kernel
  have := key ⟨c.toNat, h⟩
  simp only at this
  rwa [Char.ofNat_toNat] at this

theorem fnvStep_toNat (h : UInt32) (b : UInt8) :
    (fnvStep h b).toNat = ((h.toNat ^^^ b.toNat) * 0x01000193) % 0x100000000 := by
  unfold fnvStep
  rw [UInt32.toNat_mul, UInt32.toNat_xor]
  rfl

theorem fnvFrom_toNat (bs : Bytes) (h : UInt32) :
    bs.foldl (fun h b => ((h ^^^ b.toNat) * 0x01000193) % 0x100000000) h.toNat = (fnvFrom h bs).toNat := by
  induction bs generalizing h with
  | nil => rfl
  | cons b bs ih =>
    rw [List.foldl_cons, ← fnvStep_toNat, ih]
    rfl

theorem encodeAscii_eq (s : Str) :
    encodeAscii s = if Ascii s then .ok (s.map (fun c => UInt8.ofNat c.toNat)) else .error .unicode := by
  unfold encodeAscii
  by_cases h : Ascii s
  · rw [if_pos h, if_pos]
    rw [List.all_eq_true]; intro c hc; exact decide_eq_true (h c hc)
  · rw [if_neg h, if_neg]
    intro h'
    rw [List.all_eq_true] at h'
    exact h (fun c hc => of_decide_eq_true (h' c hc))

/-- On every ASCII text, the hash is FNV-1a (32 bits) of the lowercased text. -/
theorem C20_fnv (s : Str) (h : Ascii s) : binHash s = .ok (fnv1a (lowerBytes s)).toNat := by
  unfold binHash
  rw [encodeAscii_eq, if_pos h]
  simp only
  have : (s.map (fun c => UInt8.ofNat c.toNat)).map lowerByte = lowerBytes s := by
    unfold lowerBytes
    rw [List.map_map]
    apply List.map_congr_left
    intro c hc
    exact lowerByte_eq c (h c hc)
  rw [this]
  exact congrArg Except.ok (fnvFrom_toNat (lowerBytes s) 2166136261)

/-- Any other text raises `UnicodeEncodeError`. -/
theorem C20_non_ascii (s : Str) (h : ¬ Ascii s) : binHash s = .error .unicode := by
  unfold binHash
  rw [encodeAscii_eq, if_neg h]

/-- Hashes fit in 32 bits. -/
theorem C20_width (s : Str) (n : Nat) (h : binHash s = .ok n) : n < 2 ^ 32 := by
  by_cases ha : Ascii s
  · rw [C20_fnv s ha] at h
    cases h
    exact UInt32.toNat_lt _
  · rw [C20_non_ascii s ha] at h; cases h

/-- Texts that only differ by the case of ASCII letters have the same hash. -/
theorem C20_case (s t : Str) (h : s.map Char.toLower = t.map Char.toLower) : binHash s = binHash t := by
  have key : ∀ c : Char, c.toLower.toNat < 128 ↔ c.toNat < 128 := by
    intro c
    unfold Char.toLower
    split
    · next h =>
      have h1 : c.val ≥ 65 := h.1
      have h2 : c.val ≤ 90 := h.2
      have h1' : 65 ≤ c.val.toNat := UInt32.le_iff_toNat_le.1 h1
      have h2' : c.val.toNat ≤ 90 := UInt32.le_iff_toNat_le.1 h2
      have h3 : (c.val + 32).toNat = c.val.toNat + 32 := by
        rw [UInt32.toNat_add]; exact Nat.mod_eq_of_lt (by change c.val.toNat + 32 < 2 ^ 32; omega)
      change (c.val + 32).toNat < 128 ↔ c.val.toNat < 128
      rw [h3]
      omega
    · exact Iff.rfl
  have asc : ∀ s t : Str, s.map Char.toLower = t.map Char.toLower → Ascii s → Ascii t := by
    intro s t h hs c hc
    rw [← key]
    have : c.toLower ∈ s.map Char.toLower := by rw [h]; exact List.mem_map_of_mem hc
    obtain ⟨c', hc', he⟩ := List.mem_map.1 this
    rw [← he, key]
    exact hs c' hc'
  by_cases hs : Ascii s
  · rw [C20_fnv s hs, C20_fnv t (asc s t h hs)]
    have : ∀ s, lowerBytes s = (s.map Char.toLower).map (fun c => UInt8.ofNat c.toNat) := by
      intro s; unfold lowerBytes; rw [List.map_map]; rfl
    rw [this, this, h]
  · rw [C20_non_ascii s hs, C20_non_ascii t (fun ht => hs (asc t s h.symm ht))]

/-- The hash of a concatenation is computed from the hash of the first part. -/
theorem C20_incremental (s t : Str) (hs : Ascii s) (ht : Ascii t) (n : Nat) (h : binHash s = .ok n) :
    binHash (s ++ t) = .ok (fnvFrom (UInt32.ofNat n) (lowerBytes t)).toNat := by
  rw [C20_fnv s hs] at h
  cases h
  rw [C20_fnv (s ++ t) (by
    intro c hc; rcases List.mem_append.1 hc with hc | hc
    · exact hs c hc
    · exact ht c hc)]
  rw [UInt32.ofNat_toNat]
  have : lowerBytes (s ++ t) = lowerBytes s ++ lowerBytes t := List.map_append
  rw [this]
  unfold fnv1a fnvFrom
  rw [List.foldl_append]

/-- Each character counts: two texts of the same length that differ (after lowercasing) only by their last
character have different hashes. -/
theorem C20_last (s : Str) (c d : Char) (hs : Ascii s) (hc : c.toNat < 128) (hd : d.toNat < 128)
    (h : binHash (s ++ [c]) = binHash (s ++ [d])) : c.toLower = d.toLower := by
  have hs' : ∀ x : Char, x.toNat < 128 → Ascii (s ++ [x]) := by
    intro x hx c hc; rcases List.mem_append.1 hc with hc | hc
    · exact hs c hc
    · rw [List.mem_singleton.1 hc]; exact hx
  rw [C20_fnv _ (hs' c hc), C20_fnv _ (hs' d hd)] at h
  have h := UInt32.toNat_inj.1 (Except.ok.inj h)
  have happ : ∀ x, lowerBytes (s ++ [x]) = lowerBytes s ++ [UInt8.ofNat x.toLower.toNat] := by
    intro x; exact List.map_append
  rw [happ, happ] at h
  unfold fnv1a fnvFrom at h
  rw [List.foldl_append, List.foldl_append] at h
  simp only [List.foldl_cons, List.foldl_nil] at h
  generalize (lowerBytes s).foldl fnvStep 2166136261 = x at h
  have inj : ∀ a b : UInt32, a * 16777619 = b * 16777619 → a = b := by
    intro a b hab
    have := congrArg (· * (899433627 : UInt32)) hab
    simp only [UInt32.mul_assoc] at this
    have e : (16777619 : UInt32) * 899433627 = 1 := by decide
    rwa [e, UInt32.mul_one, UInt32.mul_one] at this
  have h2 := inj _ _ h
  have h3 : (UInt8.ofNat c.toLower.toNat).toUInt32 = (UInt8.ofNat d.toLower.toNat).toUInt32 := by
    have := congrArg (x ^^^ ·) h2
    simpa only [← UInt32.xor_assoc, UInt32.xor_self, UInt32.zero_xor] using this
  have key : ∀ c d : Fin 128, (UInt8.ofNat (Char.ofNat c.val).toLower.toNat) = (UInt8.ofNat (Char.ofNat d.val).toLower.toNat) →
      (Char.ofNat c.val).toLower = (Char.ofNat d.val).toLower := by decide +kernel
  have := key ⟨c.toNat, hc⟩ ⟨d.toNat, hd⟩
  simp only [Char.ofNat_toNat] at this
  exact this (by
    have := congrArg UInt32.toNat h3
    apply UInt8.toNat_inj.1
    simpa using this)

/-- Non-vacuity: "mName" and "MNAME". -/
example : binHash "mName".toList = binHash "MNAME".toList ∧ Ascii "mName".toList ∧
    binHash "mName".toList ≠ binHash "mNames".toList ∧ binHash "é".toList = .error .unicode ∧
    binHash [] = .ok 0x811c9dc5 ∧ binHash "a".toList = .ok 0xe40c292c := by decide +kernel

/-! ## Cases that meet the hypotheses -/

/-- `C20_incremental` and `C20_last` -/
example : Ascii "mNa".toList ∧ Ascii "me".toList ∧ binHash "mNa".toList = .ok 3197894649 ∧
    binHash "mname".toList = .ok (fnvFrom 3197894649 (lowerBytes "me".toList)).toNat ∧ binHash "ma".toList ≠ binHash "mb".toList := by decide +kernel

end Cdtb
