import Verif.Py.Basic
/-!
# `bytes.decode('utf-8')`, using Lean's UTF-8 decoder
-/
namespace Cdtb.Py
set_option autoImplicit false

/-- `b.decode('utf-8')`: `UnicodeDecodeError` on invalid data -/
def utf8 (b : Bytes) : Res Str :=
  match b.toByteArray.utf8Decode? with
  | some a => .ok a.toList
  | none => .error .unicode

/-- `s.encode('utf-8')` (specification side) -/
def utf8Bytes (s : Str) : Bytes := s.flatMap String.utf8EncodeChar

theorem utf8_utf8Bytes (s : Str) : utf8 (utf8Bytes s) = .ok s := by
  unfold utf8 utf8Bytes
  have h : (s.flatMap String.utf8EncodeChar).toByteArray = s.utf8Encode := rfl
  rw [h, List.utf8Decode?_utf8Encode]

example : utf8 [0x61, 0xc3, 0xa9] = .ok ['a', 'é'] := by
  have : ([0x61, 0xc3, 0xa9] : Bytes) = utf8Bytes ['a', 'é'] := by decide +kernel
  rw [this, utf8_utf8Bytes]

theorem utf8Bytes_append (s t : Str) : utf8Bytes (s ++ t) = utf8Bytes s ++ utf8Bytes t := by
  simp [utf8Bytes]

theorem utf8Bytes_inj {s t : Str} (h : utf8Bytes s = utf8Bytes t) : s = t := by
  have := utf8_utf8Bytes s
  rw [h, utf8_utf8Bytes] at this
  exact (Except.ok.inj this).symm

/-- No byte of the encoding of a text without NUL is null. -/
theorem utf8Bytes_ne_zero {s : Str} (h : ∀ c ∈ s, c ≠ '\x00') : ∀ b ∈ utf8Bytes s, b ≠ 0 := by
  intro b hb
  obtain ⟨c, hc, hb⟩ := List.mem_flatMap.1 hb
  have hc0 : c.val.toNat ≠ 0 := by
    intro h0
    apply h c hc
    apply Char.ext
    exact UInt32.toNat_inj.1 h0
  have key : ∀ n, 0 < n → n < 256 → UInt8.ofNat n ≠ 0 := by
    intro n h1 h2 h3
    have := congrArg UInt8.toNat h3
    simp at this
    omega
  unfold String.utf8EncodeChar at hb
  simp only at hb
  split at hb
  · simp only [List.mem_singleton] at hb
    subst hb; exact key _ (by omega) (by omega)
  · split at hb
    · simp only [List.mem_cons, List.not_mem_nil, or_false] at hb
      rcases hb with rfl | rfl <;> exact key _ (by omega) (by omega)
    · split at hb
      · simp only [List.mem_cons, List.not_mem_nil, or_false] at hb
        rcases hb with rfl | rfl | rfl <;> exact key _ (by omega) (by omega)
      · simp only [List.mem_cons, List.not_mem_nil, or_false] at hb
        rcases hb with rfl | rfl | rfl | rfl <;> exact key _ (by omega) (by omega)

end Cdtb.Py
