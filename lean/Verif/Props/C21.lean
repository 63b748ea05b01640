import Verif.Spec.BinType
/-!
# C21 BIN type codes
-/
namespace Cdtb
set_option autoImplicit false
open Py Spec

def allBinTypes : List BinType :=
  [.empty, .bool, .s8, .u8, .s16, .u16, .s32, .u32, .s64, .u64, .float, .vec2, .vec3, .vec4, .matrix, .rgba, .string,
   .hash, .path, .list, .list2, .struct, .embedded, .link, .option, .map, .flag]

theorem mem_allBinTypes (t : BinType) : t ∈ allBinTypes := by cases t <;> decide

/-- What the parsed type depends on: the era and the code. -/
theorem parseBinType_era (v w c : Nat) (h1 : v < 923 ↔ w < 923) (h2 : v < 1008 ↔ w < 1008) :
    parseBinType v c = parseBinType w c := by
  unfold parseBinType
  simp only [h1, h2]

/-- For every game version and every byte: the code is that of a type in the table of the era exactly when
parsing it gives this type. -/
theorem C21_code (version c : Nat) (hc : c < 256) (t : BinType) :
    parseBinType version c = .ok t ↔ typeCode version t = some c := by
  have key : ∀ c : Fin 256, ∀ t ∈ allBinTypes,
      (parseBinType 0 c.val = .ok t ↔ oldCode t = some c.val) ∧
      (parseBinType 923 c.val = .ok t ↔ middleCode t = some c.val) ∧
      (parseBinType 1008 c.val = .ok t ↔ newCode t = some c.val) := by decide +kernel
  obtain ⟨k1, k2, k3⟩ := key ⟨c, hc⟩ t (mem_allBinTypes t)
  unfold typeCode
  by_cases h1 : version < 923
  · rw [if_pos h1, parseBinType_era version 0 c (by omega) (by omega)]; exact k1
  · rw [if_neg h1]
    by_cases h2 : version < 1008
    · rw [if_pos h2, parseBinType_era version 923 c (by omega) (by omega)]; exact k2
    · rw [if_neg h2, parseBinType_era version 1008 c (by omega) (by omega)]; exact k3

/-- A byte that is not the code of a type raises `ValueError`. -/
theorem C21_reject (version c : Nat) (hc : c < 256) (h : ∀ t, typeCode version t ≠ some c) :
    parseBinType version c = .error .value := by
  rcases hp : parseBinType version c with e | t
  · have : ∀ n, BinType.ofCode n = .error e → e = .value := by
      intro n hn
      unfold BinType.ofCode at hn
      split at hn <;> simp at hn
      exact hn.symm
    rw [this _ hp]
  · exact absurd ((C21_code version c hc t).1 hp) (h t)

/-- Distinct codes give distinct types, and a type has one code. -/
theorem C21_injective (version c d : Nat) (hc : c < 256) (hd : d < 256) (t : BinType)
    (h1 : parseBinType version c = .ok t) (h2 : parseBinType version d = .ok t) : c = d := by
  rw [C21_code version c hc] at h1
  rw [C21_code version d hd, h1] at h2
  exact Option.some.inj h2

/-- Which types exist in each era: all of them, except `LIST2` before 10.8 and `PATH` before 9.23. -/
theorem C21_types (version : Nat) (t : BinType) :
    (∃ c, c < 256 ∧ parseBinType version c = .ok t) ↔
      ¬ (t = .list2 ∧ version < 1008) ∧ ¬ (t = .path ∧ version < 923) := by
  have key : (∃ c, c < 256 ∧ parseBinType version c = .ok t) ↔ ∃ c, typeCode version t = some c := by
    constructor
    · rintro ⟨c, hc, h⟩; exact ⟨c, (C21_code version c hc t).1 h⟩
    · rintro ⟨c, h⟩
      have hc : c < 256 := by
        have : ∀ t ∈ allBinTypes, ∀ f ∈ [oldCode, middleCode, newCode], (match f t with | some c => decide (c < 256) | none => true) = true := by
          decide +kernel
        have h' : ∃ f ∈ [oldCode, middleCode, newCode], f t = some c := by
          unfold typeCode at h
          split at h
          · exact ⟨oldCode, by simp, h⟩
          · split at h
            · exact ⟨middleCode, by simp, h⟩
            · exact ⟨newCode, by simp, h⟩
        obtain ⟨f, hf, h'⟩ := h'
        have := this t (mem_allBinTypes t) f hf
        rw [h'] at this
        simpa using this
      exact ⟨c, hc, (C21_code version c hc t).2 h⟩
  rw [key]
  unfold typeCode
  by_cases h1 : version < 923
  · simp only [if_pos h1, h1, show version < 1008 by omega, and_true]
    cases t <;> simp [oldCode, plainCode]
  · by_cases h2 : version < 1008
    · simp only [if_neg h1, if_pos h2, h1, h2, and_true, and_false, not_false_iff]
      cases t <;> simp [middleCode, plainCode]
    · simp only [if_neg h1, if_neg h2, h1, h2, and_false, not_false_iff]
      cases t <;> simp [newCode, plainCode]

/-- Without a version (or with version 0), codes are those of the current format. -/
theorem C21_default (c : Nat) (hc : c < 256) (t : BinType) (v : Option Nat) (hv : v = none ∨ v = some 0) :
    parseBinType (btypeVersion v) c = .ok t ↔ newCode t = some c := by
  have : btypeVersion v = 1008 := by rcases hv with rfl | rfl <;> rfl
  rw [this, C21_code 1008 c hc t]
  rfl

/-- Non-vacuity -/
example : parseBinType 922 18 = .ok .list ∧ parseBinType 923 18 = .ok .path ∧ parseBinType 1007 0x81 = .ok .struct ∧
    parseBinType 1008 0x81 = .ok .list2 ∧ parseBinType 1400 0x88 = .error .value := by decide +kernel

end Cdtb
