import Verif.Model.Wad
import Verif.Lemmas.Hex
/-!
# C12 Names of unknown files
-/
namespace Cdtb
set_option autoImplicit false
open Py Spec

/-- The file has no path yet. -/
def Unresolved (w : WadEntry) : Prop := w.path = none ∨ w.path = some []

theorem noPath_iff {w : WadEntry} : noPath w.path = true ↔ Unresolved w := by
  unfold noPath Unresolved
  rcases w.path with _ | s
  · simp
  · simp [List.isEmpty_iff]

/-- Only the path of unresolved files changes. -/
theorem C12_keeps (dir : Str) (w : WadEntry) :
    (¬ Unresolved w → setUnknownPath dir w = w) ∧
    (∃ p, setUnknownPath dir w = { w with path := some p } ∧ p ≠ []) := by
  constructor
  · intro h
    unfold setUnknownPath
    rw [if_neg (fun h' => h (noPath_iff.1 h'))]
  · unfold setUnknownPath
    split
    · split
      · exact ⟨_, rfl, by simp⟩
      · exact ⟨_, rfl, by simp⟩
    · rename_i h
      rw [noPath_iff] at h
      unfold Unresolved at h
      rcases hp : w.path with _ | p
      · exact absurd (Or.inl hp) h
      · refine ⟨p, ?_, fun h0 => h (Or.inr (h0 ▸ hp))⟩
        cases w; simp_all

/-- The name of an unresolved file: the directory, the hash on 16 hexadecimal digits, and the extension
if there is one. -/
theorem C12_name (dir : Str) (w : WadEntry) (h : Unresolved w) (hh : w.pathHash < 2 ^ 64) :
    ∃ hex, Hex16 hex w.pathHash ∧ (setUnknownPath dir w).path = some (dir ++ '/' :: hex ++
      match w.ext with
      | none => []
      | some [] => []
      | some ext => '.' :: ext) := by
  refine ⟨_, hex16_hexW hh, ?_⟩
  unfold setUnknownPath
  rw [if_pos (noPath_iff.2 h)]
  rcases he : w.ext with _ | _ | ⟨c, cs⟩
  · simp [noExt]
  · simp [noExt]
  · simp [noExt]

/-- Unresolved files with different hashes get different paths. -/
theorem C12_distinct (dir : Str) (w₁ w₂ : WadEntry) (h₁ : Unresolved w₁) (h₂ : Unresolved w₂)
    (b₁ : w₁.pathHash < 2 ^ 64) (b₂ : w₂.pathHash < 2 ^ 64) (hne : w₁.pathHash ≠ w₂.pathHash) :
    (setUnknownPath dir w₁).path ≠ (setUnknownPath dir w₂).path := by
  obtain ⟨x₁, hx₁, e₁⟩ := C12_name dir w₁ h₁ b₁
  obtain ⟨x₂, hx₂, e₂⟩ := C12_name dir w₂ h₂ b₂
  rw [e₁, e₂]
  intro he
  simp only [Option.some.injEq, List.append_assoc, List.append_cancel_left_eq, List.cons_append,
    List.cons.injEq, true_and] at he
  have := (List.append_inj he (by rw [hx₁.length, hx₂.length])).1
  apply hne
  rw [← hx₁.value, ← hx₂.value, this]

/-- Non-vacuity -/
example :
    (setUnknownPath "unknown".toList { wadEntry 0xAB 0 0 0 0 false none none with ext := some "png".toList }).path =
      some "unknown/00000000000000ab.png".toList ∧
    (setUnknownPath "unknown".toList (wadEntry (2 ^ 64 - 1) 0 0 0 0 false none none)).path =
      some "unknown/ffffffffffffffff".toList := by decide +kernel

end Cdtb
