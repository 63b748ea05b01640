import Verif.Spec.Names
import Verif.Lemmas.Num
/-! # Hexadecimal names -/
namespace Cdtb
set_option autoImplicit false
open Py Spec

theorem idxOf_digitChar : ∀ d < 16, hexDigits.idxOf (digitChar d) = d ∧ digitChar d ∈ hexDigits := by decide +kernel

theorem hexValue_digits (ds : List Nat) (h : ∀ d ∈ ds, d < 16) (a : Nat) :
    (ds.map digitChar).foldl (fun a c => 16 * a + hexDigits.idxOf c) a = ds.foldl (fun a d => a * 16 + d) a := by
  induction ds generalizing a with
  | nil => rfl
  | cons d ds ih =>
    simp only [List.map_cons, List.foldl_cons]
    rw [(idxOf_digitChar d (h d (List.mem_cons_self ..))).1, ih (fun d hd => h d (List.mem_cons_of_mem _ hd)),
      Nat.mul_comm]

theorem hexValue_hexW (w n : Nat) : hexValue (hexW w n) = n := by
  have hlt : ∀ d ∈ List.replicate (w - (showNat 16 n).length) 0 ++ (digitsRev 16 (n+1) n).reverse, d < 16 := by
    intro d hd
    rcases List.mem_append.1 hd with hd | hd
    · have := List.eq_of_mem_replicate hd; omega
    · exact digitsRev_lt (by omega) _ _ d (by simpa using hd)
  rw [zpad_digits, hexValue, hexValue_digits _ hlt, List.foldl_append, foldl_replicate_zero,
    digitsRev_val (by omega) _ _ _ (Nat.lt_succ_self n)]
  simp

theorem hex16_hexW {n : Nat} (h : n < 2 ^ 64) : Hex16 (hexW 16 n) n where
  length := hexW_length (w := 15) (by norm_num; omega)
  digits c hc := by obtain ⟨d, hd, rfl⟩ := hexW_mem hc; exact (idxOf_digitChar d hd).2
  value := hexValue_hexW 16 n

theorem Spec.Hex16.no_special {s : Str} {n : Nat} (h : Hex16 s n) : '/' ∉ s ∧ '.' ∉ s :=
  ⟨fun hc => absurd (h.digits _ hc) (by decide), fun hc => absurd (h.digits _ hc) (by decide)⟩

theorem hexValue_inj (s : Str) : ∀ (t : Str) (a b : Nat), s.length = t.length → (∀ c ∈ s, c ∈ hexDigits) → (∀ c ∈ t, c ∈ hexDigits) →
    s.foldl (fun a c => 16 * a + hexDigits.idxOf c) a = t.foldl (fun a c => 16 * a + hexDigits.idxOf c) b → a = b ∧ s = t := by
  induction s with
  | nil =>
    intro t a b hl _ _ h
    cases t with
    | nil => exact ⟨h, rfl⟩
    | cons => simp at hl
  | cons c s ih =>
    intro t a b hl hs ht h
    cases t with
    | nil => simp at hl
    | cons c' t =>
      rw [List.foldl_cons, List.foldl_cons] at h
      obtain ⟨h1, h2⟩ := ih t _ _ (by simpa using hl) (fun x hx => hs x (by simp [hx])) (fun x hx => ht x (by simp [hx])) h
      have hc := List.idxOf_lt_length_of_mem (hs c (by simp))
      have hc' := List.idxOf_lt_length_of_mem (ht c' (by simp))
      have hlen : hexDigits.length = 16 := by decide +kernel
      rw [hlen] at hc hc'
      have h3 : a = b := by omega
      have h4 : hexDigits.idxOf c = hexDigits.idxOf c' := by omega
      have h5 : c = c' := by
        have e1 : hexDigits[hexDigits.idxOf c]'(by omega) = c := List.getElem_idxOf (by omega)
        have e2 : hexDigits[hexDigits.idxOf c']'(by omega) = c' := List.getElem_idxOf (by omega)
        refine e1.symm.trans (Eq.trans ?_ e2)
        simp only [h4]
      exact ⟨h3, by rw [h5, h2]⟩

theorem Spec.Hex16.unique {s t : Str} {n : Nat} (h : Hex16 s n) (h' : Hex16 t n) : s = t :=
  (hexValue_inj s t 0 0 (by rw [h.length, h'.length]) h.digits h'.digits (by
    have := h.value.trans h'.value.symm
    exact this)).2

end Cdtb
