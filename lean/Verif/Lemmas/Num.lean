import Verif.Py.Str
import Mathlib.Tactic.IntervalCases
import Mathlib.Tactic.Ring
/-! Lemmas about printing and parsing numbers. -/
namespace Cdtb
set_option autoImplicit false
namespace Py

theorem digitChar_lt : ∀ d < 36, ((48 ≤ (digitChar d).toNat ∧ (digitChar d).toNat ≤ 57 ∧ (digitChar d).toNat - 48 = d) ∨
    (97 ≤ (digitChar d).toNat ∧ (digitChar d).toNat ≤ 122 ∧ (digitChar d).toNat - 87 = d)) := by decide +kernel

theorem digitVal_digitChar {b d : Nat} (hd : d < b) (hb : b ≤ 36) : digitVal b (digitChar d) = some d := by
  have := digitChar_lt d (by omega)
  unfold digitVal
  rcases this with ⟨h1, h2, h3⟩ | ⟨h1, h2, h3⟩
  · simp [h1, h2, h3, hd]
  · have : ¬ ((digitChar d).toNat ≤ 57) := by omega
    simp [h1, h2, h3, hd, this]

theorem digitChar_props : ∀ d < 36, digitChar d ≠ '_' ∧ digitChar d ≠ '-' ∧ digitChar d ≠ '+' ∧
    isSpace (digitChar d) = false ∧ digitChar d ≠ '.' ∧ digitChar d ≠ '/' ∧ digitChar d ≠ ' ' ∧ digitChar d ≠ '\n'
     ∧ digitChar d ≠ ',' ∧ digitChar d ≠ '\r' := by
  decide +kernel

theorem digitChar_inj {d e : Nat} (hd : d < 36) (he : e < 36) (h : digitChar d = digitChar e) : d = e := by
  have h1 := digitVal_digitChar hd (le_refl 36)
  have h2 := digitVal_digitChar he (le_refl 36)
  rw [h, h2] at h1; exact (Option.some.inj h1).symm

/-- Every digit is below the base. -/
theorem digitsRev_lt {b : Nat} (hb : 0 < b) : ∀ fuel n, ∀ d ∈ digitsRev b fuel n, d < b
  | 0, _ => by simp [digitsRev]
  | fuel + 1, n => by
    unfold digitsRev
    split
    · simpa using ‹_›
    · intro d hd
      rcases List.mem_cons.1 hd with rfl | hd
      · exact Nat.mod_lt _ hb
      · exact digitsRev_lt hb fuel _ d hd

theorem digitsRev_ne_nil (b n fuel : Nat) : digitsRev b (fuel + 1) n ≠ [] := by
  unfold digitsRev; split <;> simp

/-- The digits, most significant first, denote `n`. -/
theorem digitsRev_val {b : Nat} (hb : 2 ≤ b) : ∀ fuel n acc, n < fuel →
    (digitsRev b fuel n).reverse.foldl (fun a d => a * b + d) acc
      = acc * b ^ (digitsRev b fuel n).length + n
  | 0, n, acc, h => by omega
  | fuel + 1, n, acc, h => by
    unfold digitsRev
    split
    · simp
    · have hlt : n / b < fuel := by
        have : n / b < n := Nat.div_lt_self (by omega) (by omega)
        omega
      simp only [List.reverse_cons, List.foldl_append, List.foldl_cons, List.foldl_nil,
        List.length_cons]
      rw [digitsRev_val hb fuel (n / b) acc hlt, pow_succ]
      have := Nat.div_add_mod n b
      calc _ = acc * (b ^ (digitsRev b fuel (n / b)).length * b) + (b * (n / b) + n % b) := by ring
        _ = _ := by rw [this]

/-- The most significant digit is non zero except for `0`; length bound. -/
theorem digitsRev_length {b : Nat} (hb : 2 ≤ b) : ∀ fuel n w, n < fuel → n < b ^ (w + 1) →
    (digitsRev b fuel n).length ≤ w + 1
  | 0, n, w, h, _ => by omega
  | fuel + 1, n, w, h, hw => by
    unfold digitsRev
    split
    · simp
    · cases w with
      | zero => simp at hw; omega
      | succ w =>
        have hlt : n / b < fuel := by
          have : n / b < n := Nat.div_lt_self (by omega) (by omega)
          omega
        have : n / b < b ^ (w + 1) := by
          rw [Nat.div_lt_iff_lt_mul (by omega)]; rwa [pow_succ] at hw
        simpa using digitsRev_length hb fuel _ w hlt this

theorem digitsGo_digits {b : Nat} (hb : b ≤ 36) (rest : Str) : ∀ (ds : List Nat) acc prev,
    (∀ d ∈ ds, d < b) → (prev = true ∨ ds ≠ []) →
    digitsGo b acc prev (ds.map digitChar ++ rest) = digitsGo b (ds.foldl (fun a d => a * b + d) acc) true rest
  | [], acc, prev, _, h => by
    rcases h with rfl | h
    · simp
    · exact absurd rfl h
  | d :: ds, acc, prev, hd, _ => by
    have h1 : d < b := hd d (by simp)
    have h2 := (digitChar_props d (by omega)).1
    simp only [List.map_cons, List.cons_append, digitsGo, h2, if_false, digitVal_digitChar h1 hb,
      List.foldl_cons]
    exact digitsGo_digits hb rest ds _ true (fun x hx => hd x (by simp [hx])) (Or.inl rfl)

theorem showNat_eq (b n : Nat) : showNat b n = ((digitsRev b (n + 1) n).reverse).map digitChar := by
  simp [showNat]

theorem digitsGo_showNat {b : Nat} (hb : 2 ≤ b) (hb' : b ≤ 36) (n acc : Nat) (prev : Bool) (rest : Str) :
    digitsGo b acc prev (showNat b n ++ rest) =
      digitsGo b (acc * b ^ (showNat b n).length + n) true rest := by
  rw [showNat_eq, digitsGo_digits hb' rest _ acc prev, digitsRev_val hb _ _ _ (Nat.lt_succ_self n)]
  · simp
  · intro d hd; exact digitsRev_lt (by omega) _ _ d (by simpa using hd)
  · right; simpa using digitsRev_ne_nil b n n

theorem digitsGo_showNat' {b : Nat} (hb : 2 ≤ b) (hb' : b ≤ 36) (n : Nat) :
    digitsGo b 0 false (showNat b n) = some n := by
  have := digitsGo_showNat hb hb' n 0 false []
  simpa [digitsGo] using this

theorem showNat_mem {b n : Nat} (hb : 2 ≤ b) (hb' : b ≤ 36) {c : Char} (h : c ∈ showNat b n) :
    ∃ d < b, c = digitChar d := by
  rw [showNat_eq] at h
  obtain ⟨d, hd, rfl⟩ := List.mem_map.1 h
  exact ⟨d, digitsRev_lt (by omega) _ _ d (by simpa using hd), rfl⟩

theorem showNat_ne_nil (b n : Nat) : showNat b n ≠ [] := by
  rw [showNat_eq]; simpa using digitsRev_ne_nil b n n

theorem showNat_length_le {b n w : Nat} (hb : 2 ≤ b) (h : n < b ^ (w + 1)) : (showNat b n).length ≤ w + 1 := by
  rw [showNat_eq]; simpa using digitsRev_length hb _ _ _ (Nat.lt_succ_self n) h

theorem showNat_inj {b n m : Nat} (hb : 2 ≤ b) (hb' : b ≤ 36) (h : showNat b n = showNat b m) : n = m := by
  have h1 := digitsGo_showNat' hb hb' n
  rw [h, digitsGo_showNat' hb hb' m] at h1
  exact (Option.some.inj h1).symm

/-! ### strip -/

theorem dropWhile_eq_self {α} {p : α → Bool} {l : List α} (h : ∀ x ∈ l, p x = false) : l.dropWhile p = l := by
  cases l with
  | nil => rfl
  | cons x xs => simp [List.dropWhile, h x (by simp)]

theorem strip_eq_self {s : Str} (h : ∀ c ∈ s, isSpace c = false) : strip s = s := by
  unfold strip
  rw [dropWhile_eq_self h, dropWhile_eq_self (by simpa using h)]; simp

theorem int10_showNat (n : Nat) : int10 (showNat 10 n) = some (n : Int) := by
  have hmem : ∀ c ∈ showNat 10 n, isSpace c = false ∧ c ≠ '-' ∧ c ≠ '+' := by
    intro c hc
    obtain ⟨d, hd, rfl⟩ := showNat_mem (by omega) (by omega) hc
    have := digitChar_props d (by omega)
    exact ⟨this.2.2.2.1, this.2.1, this.2.2.1⟩
  unfold int10
  rw [strip_eq_self (fun c hc => (hmem c hc).1)]
  cases hs : showNat 10 n with
  | nil => exact absurd hs (showNat_ne_nil _ _)
  | cons c cs =>
    have := hmem c (by simp [hs])
    split
    · simp_all
    · simp_all
    · rw [← hs, digitsGo_showNat' (by omega) (by omega)]; rfl

theorem int10_showInt (n : Int) : int10 (showInt n) = some n := by
  unfold showInt
  split
  · have hmem : ∀ c ∈ '-' :: showNat 10 n.natAbs, isSpace c = false := by
      intro c hc
      rcases List.mem_cons.1 hc with rfl | hc
      · decide
      · obtain ⟨d, hd, rfl⟩ := showNat_mem (by omega) (by omega) hc
        exact (digitChar_props d (by omega)).2.2.2.1
    unfold int10
    rw [strip_eq_self hmem]
    simp only [digitsGo_showNat' (b := 10) (by omega) (by omega)]
    show some (-(n.natAbs : Int)) = some n
    congr 1; omega
  · rw [int10_showNat]; congr 1; omega

theorem showInt_inj {n m : Int} (h : showInt n = showInt m) : n = m := by
  have h1 := int10_showInt n
  rw [h, int10_showInt m] at h1
  exact (Option.some.inj h1).symm

theorem showInt_ne_nil (n : Int) : showInt n ≠ [] := by
  unfold showInt; split
  · simp
  · exact showNat_ne_nil _ _

theorem showInt_no_dot {n : Int} {c : Char} (h : c ∈ showInt n) : c ≠ '.' ∧ isSpace c = false := by
  unfold showInt at h
  split at h
  · rcases List.mem_cons.1 h with rfl | h
    · decide
    · obtain ⟨d, hd, rfl⟩ := showNat_mem (by omega) (by omega) h
      have := digitChar_props d (by omega); tauto
  · obtain ⟨d, hd, rfl⟩ := showNat_mem (by omega) (by omega) h
    have := digitChar_props d (by omega); tauto

/-! ### hex -/

theorem digitChar_zero : digitChar 0 = '0' := by decide

theorem zpad_digits (w n : Nat) : hexW w n =
    (List.replicate (w - (showNat 16 n).length) 0 ++ (digitsRev 16 (n+1) n).reverse).map digitChar := by
  simp [hexW, zpad, showNat_eq, digitChar_zero]

theorem foldl_replicate_zero (b k : Nat) : (List.replicate k 0).foldl (fun a d => a * b + d) 0 = 0 := by
  induction k with
  | zero => rfl
  | succ k ih => simpa [List.replicate_succ] using ih

theorem digitsGo_hexW (w n : Nat) (rest : Str) :
    digitsGo 16 0 false (hexW w n ++ rest) = digitsGo 16 n true rest := by
  rw [zpad_digits, digitsGo_digits (by omega)]
  · rw [List.foldl_append, foldl_replicate_zero, digitsRev_val (by omega) _ _ _ (Nat.lt_succ_self n)]; simp
  · intro d hd
    rcases List.mem_append.1 hd with hd | hd
    · have := List.eq_of_mem_replicate hd; omega
    · exact digitsRev_lt (by omega) _ _ d (by simpa using hd)
  · right; simp [digitsRev_ne_nil]

theorem hexW_mem {w n : Nat} {c : Char} (h : c ∈ hexW w n) : ∃ d < 16, c = digitChar d := by
  rw [zpad_digits] at h
  obtain ⟨d, hd, rfl⟩ := List.mem_map.1 h
  refine ⟨d, ?_, rfl⟩
  rcases List.mem_append.1 hd with hd | hd
  · have := List.eq_of_mem_replicate hd; omega
  · exact digitsRev_lt (by omega) _ _ d (by simpa using hd)

theorem hexW_length {w n : Nat} (h : n < 16 ^ (w + 1)) : (hexW (w + 1) n).length = w + 1 := by
  have := showNat_length_le (b := 16) (by omega) h
  simp [hexW, zpad]; omega

theorem hexW_inj {w n m : Nat} (h : hexW w n = hexW w m) : n = m := by
  have h1 := digitsGo_hexW w n []
  rw [h, digitsGo_hexW w m []] at h1
  simpa [digitsGo] using h1.symm

theorem dropHexPrefix_of_no_x {s : Str} (h : ∀ c ∈ s, c ≠ 'x' ∧ c ≠ 'X') : dropHexPrefix s = s := by
  unfold dropHexPrefix
  split <;> simp_all

theorem digitChar_hex_props : ∀ d < 16, digitChar d ≠ 'x' ∧ digitChar d ≠ 'X' := by decide +kernel

theorem int16_hexW (w n : Nat) : int16 (hexW w n) = some (n : Int) := by
  have hmem : ∀ c ∈ hexW w n, (isSpace c = false ∧ c ≠ '-' ∧ c ≠ '+') ∧ c ≠ 'x' ∧ c ≠ 'X' := by
    intro c hc
    obtain ⟨d, hd, rfl⟩ := hexW_mem hc
    have := digitChar_props d (by omega)
    exact ⟨⟨this.2.2.2.1, this.2.1, this.2.2.1⟩, digitChar_hex_props d hd⟩
  have hne : hexW w n ≠ [] := by rw [zpad_digits]; simp [digitsRev_ne_nil]
  unfold int16
  rw [strip_eq_self (fun c hc => (hmem c hc).1.1)]
  cases hs : hexW w n with
  | nil => exact absurd hs hne
  | cons c cs =>
    have := hmem c (by simp [hs])
    split
    · simp_all
    · simp_all
    · rw [← hs, dropHexPrefix_of_no_x (fun c hc => (hmem c hc).2)]
      have := digitsGo_hexW w n []
      rw [List.append_nil] at this
      rw [this]; rfl

end Py
end Cdtb
