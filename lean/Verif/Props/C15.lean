import Verif.Model.Wad
import Verif.Spec.Magic
import Mathlib.Tactic.ByContra
import Mathlib.Data.List.Infix
/-!
# C15 Guessing extensions
-/
namespace Cdtb
set_option autoImplicit false
open Py Spec

/-- First match priority. -/
theorem firstMatch_spec (data : Bytes) : ∀ (t : List (Matcher × Str)) (e : Str),
    firstMatch data t = some e ↔
      ∃ (i : Nat) (m : Matcher), t[i]? = some (m, e) ∧ m.matches data = true ∧
        ∀ (j : Nat) (m' : Matcher) (e' : Str), j < i → t[j]? = some (m', e') → m'.matches data = false
  | [], e => by simp [firstMatch]
  | (m, ext) :: r, e => by
    unfold firstMatch
    constructor
    · intro h
      split at h
      · rename_i hm
        cases h
        exact ⟨0, m, rfl, hm, by intro j m' e' hj; omega⟩
      · rename_i hm
        obtain ⟨i, m', h1, h2, h3⟩ := (firstMatch_spec data r e).1 h
        refine ⟨i + 1, m', by simpa using h1, h2, ?_⟩
        intro j m'' e'' hj hj'
        cases j with
        | zero =>
          simp only [List.getElem?_cons_zero, Option.some.injEq, Prod.mk.injEq] at hj'
          rw [← hj'.1]; simpa using hm
        | succ j => exact h3 j m'' e'' (by omega) (by simpa using hj')
    · rintro ⟨i, m', h1, h2, h3⟩
      cases i with
      | zero =>
        simp only [List.getElem?_cons_zero, Option.some.injEq, Prod.mk.injEq] at h1
        rw [h1.1, if_pos h2, h1.2]
      | succ i =>
        have := h3 0 m ext (by omega) rfl
        rw [if_neg (by simp [this])]
        exact (firstMatch_spec data r e).2 ⟨i, m', by simpa using h1, h2, fun j m'' e'' hj hj' =>
          h3 (j + 1) m'' e'' (by omega) (by simpa using hj')⟩

theorem firstMatch_none (data : Bytes) : ∀ (t : List (Matcher × Str)),
    firstMatch data t = none ↔ ∀ me ∈ t, me.1.matches data = false
  | [] => by simp [firstMatch]
  | (m, ext) :: r => by
    unfold firstMatch
    by_cases h : m.matches data = true
    · rw [if_pos h]
      simp [h]
    · rw [if_neg h, firstMatch_none data r]
      simp [h]

/-- The signatures of the table are those of the specification. -/
def tableSigs : List (Bytes × Str) := magicTable.filterMap fun me => match me.1 with
  | .sig b => some (b, me.2)
  | .jfif => none

theorem tableSigs_spec : (∀ be ∈ tableSigs, ∃ s ∈ signatures, be.1 ∈ s.2 ∧ be.2 = s.1.toList) ∧
    (∀ s ∈ signatures, ∀ b ∈ s.2, (Matcher.sig b, s.1.toList) ∈ magicTable) := by
  constructor <;> decide +kernel

theorem signature_mem {b : Bytes} {ext : Str} (h : Signature b ext) : (Matcher.sig b, ext) ∈ magicTable := by
  obtain ⟨e, bs, h1, h2, rfl⟩ := h
  exact tableSigs_spec.2 (e, bs) h1 b h2

theorem mem_signature {b : Bytes} {ext : Str} (h : (Matcher.sig b, ext) ∈ magicTable) : Signature b ext := by
  have : (b, ext) ∈ tableSigs := List.mem_filterMap.2 ⟨_, h, rfl⟩
  obtain ⟨s, h1, h2, h3⟩ := tableSigs_spec.1 _ this
  exact ⟨s.1, s.2, h1, h2, h3⟩

theorem jfif_ext {m : Matcher} {e : Str} (h : (m, e) ∈ magicTable) (hm : m = .jfif) : e = "jpg".toList := by
  have : ∀ me ∈ magicTable, me.1 = Matcher.jfif → me.2 = "jpg".toList := by decide +kernel
  exact this _ h hm

theorem jfif_mem : (Matcher.jfif, "jpg".toList) ∈ magicTable := by decide +kernel

theorem jfif_matches (data : Bytes) : Matcher.jfif.matches data = true ↔ JpegMarker data := by
  unfold Matcher.matches JpegMarker
  simp only [List.drop_take, Bool.or_eq_true, decide_eq_true_eq]
  rfl

theorem sig_matches (b data : Bytes) : (Matcher.sig b).matches data = true ↔ b <+: data := by
  unfold Matcher.matches
  exact List.isPrefixOf_iff_prefix

/-- Order of the table: of two signatures with different extensions, one being a prefix of the other, the
longer one comes first. -/
theorem table_order : ∀ i < magicTable.length, ∀ j < i, ∀ b b' e e',
    magicTable[i]? = some (.sig b, e) → magicTable[j]? = some (.sig b', e') → b' <+: b → b' = b := by
  have key : ∀ i < magicTable.length, ∀ j < i, (match magicTable[i]?, magicTable[j]? with
      | some (.sig b, _), some (.sig b', _) => !b'.isPrefixOf b || decide (b' = b)
      | _, _ => true) = true := by decide +kernel
  intro i hi j hj b b' e e' h1 h2 hp
  have := key i hi j hj
  rw [h1, h2] at this
  simp only [List.isPrefixOf_iff_prefix.2 hp, Bool.not_true, Bool.false_or, decide_eq_true_eq] at this
  exact this

/-- The extension is the one of the longest signature the data starts with, whatever follows it (unless
bytes 6-9 are `JFIF` or `Exif`). -/
theorem C15_longest (cx : Codecs) (data b : Bytes) (ext : Str) (hs : Signature b ext) (hb : b <+: data)
    (hlong : ∀ b' ext', Signature b' ext' → b' <+: data → b'.length ≤ b.length) (hj : ¬ JpegMarker data) :
    guessExtension cx data = some ext := by
  have hmem := signature_mem hs
  have : firstMatch data magicTable ≠ none := by
    intro h
    have := (firstMatch_none data magicTable).1 h _ hmem
    rw [(sig_matches b data).2 hb] at this
    cases this
  obtain ⟨e, he⟩ := Option.ne_none_iff_exists'.1 this
  obtain ⟨i, m, h1, h2, h3⟩ := (firstMatch_spec data magicTable e).1 he
  have hunique : ∀ be ∈ tableSigs, ∀ be' ∈ tableSigs, be.1 = be'.1 → be.2 = be'.2 := by decide +kernel
  unfold guessExtension
  rw [he]
  simp only [Option.some.injEq]
  cases m with
  | jfif => exact absurd ((jfif_matches data).1 h2) hj
  | sig b' =>
    have hb' := (sig_matches b' data).1 h2
    have hm' := List.mem_of_getElem? h1
    have hlen := hlong b' e (mem_signature hm') hb'
    have hpre : b' <+: b := List.prefix_of_prefix_length_le hb' hb hlen
    obtain ⟨k, hk⟩ := List.mem_iff_getElem?.1 hmem
    have hbb : b' = b := by
      rcases Nat.lt_trichotomy i k with h | h | h
      · have hk' : k < magicTable.length := by
          by_contra hc; rw [List.getElem?_eq_none (by omega)] at hk; cases hk
        exact table_order k hk' i h b b' ext e hk h1 hpre
      · subst h; rw [h1] at hk; cases hk; rfl
      · have := h3 k _ _ h hk
        rw [(sig_matches b data).2 hb] at this; cases this
    subst hbb
    exact hunique (b', e) (List.mem_filterMap.2 ⟨_, hm', rfl⟩) (b', ext) (List.mem_filterMap.2 ⟨_, hmem, rfl⟩) rfl

/-- For every signature but `r3d2` (which starts longer ones), this is whatever follows. -/
theorem C15_signature (cx : Codecs) (b rest : Bytes) (ext : Str) (hs : Signature b ext) (hne : ext ≠ "wpk".toList)
    (hj : ¬ JpegMarker (b ++ rest)) : guessExtension cx (b ++ rest) = some ext := by
  refine C15_longest cx (b ++ rest) b ext hs (List.prefix_append _ _) ?_ hj
  intro b' ext' hs' hb'
  by_contra hlen
  have hpre : b <+: b' := List.prefix_of_prefix_length_le (List.prefix_append _ _) hb' (by omega)
  have key : ∀ be ∈ tableSigs, ∀ be' ∈ tableSigs, be.2 ≠ "wpk".toList → be.1.isPrefixOf be'.1 = true →
      be'.1.length ≤ be.1.length := by decide +kernel
  have := key (b, ext) (List.mem_filterMap.2 ⟨_, signature_mem hs, rfl⟩) (b', ext')
    (List.mem_filterMap.2 ⟨_, signature_mem hs', rfl⟩) hne (List.isPrefixOf_iff_prefix.2 hpre)
  exact hlen this

/-- JPEG markers: such data is a JPEG, unless it starts with another signature. -/
theorem C15_jpeg (cx : Codecs) (data : Bytes) (hj : JpegMarker data)
    (hn : ∀ b ext, Signature b ext → b <+: data → ext = "jpg".toList) : guessExtension cx data = some "jpg".toList := by
  have hm : firstMatch data magicTable ≠ none := by
    intro h
    have := (firstMatch_none data magicTable).1 h _ jfif_mem
    rw [(jfif_matches data).2 hj] at this
    cases this
  obtain ⟨e, he⟩ := Option.ne_none_iff_exists'.1 hm
  obtain ⟨i, m, h1, h2, -⟩ := (firstMatch_spec data magicTable e).1 he
  unfold guessExtension
  rw [he]
  simp only [Option.some.injEq]
  have hmem := List.mem_of_getElem? h1
  cases m with
  | jfif => exact jfif_ext hmem rfl
  | sig b => exact hn b e (mem_signature hmem) ((sig_matches b data).1 h2)

/-- Data without signature nor marker is JSON when it parses as JSON, and unknown otherwise. -/
theorem C15_other (cx : Codecs) (data : Bytes) (hj : ¬ JpegMarker data)
    (hn : ∀ b ext, Signature b ext → ¬ b <+: data) :
    guessExtension cx data = if cx.isJson data then some "json".toList else none := by
  have : firstMatch data magicTable = none := by
    rw [firstMatch_none]
    rintro ⟨m, e⟩ hmem
    cases m with
    | jfif =>
      by_contra h
      exact hj ((jfif_matches data).1 (by simpa using h))
    | sig b =>
      by_contra h
      exact hn b e (mem_signature hmem) ((sig_matches b data).1 (by simpa using h))
  unfold guessExtension
  rw [this]

/-- Every signature is reachable: the data made of the signature alone gets its extension. -/
theorem C15_reachable (cx : Codecs) (b : Bytes) (ext : Str) (hs : Signature b ext) :
    guessExtension cx b = some ext := by
  have key : ∀ be ∈ tableSigs, firstMatch be.1 magicTable = some be.2 := by decide +kernel
  have := key (b, ext) (List.mem_filterMap.2 ⟨_, signature_mem hs, rfl⟩)
  unfold guessExtension
  rw [this]

/-- Non-vacuity -/
example (cx : Codecs) (rest : Bytes) :
    guessExtension cx (ascii "PROP" ++ [0, 0, 0, 0] ++ rest) = some "bin".toList ∧
    guessExtension cx (ascii "r3d2Mesh" ++ ascii "xy" ++ rest) = some "scb".toList := by
  constructor
  · rw [List.append_assoc]
    refine C15_signature cx (ascii "PROP") _ _ ⟨"bin", [ascii "PROP", ascii "PTCH"], by decide +kernel, List.mem_cons_self .., rfl⟩ (by decide) ?_
    unfold JpegMarker
    rintro (h | h)
    · have := congrArg List.head? h
      rw [show (ascii "PROP" ++ ([0, 0, 0, 0] ++ rest)) = [80, 82, 79, 80, 0, 0] ++ (0 :: 0 :: rest) by rfl] at this
      simp [ascii] at this
    · have := congrArg List.head? h
      rw [show (ascii "PROP" ++ ([0, 0, 0, 0] ++ rest)) = [80, 82, 79, 80, 0, 0] ++ (0 :: 0 :: rest) by rfl] at this
      simp [ascii] at this
  · rw [List.append_assoc]
    refine C15_signature cx (ascii "r3d2Mesh") _ _ ⟨"scb", [ascii "r3d2Mesh"], by decide +kernel, List.mem_cons_self .., rfl⟩ (by decide) ?_
    unfold JpegMarker
    rw [show (ascii "r3d2Mesh" ++ (ascii "xy" ++ rest)) = [114, 51, 100, 50, 77, 101] ++ (115 :: 104 :: 120 :: 121 :: rest) by rfl]
    rintro (h | h) <;> simp [ascii] at h

/-! ## Cases that meet the hypotheses -/

/-- `C15_jpeg` and `C15_other` -/
example (cx : Codecs) (hj : cx.isJson [0x7b, 0x7d] = true) :
    guessExtension cx ([1, 2, 3, 4, 5, 6] ++ ascii "JFIF") = some "jpg".toList ∧ guessExtension cx [0x7b, 0x7d] = some "json".toList := by
  constructor
  · refine C15_jpeg cx _ (Or.inl (by decide +kernel)) ?_
    rintro b ext ⟨e, bs, h1, h2, rfl⟩ hb
    have : ∀ x ∈ signatures, ∀ b ∈ x.2, b <+: [1, 2, 3, 4, 5, 6] ++ ascii "JFIF" → x.1.toList = "jpg".toList := by decide +kernel
    exact this _ h1 b h2 hb
  · rw [C15_other cx, if_pos hj]
    · rintro (h | h) <;> exact absurd h (by decide +kernel)
    · rintro b ext ⟨e, bs, h1, h2, rfl⟩ hb
      have : ∀ x ∈ signatures, ∀ b ∈ x.2, ¬ b <+: [0x7b, 0x7d] := by decide +kernel
      exact this _ h1 b h2 hb

end Cdtb
