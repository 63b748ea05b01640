import Verif.Model.Tex
import Verif.Spec.Tex
import Verif.Lemmas.Struct
/-!
# C31 TEX to DDS conversion keeps dimensions and the largest mipmap
-/
namespace Cdtb
set_option autoImplicit false
open Spec

theorem word_at {pre b post : Bytes} {n off : Nat} (ho : pre.length = off) (hn : n < 256 ^ 4) (hb : b = le 4 n) :
    word (pre ++ b ++ post) off = n := by
  subst hb
  unfold word
  rw [List.append_assoc, ← ho, List.drop_left, List.take_left' (by simp), leNat_le _ _ hn]

theorem le2 (n : Nat) : ∃ a b, le 2 n = [a, b] ∧ leNat [a, b] = n % 65536 := by
  refine ⟨UInt8.ofNat (n % 256), UInt8.ofNat (n / 256 % 256), rfl, ?_⟩
  simp [leNat]; omega

theorem le1 (n : Nat) : ∃ a, le 1 n = [a] ∧ leNat [a] = n % 256 := by
  refine ⟨UInt8.ofNat (n % 256), rfl, ?_⟩
  simp [leNat]

/-- The bytes of the header -/
def ddsHeader (f : TexFmt) (width height : Nat) : Bytes :=
  match texFormat f.code with
  | none => []
  | some (ddspf, dx10) =>
    fourDDS ++ le 4 124 ++ le 4 0x1007 ++ le 4 height ++ le 4 width ++ List.replicate 56 0 ++ ddspf ++ le 4 0x1000 ++ List.replicate 16 0 ++ dx10

theorem texToDds_file (width height : Nat) (hw : width < 65536) (hh : height < 65536) (u1 u2 m : UInt8) (body : Bytes) (f : TexFmt) :
    texToDds (texFile width height u1 f.code u2 m body) =
      (texPixels (texFile width height u1 f.code u2 m body) width height f.code (decide (m ≠ 0))).map
        (fun p => ddsHeader f width height ++ p) := by
  obtain ⟨a, b, h1, h1'⟩ := le2 width
  obtain ⟨c, d, h2, h2'⟩ := le2 height
  obtain ⟨e, h3, h3'⟩ := le1 f.code
  rw [Nat.mod_eq_of_lt hw] at h1'
  rw [Nat.mod_eq_of_lt hh] at h2'
  have hfc : f.code % 256 = f.code := by cases f <;> rfl
  rw [hfc] at h3'
  have hfile : texFile width height u1 f.code u2 m body = 0x54 :: 0x45 :: 0x58 :: 0x00 :: a :: b :: c :: d :: u1 :: e :: u2 :: m :: body := by
    unfold texFile; rw [h1, h2, h3]; rfl
  have hm : decide (leNat [m] ≠ 0) = decide (m ≠ 0) := by
    rw [decide_eq_decide]
    simp only [leNat, Nat.mul_zero, Nat.add_zero, ne_eq, ← UInt8.toNat_inj]
    rfl
  unfold texToDds
  rw [hfile, if_neg (by simp)]
  simp only [List.drop_succ_cons, List.drop_zero, List.take_succ_cons, List.take_zero, h1', h2', h3', hm]
  rw [ddsHeader.eq_def]
  generalize texPixels _ width height f.code _ = p
  have hsome : ∃ x, texFormat f.code = some x := by cases f <;> exact ⟨_, rfl⟩
  obtain ⟨⟨x, y⟩, hx⟩ := hsome
  rw [hx]
  rcases p with e | p
  · rfl
  · simp only [bind, Except.bind, pure, Except.pure, Except.map]

theorem word_left {pre p : Bytes} {off : Nat} (h : off + 4 ≤ pre.length) : word (pre ++ p) off = word pre off := by
  unfold word
  rw [List.drop_append_of_le_length (by omega), List.take_append_of_le_length (by rw [List.length_drop]; omega)]

theorem word_right {pre p : Bytes} {off : Nat} (h : pre.length ≤ off) : word (pre ++ p) off = word p (off - pre.length) := by
  unfold word
  rw [List.drop_append, List.drop_eq_nil_of_le h, List.nil_append]

/-- The header after the dimensions -/
def ddsTail (f : TexFmt) : Bytes :=
  match texFormat f.code with
  | none => []
  | some (ddspf, dx10) => List.replicate 56 0 ++ ddspf ++ le 4 0x1000 ++ List.replicate 16 0 ++ dx10

theorem ddsHeader_eq (f : TexFmt) (width height : Nat) :
    ddsHeader f width height = (fourDDS ++ le 4 124 ++ le 4 0x1007) ++ (le 4 height ++ (le 4 width ++ ddsTail f)) := by
  unfold ddsHeader ddsTail
  cases f <;> simp [texFormat, TexFmt.code]

theorem ddsTail_length (f : TexFmt) : (ddsTail f).length + 20 = f.headerSize := by cases f <;> decide +kernel

theorem isDds_header (f : TexFmt) (width height : Nat) (hw : width < 65536) (hh : height < 65536) (p : Bytes) :
    IsDds (ddsHeader f width height ++ p) f width height p := by
  have hlen : (ddsHeader f width height).length = f.headerSize := by
    rw [ddsHeader_eq, ← ddsTail_length f]
    simp [fourDDS]; omega
  have hsize := ddsTail_length f
  have h128 : 128 ≤ f.headerSize := by cases f <;> decide
  have hleft : ∀ off, off + 4 ≤ f.headerSize → word (ddsHeader f width height ++ p) off = word (ddsHeader f width height) off :=
    fun off h => word_left (by rw [hlen]; exact h)
  have hA : (fourDDS ++ le 4 124 ++ le 4 0x1007).length = 12 := rfl
  have h0 : ∀ off, off + 4 ≤ 12 → word (ddsHeader f width height ++ p) off = word (fourDDS ++ le 4 124 ++ le 4 0x1007) off := by
    intro off h
    rw [hleft off (by omega), ddsHeader_eq, word_left (by rw [hA]; exact h)]
  have hT : ∀ off, 20 ≤ off → off + 4 ≤ f.headerSize → word (ddsHeader f width height ++ p) off = word (ddsTail f) (off - 20) := by
    intro off h h'
    rw [hleft off h', ddsHeader_eq, word_right (by rw [hA]; omega), hA, word_right (by rw [le_length]; omega), le_length,
      word_right (by rw [le_length]; omega), le_length]
    congr 1
  refine ⟨?_, ?_, ?_, ?_, ?_, ?_, ?_, ?_, ?_, ?_, ?_, ?_⟩
  · rw [← hlen, List.drop_left]
  · rw [List.length_append, hlen]
  · rw [h0 0 (by omega)]; decide +kernel
  · rw [h0 4 (by omega)]; decide +kernel
  · rw [h0 8 (by omega)]; decide +kernel
  · rw [hleft 12 (by omega), ddsHeader_eq, word_right (by rw [hA]), hA]
    exact word_at (pre := []) rfl (by omega) rfl
  · rw [hleft 16 (by omega), ddsHeader_eq, word_right (by rw [hA]; omega), hA, word_right (by rw [le_length]), le_length]
    exact word_at (pre := []) rfl (by omega) rfl
  · rw [hT 28 (by omega) (by omega)]; cases f <;> decide +kernel
  · rw [hT 76 (by omega) (by omega)]; cases f <;> decide +kernel
  · cases f <;> simp only [DdsFormat] <;> (try simp only [hT 80 (by omega) (by omega), hT 84 (by omega) (by omega), hT 88 (by omega) (by omega), hT 92 (by omega) (by omega), hT 96 (by omega) (by omega), hT 100 (by omega) (by omega), hT 104 (by omega) (by omega)]) <;>
      (try rw [hT 128 (by omega) (by decide)]) <;> decide +kernel
  · rw [hT 108 (by omega) (by omega)]; cases f <;> decide +kernel
  · intro h
    rw [hT 132 (by omega) (by omega), hT 140 (by omega) (by omega)]
    cases f <;> first | exact absurd h (by decide) | decide +kernel

/-- A file without mipmaps: the DDS file has the same dimensions, format and pixels. -/
theorem C31_image (width height : Nat) (hw : width < 65536) (hh : height < 65536) (u1 u2 : UInt8) (pixels : Bytes) (f : TexFmt) :
    ∃ dds, texToDds (texFile width height u1 f.code u2 0 pixels) = .ok dds ∧ IsDds dds f width height pixels := by
  refine ⟨ddsHeader f width height ++ pixels, ?_, isDds_header f width height hw hh pixels⟩
  rw [texToDds_file width height hw hh]
  obtain ⟨a, b, h1, h1'⟩ := le2 width
  obtain ⟨c, d, h2, h2'⟩ := le2 height
  obtain ⟨e, h3, h3'⟩ := le1 f.code
  unfold texFile texPixels
  rw [h1, h2, h3]
  rfl

theorem blocks_eq (n : Nat) : (n + 4 - 1) / 4 = if n % 4 = 0 then n / 4 else n / 4 + 1 := by
  split <;> omega

theorem texBlock_size (f : TexFmt) (hf : f ≠ .rgba16) (width height : Nat) :
    ∃ s b, texBlock f.code = some (s, b) ∧ b * ((width + s - 1) / s) * ((height + s - 1) / s) = f.imageSize width height := by
  cases f
  case rgba16 => exact absurd rfl hf
  case bgra8 =>
    refine ⟨1, 4, rfl, ?_⟩
    simp only [TexFmt.imageSize, Nat.add_sub_cancel, Nat.div_one, Nat.mul_assoc]
  all_goals
    refine ⟨4, _, rfl, ?_⟩
    simp only [TexFmt.imageSize, blocks_eq, Nat.mul_assoc]

/-- A file with mipmaps: the DDS file has the pixels of the largest one. -/
theorem C31_mipmaps (width height : Nat) (hw : width < 65536) (hh : height < 65536) (u1 u2 m : UInt8) (hm : m ≠ 0) (smaller largest : Bytes)
    (f : TexFmt) (hf : f ≠ .rgba16) (hl : largest.length = f.imageSize width height) (hpos : largest ≠ []) :
    ∃ dds, texToDds (texFile width height u1 f.code u2 m (smaller ++ largest)) = .ok dds ∧ IsDds dds f width height largest := by
  refine ⟨ddsHeader f width height ++ largest, ?_, isDds_header f width height hw hh largest⟩
  rw [texToDds_file width height hw hh]
  obtain ⟨s, b, hs, hb⟩ := texBlock_size f hf width height
  unfold texPixels
  rw [decide_eq_true hm, if_pos rfl, hs]
  simp only [hb]
  have hne : f.imageSize width height ≠ 0 := by
    rw [← hl]; intro h; exact hpos (List.length_eq_zero_iff.1 h)
  unfold sliceFromEnd
  rw [if_neg hne]
  unfold texFile
  rw [← List.append_assoc, ← hl]
  generalize ([0x54, 0x45, 0x58, 0x00] ++ le 2 width ++ le 2 height ++ [u1] ++ le 1 f.code ++ [u2, m] ++ smaller : Bytes) = pre
  rw [List.length_append, Nat.add_sub_cancel, List.drop_left]
  rfl

/-- Invalid files: too short, wrong magic code, unsupported format; RGBA16 is not supported with mipmaps. -/
theorem C31_errors :
    (∀ data, data.length < 12 → texToDds data = .error .conversion) ∧
    (∀ data, data.take 4 ≠ [0x54, 0x45, 0x58, 0x00] → texToDds data = .error .conversion) ∧
    (∀ width height u1 code u2 m body, code < 256 → (∀ f : TexFmt, f.code ≠ code) →
      texToDds (texFile width height u1 code u2 m body) = .error .conversion) ∧
    (∀ width height u1 u2 m body, m ≠ 0 → texToDds (texFile width height u1 TexFmt.rgba16.code u2 m body) = .error .conversion) := by
  refine ⟨?_, ?_, ?_, ?_⟩
  · intro data h; unfold texToDds; rw [if_pos (.inl h)]
  · intro data h; unfold texToDds; rw [if_pos (.inr h)]
  · intro width height u1 code u2 m body hc hf
    obtain ⟨a, b, h1, _⟩ := le2 width
    obtain ⟨c, d, h2, _⟩ := le2 height
    obtain ⟨e, h3, h3'⟩ := le1 code
    rw [Nat.mod_eq_of_lt hc] at h3'
    have hfile : texFile width height u1 code u2 m body = 0x54 :: 0x45 :: 0x58 :: 0x00 :: a :: b :: c :: d :: u1 :: e :: u2 :: m :: body := by
      unfold texFile; rw [h1, h2, h3]; rfl
    unfold texToDds
    rw [hfile, if_neg (by simp)]
    simp only [List.drop_succ_cons, List.drop_zero, List.take_succ_cons, List.take_zero, h3']
    have : texFormat code = none := by
      unfold texFormat
      have h1 : code ≠ 10 := (hf .dxt1).symm
      have h2 : code ≠ 12 := (hf .dxt5).symm
      have h3 : code ≠ 13 := (hf .bc7).symm
      have h4 : code ≠ 14 := (hf .bc5).symm
      have h5 : code ≠ 20 := (hf .bgra8).symm
      have h6 : code ≠ 21 := (hf .rgba16).symm
      rw [if_neg h1, if_neg h2, if_neg h3, if_neg h4, if_neg h5, if_neg h6]
    rw [this]
  · intro width height u1 u2 m body hm
    obtain ⟨a, b, h1, _⟩ := le2 width
    obtain ⟨c, d, h2, _⟩ := le2 height
    have hfile : texFile width height u1 TexFmt.rgba16.code u2 m body = 0x54 :: 0x45 :: 0x58 :: 0x00 :: a :: b :: c :: d :: u1 :: 21 :: u2 :: m :: body := by
      unfold texFile; rw [h1, h2]; rfl
    have hmm : decide (leNat [m] ≠ 0) = true := by
      rw [decide_eq_true_eq]
      simp only [leNat, Nat.mul_zero, Nat.add_zero, ne_eq]
      intro h; exact hm (UInt8.toNat_inj.1 h)
    unfold texToDds
    rw [hfile, if_neg (by simp)]
    simp only [List.drop_succ_cons, List.drop_zero, List.take_succ_cons, List.take_zero, hmm]
    rfl

/-- When the file is too short to hold the largest mipmap, or when the image is empty, the whole TEX file (header included)
is used as pixels. -/
theorem C31_boundary (width height : Nat) (hw : width < 65536) (hh : height < 65536) (u1 u2 m : UInt8) (hm : m ≠ 0) (body : Bytes)
    (f : TexFmt) (hf : f ≠ .rgba16) (h : f.imageSize width height = 0 ∨ 12 + body.length ≤ f.imageSize width height) :
    ∃ dds, texToDds (texFile width height u1 f.code u2 m body) = .ok dds ∧
      IsDds dds f width height (texFile width height u1 f.code u2 m body) := by
  refine ⟨ddsHeader f width height ++ texFile width height u1 f.code u2 m body, ?_, isDds_header f width height hw hh _⟩
  rw [texToDds_file width height hw hh]
  obtain ⟨s, b, hs, hb⟩ := texBlock_size f hf width height
  have hlen : (texFile width height u1 f.code u2 m body).length = 12 + body.length := by
    unfold texFile; simp; omega
  unfold texPixels
  rw [decide_eq_true hm, if_pos rfl, hs]
  simp only [hb]
  have : sliceFromEnd (texFile width height u1 f.code u2 m body) (f.imageSize width height) = texFile width height u1 f.code u2 m body := by
    unfold sliceFromEnd
    split
    · rfl
    · rw [hlen, Nat.sub_eq_zero_of_le (by omega), List.drop_zero]
  rw [this]
  rfl

/-! Non-vacuity: an image of 5×4 pixels takes two blocks. -/
example : TexFmt.dxt1.imageSize 5 4 = 16 ∧ TexFmt.bgra8.imageSize 5 4 = 80 := by decide
example : (texToDds (texFile 5 4 0 TexFmt.dxt1.code 0 1 (List.replicate 8 7 ++ List.replicate 16 9))).toOption.map (·.drop 128) =
    some (List.replicate 16 9) := by decide +kernel

/-! ## Cases that meet the hypotheses -/

/-- `C31_errors` -/
example : texToDds [0x54, 0x45, 0x58] = .error .conversion ∧ texToDds (texFile 4 4 0 99 0 0 []) = .error .conversion ∧ (∀ f : TexFmt, f.code ≠ 99) ∧
    texToDds (texFile 4 4 0 TexFmt.rgba16.code 0 1 []) = .error .conversion := by
  refine ⟨by decide +kernel, by decide +kernel, ?_, by decide +kernel⟩
  intro f; cases f <;> decide

end Cdtb
