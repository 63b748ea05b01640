import Verif.Model.Wad
import Verif.Spec.Wad
import Verif.Lemmas.Struct
import Mathlib.Data.List.Forall2
/-!
# C11 Data of WAD entries
-/
namespace Cdtb
set_option autoImplicit false
open Spec Py

/-- The part of the archive an entry designates. -/
def stored (w : WadEntry) (file : Bytes) : Bytes := slice w.offset (w.offset + w.compressedSize) file

theorem stored_eq (w : WadEntry) (file : Bytes) : (file.drop w.offset).take w.compressedSize = stored w file := by
  simp [stored, slice, List.drop_take]

/-- A piece has the size and the checksum of the table. -/
def Intact (cx : Codecs) (r : SubchunkRecord) (piece : Bytes) : Prop :=
  piece.length = r.compressedSize ∧ cx.xxh3 piece = r.hash

/-- `plain` is the data of a piece: the piece itself when both sizes are the same, else what it
decompresses to. -/
def Unpacks (cx : Codecs) (r : SubchunkRecord) (piece plain : Bytes) : Prop :=
  if r.compressedSize = r.size then plain = piece else cx.unzstd piece = .ok plain

/-! ## Kinds other than subchunks -/

/-- Uncompressed data. -/
theorem C11_raw (cx : Codecs) (w : WadEntry) (file : Bytes) (toc : Option Bytes) (h : w.type = 0) :
    readData cx w file toc = .ok (some (slice w.offset (w.offset + w.compressedSize) file)) := by
  simp only [readData, stored_eq, h, if_true]; rfl

/-- Gzip data: the result is the decompression, its errors are those of the decompression. -/
theorem C11_gzip (cx : Codecs) (w : WadEntry) (file : Bytes) (toc : Option Bytes) (h : w.type = 1) (d : Option Bytes) :
    readData cx w file toc = .ok d ↔
      ∃ b, d = some b ∧ cx.gunzip (slice w.offset (w.offset + w.compressedSize) file) = .ok b := by
  simp only [readData, stored_eq, h]
  show Except.map some (cx.gunzip (stored w file)) = _ ↔ _
  unfold stored
  rcases cx.gunzip _ with e | b
  · simp [Except.map]
  · simp [Except.map, eq_comm]

/-- Zstd data -/
theorem C11_zstd (cx : Codecs) (w : WadEntry) (file : Bytes) (toc : Option Bytes) (h : w.type = 3) (d : Option Bytes) :
    readData cx w file toc = .ok d ↔
      ∃ b, d = some b ∧ cx.unzstd (slice w.offset (w.offset + w.compressedSize) file) = .ok b := by
  simp only [readData, stored_eq, h]
  show Except.map some (cx.unzstd (stored w file)) = _ ↔ _
  unfold stored
  rcases cx.unzstd _ with e | b
  · simp [Except.map]
  · simp [Except.map, eq_comm]

/-- Redirections never give data, and `None` is only given for redirections. -/
theorem C11_redirect (cx : Codecs) (w : WadEntry) (file : Bytes) (toc : Option Bytes) :
    (w.type = 2 → ∀ b, readData cx w file toc ≠ .ok (some b)) ∧
    (readData cx w file toc = .ok none → w.type = 2) ∧
    (∀ (target : Str) (zeros : Nat) (tail : Bytes), w.type = 2 →
      slice w.offset (w.offset + w.compressedSize) file =
        le 4 ((utf8Bytes target).length + zeros) ++ utf8Bytes target ++ List.replicate zeros 0 ++ tail →
      (utf8Bytes target).length + zeros < 256 ^ 4 → (∀ c ∈ target, c ≠ '\x00') →
      readData cx w file toc = .ok none) := by
  refine ⟨?_, ?_, ?_⟩
  · intro h b hb
    simp only [readData, stored_eq, h] at hb
    revert hb
    show (if ((stored w file).take 4).length ≠ 4 then Except.error Err.struct else _) = _ → False
    split
    · intro hb; cases hb
    · split
      · intro hb; cases hb
      · intro hb; cases hb
  · intro hb
    by_contra h
    unfold readData at hb
    simp only at hb
    split at hb
    · cases hb
    · split at hb
      · revert hb; rcases cx.gunzip _ with e | b <;> intro hb <;> cases hb
      · rename_i a b
        split at hb
        · revert hb; rcases cx.unzstd _ with e | b <;> intro hb <;> cases hb
        · split at hb
          · split at hb
            · split at hb
              · cases hb
              · revert hb; rcases readSubchunks cx _ _ _ _ _ with e | b <;> intro hb <;> cases hb
            · split at hb <;> cases hb
          · cases hb
  · intro target zeros tail h hs hlen hc
    have hrs : ∀ (b : Bytes) n, (∀ x ∈ b, x ≠ 0) → rstripNul (b ++ List.replicate n 0) = b := by
      intro b n hb
      unfold rstripNul
      rw [List.reverse_append, List.reverse_replicate, List.dropWhile_append_of_pos (by simp)]
      have : b.reverse.dropWhile (fun x => decide (x = 0)) = b.reverse := by
        rcases hr : b.reverse with _ | ⟨x, xs⟩
        · rfl
        · have hx : x ∈ b := List.mem_reverse.1 (hr ▸ List.mem_cons_self ..)
          rw [List.dropWhile_cons_of_neg (by simpa using hb x hx)]
      rw [this, List.reverse_reverse]
    simp only [readData, stored_eq, h, stored, hs]
    have e1 : (le 4 ((utf8Bytes target).length + zeros) ++ utf8Bytes target ++ List.replicate zeros 0 ++ tail).take 4 =
      le 4 ((utf8Bytes target).length + zeros) := by simp [List.append_assoc]
    have e2 : ((le 4 ((utf8Bytes target).length + zeros) ++ utf8Bytes target ++ List.replicate zeros 0 ++ tail).drop 4).take
        ((utf8Bytes target).length + zeros) = utf8Bytes target ++ List.replicate zeros 0 := by
      rw [List.append_assoc, List.append_assoc, List.drop_left' (le_length ..), ← List.append_assoc,
        List.take_left' (by simp)]
    simp only [e1, leNat_le 4 _ hlen, e2, le_length, hrs _ _ (utf8Bytes_ne_zero hc), utf8_utf8Bytes]
    rfl

/-- Entries of type 4 in an archive without a table of subchunks: decompressed as a whole, and any
failure is a malformed entry. -/
theorem C11_no_toc (cx : Codecs) (w : WadEntry) (file : Bytes) (h : w.type = 4) :
    (∀ b, readData cx w file none = .ok (some b) ↔
      cx.unzstd (slice w.offset (w.offset + w.compressedSize) file) = .ok b) ∧
    ((∃ e, cx.unzstd (slice w.offset (w.offset + w.compressedSize) file) = .error e) →
      readData cx w file none = .error .malformedSubchunk) := by
  simp only [readData, stored_eq, h]
  unfold stored
  show (∀ b, (match cx.unzstd (slice w.offset (w.offset + w.compressedSize) file) with
      | .ok d => Except.ok (some d)
      | .error _ => .error Err.malformedSubchunk) = .ok (some b) ↔ _) ∧ (_ →
      (match cx.unzstd (slice w.offset (w.offset + w.compressedSize) file) with
      | .ok d => Except.ok (some d)
      | .error _ => .error Err.malformedSubchunk) = _)
  rcases cx.unzstd _ with e | b <;> simp

/-- Other types raise `ValueError`. -/
theorem C11_unsupported (cx : Codecs) (w : WadEntry) (file : Bytes) (toc : Option Bytes) (h : 4 < w.type) :
    readData cx w file toc = .error .value := by
  unfold readData
  simp only
  rw [if_neg (by omega), if_neg (by omega), if_neg (by omega), if_neg (by omega), if_neg (by omega)]

/-! ## Subchunks -/

theorem slice_length {a b : Nat} {bs : Bytes} (h : b ≤ bs.length) : (slice a b bs).length = b - a := by
  simp [slice]; omega

/-- One step of the loop, in terms of the entry of the table. -/
theorem readSubchunks_succ (cx : Codecs) (data toc : Bytes) (k index offset : Nat) :
    readSubchunks cx data toc (k + 1) index offset =
      if toc.length < 16 * index + 16 then .error .struct
      else
        let r := subchunkRecord toc index
        let piece := (data.drop offset).take r.compressedSize
        if data.length < offset + r.compressedSize ∨ cx.xxh3 piece ≠ r.hash then .error .malformedSubchunk
        else match (if r.compressedSize = r.size then .ok piece else cx.unzstd piece) with
          | .error e => .error e
          | .ok d => match readSubchunks cx data toc k (index + 1) (offset + r.compressedSize) with
            | .error e => .error e
            | .ok rest => .ok (d ++ rest) := by
  have e1 : leNat (((toc.drop (16 * index)).take 16).take 4) = (subchunkRecord toc index).compressedSize := by
    simp [subchunkRecord, slice, List.take_take, List.drop_take]
  have e2 : leNat ((((toc.drop (16 * index)).take 16).drop 4).take 4) = (subchunkRecord toc index).size := by
    simp only [subchunkRecord, slice, List.drop_take, List.take_take, List.drop_drop]
    congr 2; omega
  have e3 : leNat (((toc.drop (16 * index)).take 16).drop 8) = (subchunkRecord toc index).hash := by
    simp only [subchunkRecord, slice, List.drop_take, List.drop_drop]
    congr 2; omega
  have el : ((toc.drop (16 * index)).take 16).length ≠ 16 ↔ toc.length < 16 * index + 16 := by
    simp; omega
  rw [readSubchunks]
  simp only [e1, e2, e3, el]
  generalize subchunkRecord toc index = r
  generalize readSubchunks cx data toc k (index + 1) _ = y
  by_cases h : toc.length < 16 * index + 16
  · rw [if_pos h, if_pos h]
  · rw [if_neg h, if_neg h]
    by_cases h' : data.length < offset + r.compressedSize ∨
        cx.xxh3 ((data.drop offset).take r.compressedSize) ≠ r.hash
    · rw [if_pos h', if_pos h']
    · rw [if_neg h', if_neg h']
      by_cases hs : r.compressedSize = r.size
      · rw [if_pos hs, if_pos hs]
        rcases y with e | d <;> rfl
      · rw [if_neg hs, if_neg hs]
        rcases cx.unzstd _ with e | p
        · rfl
        · rcases y with e | d <;> rfl

theorem subchunkRecords_succ (toc : Bytes) (first k : Nat) :
    subchunkRecords toc first (k + 1) = subchunkRecord toc first :: subchunkRecords toc (first + 1) k := by
  simp only [subchunkRecords, List.range_succ_eq_map, List.map_cons, List.map_map, Nat.add_zero]
  congr 1
  apply List.map_congr_left
  intro a _
  simp only [Function.comp]
  congr 1; omega

theorem readSubchunks_ok (cx : Codecs) (data toc : Bytes) : ∀ (k index offset : Nat), offset ≤ data.length → ∀ d,
    (readSubchunks cx data toc k index offset = .ok d ↔
      (k = 0 ∨ 16 * (index + k) ≤ toc.length) ∧
      let recs := subchunkRecords toc index k
      let pieces := cut (recs.map (·.compressedSize)) (data.drop offset)
      List.Forall₂ (Intact cx) recs pieces ∧
      ∃ plains, List.Forall₂ (fun rp plain => Unpacks cx rp.1 rp.2 plain) (recs.zip pieces) plains ∧
        d = plains.flatten)
  | 0, index, offset, _, d => by
    simp only [readSubchunks, subchunkRecords, List.range_zero, List.map_nil, cut, List.zip_nil_left]
    constructor
    · intro h; cases h
      exact ⟨Or.inl trivial, .nil, [], .nil, rfl⟩
    · rintro ⟨-, -, plains, h, rfl⟩
      cases h; rfl
  | k + 1, index, offset, hoff, d => by
    rw [readSubchunks_succ, subchunkRecords_succ]
    set r := subchunkRecord toc index with hr
    simp only [List.map_cons, cut, List.drop_drop, List.zip_cons_cons]
    by_cases ht : toc.length < 16 * index + 16
    · rw [if_pos ht]
      constructor
      · intro h; cases h
      · rintro ⟨h, -⟩; omega
    · rw [if_neg ht]
      by_cases hb : data.length < offset + r.compressedSize ∨ cx.xxh3 ((data.drop offset).take r.compressedSize) ≠ r.hash
      · rw [if_pos hb]
        constructor
        · intro h; cases h
        · rintro ⟨-, h, -⟩
          obtain ⟨⟨h1, h2⟩, -⟩ := List.forall₂_cons.1 h
          simp at h1
          rcases hb with hb | hb
          · omega
          · exact absurd h2 hb
      · rw [if_neg hb]
        rw [not_or, not_lt, not_not] at hb
        have hi : Intact cx r ((data.drop offset).take r.compressedSize) := ⟨by simp; omega, hb.2⟩
        have ih := readSubchunks_ok cx data toc k (index + 1) (offset + r.compressedSize) hb.1
        simp only at ih
        have hlen : (k + 1 = 0 ∨ 16 * (index + (k + 1)) ≤ toc.length) ↔ (k = 0 ∨ 16 * (index + 1 + k) ≤ toc.length) := by
          omega
        rw [hlen]
        constructor
        · intro h
          split at h
          · cases h
          · rename_i p hp
            split at h
            · cases h
            · rename_i rest hrest
              cases h
              obtain ⟨h0, h1, plains, h2, rfl⟩ := (ih rest).1 hrest
              refine ⟨h0, .cons hi h1, p :: plains, .cons ?_ h2, rfl⟩
              unfold Unpacks
              split at hp
              · rename_i h; rw [if_pos h]; cases hp; rfl
              · rename_i h; rw [if_neg h]; exact hp
        · rintro ⟨h0, h1, plains, h2, rfl⟩
          obtain ⟨-, h1⟩ := List.forall₂_cons.1 h1
          cases h2 with
          | cons hp h2 =>
            rename_i p plains
            have := (ih plains.flatten).2 ⟨h0, h1, plains, h2, rfl⟩
            rw [this]
            unfold Unpacks at hp
            simp only at hp
            by_cases hs : r.compressedSize = r.size
            · rw [if_pos hs] at hp ⊢; rw [hp]; rfl
            · rw [if_neg hs] at hp ⊢; rw [hp]; rfl

/-- An entry made of subchunks gives data exactly when the table has all its records, every piece has
the size and the checksum of its record and every piece can be unpacked; the data is then the
concatenation of the unpacked pieces, in order. -/
theorem C11_subchunks (cx : Codecs) (w : WadEntry) (file toc : Bytes) (first : Nat) (h : w.type = 4)
    (hf : w.firstSubchunk = some first) (d : Bytes) :
    let recs := subchunkRecords toc first w.subchunkCount
    let pieces := cut (recs.map (·.compressedSize)) (slice w.offset (w.offset + w.compressedSize) file)
    readData cx w file (some toc) = .ok (some d) ↔
      (w.subchunkCount = 0 ∨ 16 * (first + w.subchunkCount) ≤ toc.length) ∧
      List.Forall₂ (Intact cx) recs pieces ∧
      ∃ plains, List.Forall₂ (fun rp plain => Unpacks cx rp.1 rp.2 plain) (recs.zip pieces) plains ∧
        d = plains.flatten := by
  intro recs pieces
  have hread : readData cx w file (some toc) =
      Except.map some (readSubchunks cx (stored w file) toc w.subchunkCount first 0) := by
    simp only [readData, stored_eq, h, hf]; rfl
  have := readSubchunks_ok cx (stored w file) toc w.subchunkCount first 0 (Nat.zero_le _) d
  simp only [List.drop_zero] at this
  rw [hread]
  refine Iff.trans ?_ this
  rcases readSubchunks cx (stored w file) toc w.subchunkCount first 0 with e | b <;> simp [Except.map]

theorem readSubchunks_error (cx : Codecs) (data toc : Bytes) : ∀ (k index offset : Nat), offset ≤ data.length →
    16 * (index + k) ≤ toc.length →
    let recs := subchunkRecords toc index k
    let pieces := cut (recs.map (·.compressedSize)) (data.drop offset)
    (∀ r ∈ recs, r.compressedSize ≠ r.size → ∀ piece, cx.xxh3 piece = r.hash → ∃ plain, cx.unzstd piece = .ok plain) →
    ¬ List.Forall₂ (Intact cx) recs pieces →
    readSubchunks cx data toc k index offset = .error .malformedSubchunk
  | 0, index, offset, _, _ => by
    intro recs pieces _ h
    exact absurd (List.Forall₂.nil) h
  | k + 1, index, offset, hoff, ht => by
    simp only
    rw [readSubchunks_succ, subchunkRecords_succ]
    set r := subchunkRecord toc index with hr
    simp only [List.map_cons, cut, List.drop_drop]
    intro hz hn
    rw [if_neg (by omega)]
    by_cases hb : data.length < offset + r.compressedSize ∨ cx.xxh3 ((data.drop offset).take r.compressedSize) ≠ r.hash
    · rw [if_pos hb]
    · rw [if_neg hb]
      rw [not_or, not_lt, not_not] at hb
      have hi : Intact cx r ((data.drop offset).take r.compressedSize) := ⟨by simp; omega, hb.2⟩
      have ih := readSubchunks_error cx data toc k (index + 1) (offset + r.compressedSize) hb.1 (by omega)
        (fun r hr => hz r (List.mem_cons_of_mem _ hr)) (fun h => hn (.cons hi h))
      rw [ih]
      by_cases hs : r.compressedSize = r.size
      · rw [if_pos hs]
      · rw [if_neg hs]
        obtain ⟨p, hp⟩ := hz r (List.mem_cons_self ..) hs _ hb.2
        rw [hp]

/-- When some piece is truncated or does not have its checksum, an error is raised instead of data; it is
the malformed subchunk error when pieces with the right checksum can be decompressed. -/
theorem C11_corrupted (cx : Codecs) (w : WadEntry) (file toc : Bytes) (first : Nat) (h : w.type = 4)
    (hf : w.firstSubchunk = some first) (htoc : 16 * (first + w.subchunkCount) ≤ toc.length) :
    let recs := subchunkRecords toc first w.subchunkCount
    let pieces := cut (recs.map (·.compressedSize)) (slice w.offset (w.offset + w.compressedSize) file)
    ¬ List.Forall₂ (Intact cx) recs pieces →
    (∃ e, readData cx w file (some toc) = .error e) ∧
    ((∀ r ∈ recs, r.compressedSize ≠ r.size → ∀ piece, cx.xxh3 piece = r.hash → ∃ plain, cx.unzstd piece = .ok plain) →
      readData cx w file (some toc) = .error .malformedSubchunk ∧
      readFileData cx w file (some toc) = .ok none) := by
  intro recs pieces hn
  have hread : readData cx w file (some toc) =
      Except.map some (readSubchunks cx (stored w file) toc w.subchunkCount first 0) := by
    simp only [readData, stored_eq, h, hf]; rfl
  constructor
  · rcases hd : readData cx w file (some toc) with e | d
    · exact ⟨e, rfl⟩
    · cases d with
      | none => have := (C11_redirect cx w file (some toc)).2.1 hd; omega
      | some d => exact absurd ((C11_subchunks cx w file toc first h hf d).1 hd).2.1 hn
  · intro hz
    have := readSubchunks_error cx (stored w file) toc w.subchunkCount first 0 (Nat.zero_le _) htoc
      hz (by simpa [recs, pieces, stored] using hn)
    have hd : readData cx w file (some toc) = .error .malformedSubchunk := by rw [hread, this]; rfl
    exact ⟨hd, by unfold readFileData; rw [hd]⟩

/-- `Wad.read_file_data` differs only on malformed subchunks, for which it gives no data. -/
theorem C11_read_file_data (cx : Codecs) (w : WadEntry) (file : Bytes) (toc : Option Bytes) (b : Bytes) :
    (readFileData cx w file toc = .ok (some b) ↔ readData cx w file toc = .ok (some b)) ∧
    (readFileData cx w file toc = .ok none ↔
      readData cx w file toc = .ok none ∨ readData cx w file toc = .error .malformedSubchunk) := by
  unfold readFileData
  rcases readData cx w file toc with e | d
  · cases e <;> simp
  · simp

theorem cut_encode (pieces : List Bytes) (tail : Bytes) :
    cut (pieces.map (·.length)) (pieces.flatten ++ tail) = pieces := by
  induction pieces with
  | nil => rfl
  | cons p ps ih =>
    simp only [List.map_cons, List.flatten_cons, cut, List.append_assoc, List.take_left', List.drop_left', ih]

theorem subchunkRecord_encode (pre post : Bytes) (r : SubchunkRecord) (i : Nat) (hi : pre.length = 16 * i)
    (h1 : r.compressedSize < 256 ^ 4) (h2 : r.size < 256 ^ 4) (h3 : r.hash < 256 ^ 8) :
    subchunkRecord (pre ++ r.encode ++ post) i = r := by
  have e1 : slice (16 * i) (16 * i + 4) (pre ++ r.encode ++ post) = le 4 r.compressedSize := by
    rw [slice, List.drop_take, List.append_assoc, List.drop_left' hi]
    simp [SubchunkRecord.encode]
  have e2 : slice (16 * i + 4) (16 * i + 8) (pre ++ r.encode ++ post) = le 4 r.size := by
    have : pre ++ r.encode ++ post = (pre ++ le 4 r.compressedSize) ++ (le 4 r.size ++ (le 8 r.hash ++ post)) := by
      simp [SubchunkRecord.encode]
    rw [this, slice, List.drop_take, List.drop_left' (by simp [hi])]
    rw [show 16 * i + 8 - (16 * i + 4) = 4 by omega]
    simp
  have e3 : slice (16 * i + 8) (16 * i + 16) (pre ++ r.encode ++ post) = le 8 r.hash := by
    have : pre ++ r.encode ++ post = (pre ++ le 4 r.compressedSize ++ le 4 r.size) ++ (le 8 r.hash ++ post) := by
      simp [SubchunkRecord.encode]
    rw [this, slice, List.drop_take, List.drop_left' (by simp [hi])]
    rw [show 16 * i + 16 - (16 * i + 8) = 8 by omega]
    simp
  simp only [subchunkRecord, e1, e2, e3, leNat_le 4 _ h1, leNat_le 4 _ h2, leNat_le 8 _ h3]

/-- The records read are those of a table laid out per the format. -/
theorem C11_toc (post : Bytes) : ∀ (rs : List SubchunkRecord) (pre : Bytes) (first : Nat), pre.length = 16 * first →
    (∀ r ∈ rs, r.compressedSize < 256 ^ 4 ∧ r.size < 256 ^ 4 ∧ r.hash < 256 ^ 8) →
    subchunkRecords (pre ++ (rs.map SubchunkRecord.encode).flatten ++ post) first rs.length = rs
  | [], _, _, _, _ => rfl
  | r :: rs, pre, first, hp, hr => by
    rw [List.length_cons, subchunkRecords_succ, List.map_cons, List.flatten_cons]
    obtain ⟨h1, h2, h3⟩ := hr r (List.mem_cons_self ..)
    congr 1
    · have := subchunkRecord_encode pre ((rs.map SubchunkRecord.encode).flatten ++ post) r first hp h1 h2 h3
      simpa using this
    · have := C11_toc post rs (pre ++ r.encode) (first + 1) (by simp [SubchunkRecord.encode, hp]; omega)
        (fun r hr' => hr r (List.mem_cons_of_mem _ hr'))
      simpa using this

/-- Non-vacuity: two subchunks, the second one compressed; with a wrong byte the entry is rejected. -/
example :
    let cx : Codecs := { gunzip := .ok, unzstd := fun b => .ok (b ++ b), xxh3 := leNat, isJson := fun _ => false }
    let w : WadEntry := wadEntry 1 2 5 7 0x24 false (some 1) none
    let toc := List.replicate 16 0xEE ++ (SubchunkRecord.mk 3 3 197121).encode ++ (SubchunkRecord.mk 2 4 1284).encode
    readData cx w [9, 9, 1, 2, 3, 4, 5] (some toc) = .ok (some [1, 2, 3, 4, 5, 4, 5]) ∧
    readData cx w [9, 9, 1, 2, 3, 4, 6] (some toc) = .error .malformedSubchunk ∧
    readData cx w [9, 9, 1, 2, 3, 4] (some toc) = .error .malformedSubchunk ∧
    readFileData cx w [9, 9, 1, 2, 3, 4] (some toc) = .ok none := by decide +kernel

/-! ## Cases that meet the hypotheses -/

/-- `C11_redirect`: a redirection to `a/b`, padded with zeros -/
example :
    let cx : Codecs := { gunzip := .ok, unzstd := .ok, xxh3 := leNat, isJson := fun _ => false }
    let w : WadEntry := wadEntry 1 2 9 9 2 false none none
    w.type = 2 ∧ slice w.offset (w.offset + w.compressedSize) [9, 9, 5, 0, 0, 0, 97, 47, 98, 0, 0] =
      le 4 ((utf8Bytes "a/b".toList).length + 2) ++ utf8Bytes "a/b".toList ++ List.replicate 2 0 ++ [] ∧
    readData cx w [9, 9, 5, 0, 0, 0, 97, 47, 98, 0, 0] none = .ok none := by decide +kernel

/-- `C11_no_toc`, `C11_unsupported`: both kinds of entries -/
example :
    let cx : Codecs := { gunzip := .ok, unzstd := fun b => if b = [1] then .ok [7, 7] else .error .codec, xxh3 := leNat, isJson := fun _ => false }
    readData cx (wadEntry 1 0 1 2 4 false none none) [1] none = .ok (some [7, 7]) ∧
    readData cx (wadEntry 1 0 1 2 4 false none none) [2] none = .error .malformedSubchunk ∧
    readData cx (wadEntry 1 0 1 2 5 false none none) [1] none = .error .value := by decide +kernel

/-- `C11_gzip` and `C11_zstd` -/
example :
    let cx : Codecs := { gunzip := fun b => .ok (b ++ [1]), unzstd := fun b => .ok (b ++ [3]), xxh3 := leNat, isJson := fun _ => false }
    readData cx (wadEntry 1 1 2 3 1 false none none) [0, 5, 6, 0] none = .ok (some [5, 6, 1]) ∧
    readData cx (wadEntry 1 1 2 3 3 false none none) [0, 5, 6, 0] none = .ok (some [5, 6, 3]) := by decide +kernel

end Cdtb
