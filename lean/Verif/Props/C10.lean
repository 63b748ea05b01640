import Verif.Model.Wad
import Verif.Spec.Wad
import Verif.Lemmas.Struct
/-!
# C10  WAD headers of every supported version decode to exactly the entries encoded

`parseHeaders.run file` is the version and list of entries read from the file.
-/
namespace Cdtb
set_option autoImplicit false
open Py Spec

/-- The entry expected for a record. Fields not present in the format are unset. -/
def Spec.WadRecord.entry (f : WadFormat) (r : WadRecord) : WadEntry where
  pathHash := r.hash
  offset := r.offset
  compressedSize := r.compressedSize
  size := r.size
  type := r.type
  subchunkCount := r.subchunks
  duplicate := match f with
    | .v2 => r.duplicate
    | _ => false
  firstSubchunk := match f with
    | .v1 => none
    | _ => some r.first
  sha256 := match f with
    | .v1 => none
    | _ => some r.checksum
  path := none
  ext := none

theorem nibbles (s t : Nat) (hs : s < 16) (ht : t < 16) :
    ((16 * s + t) &&& 0xF0) >>> 4 = s ∧ (16 * s + t) &&& 0xF = t := by
  have : ∀ s < 16, ∀ t < 16, ((16 * s + t) &&& 0xF0) >>> 4 = s ∧ (16 * s + t) &&& 0xF = t := by decide +kernel
  exact this s hs t ht

theorem wadEntry_of_fits {f : WadFormat} {r : WadRecord} (h : r.Fits f) (d fs sh) :
    wadEntry r.hash r.offset r.compressedSize r.size (16 * r.subchunks + r.type) d fs sh =
      { pathHash := r.hash, offset := r.offset, compressedSize := r.compressedSize, size := r.size, type := r.type,
        subchunkCount := r.subchunks, duplicate := d, firstSubchunk := fs, sha256 := sh } := by
  obtain ⟨h1, h2⟩ := nibbles r.subchunks r.type h.subchunks h.type
  simp only [wadEntry, h1, h2]

/-- The reader of each kind of entry. -/
def entryReader : WadFormat → Rd WadEntry
  | .v1 => readEntryV1
  | .v2 => readEntryV2
  | .v34 => readEntryV34

theorem entryReader_reads (f : WadFormat) (r : WadRecord) (h : r.Fits f) :
    Reads (entryReader f) (r.encode f) (r.entry f) := by
  have ht : 16 * r.subchunks + r.type < 256 ^ 1 := by have := h.type; have := h.subchunks; omega
  unfold WadRecord.encode
  simp only [List.append_assoc]
  cases f
  · refine Reads.bind (Reads.u h.hash) (Reads.bind (Reads.u h.offset) (Reads.bind (Reads.u h.compressedSize)
      (Reads.bind (Reads.u h.size) (Reads.map (Reads.u (by omega)) ?_))))
    rw [wadEntry_of_fits h]; rfl
  · refine Reads.bind (Reads.u h.hash) (Reads.bind (Reads.u h.offset) (Reads.bind (Reads.u h.compressedSize)
      (Reads.bind (Reads.u h.size) (Reads.bind (Reads.u ht) (Reads.bind (Reads.bool r.duplicate)
      (Reads.bind (Reads.u h.first) (Reads.map (Reads.u h.checksum) ?_)))))))
    rw [wadEntry_of_fits h]; rfl
  · have hf := h.first
    simp only at hf
    refine Reads.bind (Reads.u h.hash) (Reads.bind (Reads.u h.offset) (Reads.bind (Reads.u h.compressedSize)
      (Reads.bind (Reads.u h.size) (Reads.bind (Reads.u ht) (Reads.bind (Reads.u (n := r.first / 65536) (by omega))
      (Reads.bind (Reads.u (n := r.first % 65536) (by omega)) (Reads.map (Reads.u h.checksum) ?_)))))))
    rw [wadEntry_of_fits h]
    have : r.first % 65536 + (r.first / 65536) <<< 16 = r.first := by
      rw [Nat.shiftLeft_eq]; omega
    rw [this]; rfl

/-- Once the magic and a supported version are read, parsing is reading the count and the table. -/
theorem parseHeaders_supported {f : WadFormat} {major minor : Nat} (hf : wadFormat major minor = some f)
    (data : Bytes) (h1 : Rd.exact 2 data 0 = .ok ([0x52, 0x57], 2)) (h2 : Rd.u 1 data 2 = .ok (major, 3))
    (h3 : Rd.u 1 data 3 = .ok (minor, 4)) :
    parseHeaders.run data = match (do let n ← Rd.u 4; (entryReader f).times n) data (wadHeaderLength major) with
      | .ok (files, _) => .ok ((major, minor), files)
      | .error e => .error e := by
  have hseek : seekTable major data 4 = .ok ((), wadHeaderLength major) := by
    unfold wadFormat at hf
    unfold seekTable wadHeaderLength
    by_cases a : major = 1
    · rw [if_pos a, if_pos a]; rfl
    · rw [if_neg a, if_neg a]; rw [if_neg a] at hf
      by_cases b : major = 2
      · rw [if_pos b, if_pos b]; rfl
      · rw [if_neg b, if_neg b]; rw [if_neg b] at hf
        by_cases c : major = 3
        · rw [if_pos c]; rfl
        · rw [if_neg c] at hf; cases hf
  have htable : ∀ n, readTable major minor n = (entryReader f).times n := by
    intro n
    unfold wadFormat at hf
    unfold readTable
    by_cases a : major = 1
    · rw [if_pos a] at hf ⊢; cases hf; rfl
    · rw [if_neg a] at hf ⊢
      by_cases b : major = 2
      · rw [if_pos b] at hf; rw [if_pos (by omega)]; cases hf; rfl
      · rw [if_neg b] at hf
        by_cases c : major = 3
        · rw [if_pos c] at hf
          by_cases d : minor ≤ 3
          · rw [if_pos d] at hf; rw [if_pos (by omega)]; cases hf; rfl
          · rw [if_neg d] at hf; rw [if_neg (by omega)]; cases hf; rfl
        · rw [if_neg c] at hf; cases hf
  have hmagic : checkMagic [0x52, 0x57] data 4 = .ok ((), 4) := rfl
  unfold Rd.run parseHeaders
  rw [Rd.bind_ok h1, Rd.bind_ok h2, Rd.bind_ok h3, Rd.bind_ok hmagic, Rd.bind_ok hseek]
  rcases hu : Rd.u 4 data (wadHeaderLength major) with e | ⟨n, pos⟩
  · rw [Rd.bind_error hu, Rd.bind_error hu]
  · rw [Rd.bind_ok hu, Rd.bind_ok hu, htable n]
    rw [Rd.bind_pure_result]
    rcases (entryReader f).times n data pos with e | ⟨files, pos'⟩ <;> rfl

theorem wadHeader_reads {f : WadFormat} {major minor : Nat} (hf : wadFormat major minor = some f) (hminor : minor < 256)
    (rest : Bytes) :
    let data := [0x52, 0x57] ++ le 1 major ++ le 1 minor ++ rest
    Rd.exact 2 data 0 = .ok ([0x52, 0x57], 2) ∧ Rd.u 1 data 2 = .ok (major, 3) ∧ Rd.u 1 data 3 = .ok (minor, 4) := by
  have hmajor : major < 256 ^ 1 := by
    unfold wadFormat at hf
    split at hf
    · omega
    · split at hf
      · omega
      · split at hf
        · omega
        · cases hf
  intro data
  refine ⟨?_, ?_, ?_⟩
  · have := Reads.exact [0x52, 0x57] [] (le 1 major ++ le 1 minor ++ rest)
    simpa [data] using this
  · have := Reads.u hmajor [0x52, 0x57] (le 1 minor ++ rest)
    simpa [data] using this
  · have := Reads.u (w := 1) (n := minor) (by omega) ([0x52, 0x57] ++ le 1 major) rest
    simpa [data] using this

/-- Parsing a file laid out per the format gives exactly the version and the entries, in order,
whatever follows the table. -/
theorem C10_decode (f : WadFormat) (major minor : Nat) (hf : wadFormat major minor = some f) (hminor : minor < 256)
    (filler : Bytes) (hfill : filler.length + 4 = wadHeaderLength major)
    (rs : List WadRecord) (hrs : ∀ r ∈ rs, r.Fits f) (hn : rs.length < 256 ^ 4) (trailing : Bytes) :
    parseHeaders.run (wadFile f major minor filler rs trailing) =
      .ok ((major, minor), rs.map (WadRecord.entry f)) := by
  have hh := wadHeader_reads hf hminor
    (filler ++ le 4 rs.length ++ (rs.map (WadRecord.encode f)).flatten ++ trailing)
  have hw : wadFile f major minor filler rs trailing = [0x52, 0x57] ++ le 1 major ++ le 1 minor ++
      (filler ++ le 4 rs.length ++ (rs.map (WadRecord.encode f)).flatten ++ trailing) := by simp [wadFile]
  rw [← hw] at hh
  obtain ⟨h1, h2, h3⟩ := hh
  rw [parseHeaders_supported hf _ h1 h2 h3]
  have hr : Reads (do let n ← Rd.u 4; (entryReader f).times n) (le 4 rs.length ++ (rs.map (WadRecord.encode f)).flatten)
      (rs.map (WadRecord.entry f)) :=
    Reads.bind (Reads.u hn) (Reads.timesMap fun r hr => entryReader_reads f r (hrs r hr))
  have := hr ([0x52, 0x57] ++ le 1 major ++ le 1 minor ++ filler) trailing
  have hl : ([0x52, 0x57] ++ le 1 major ++ le 1 minor ++ filler).length = wadHeaderLength major := by
    simp; omega
  rw [hl] at this
  rw [show wadFile f major minor filler rs trailing = [0x52, 0x57] ++ le 1 major ++ le 1 minor ++ filler ++
    (le 4 rs.length ++ (rs.map (WadRecord.encode f)).flatten) ++ trailing by simp [wadFile], this]

/-- Size of an entry in the table. -/
def entrySize : WadFormat → Nat
  | .v1 => 24
  | .v2 => 32
  | .v34 => 32

theorem entryReader_fixed (f : WadFormat) : ∃ dec, Fixed (entryReader f) (entrySize f) dec := by
  cases f
  · exact ⟨_, Fixed.bind (k := 8) (m := 16) (Fixed.u 8) fun _ => Fixed.bind (k := 4) (m := 12) (Fixed.u 4) fun _ =>
      Fixed.bind (k := 4) (m := 8) (Fixed.u 4) fun _ => Fixed.bind (k := 4) (m := 4) (Fixed.u 4) fun _ =>
      Fixed.map (Fixed.u 4) fun _ => rfl⟩
  · exact ⟨_, Fixed.bind (k := 8) (m := 24) (Fixed.u 8) fun _ => Fixed.bind (k := 4) (m := 20) (Fixed.u 4) fun _ =>
      Fixed.bind (k := 4) (m := 16) (Fixed.u 4) fun _ => Fixed.bind (k := 4) (m := 12) (Fixed.u 4) fun _ =>
      Fixed.bind (k := 1) (m := 11) (Fixed.u 1) fun _ => Fixed.bind (k := 1) (m := 10) Fixed.bool fun _ =>
      Fixed.bind (k := 2) (m := 8) (Fixed.u 2) fun _ => Fixed.map (Fixed.u 8) fun _ => rfl⟩
  · exact ⟨_, Fixed.bind (k := 8) (m := 24) (Fixed.u 8) fun _ => Fixed.bind (k := 4) (m := 20) (Fixed.u 4) fun _ =>
      Fixed.bind (k := 4) (m := 16) (Fixed.u 4) fun _ => Fixed.bind (k := 4) (m := 12) (Fixed.u 4) fun _ =>
      Fixed.bind (k := 1) (m := 11) (Fixed.u 1) fun _ => Fixed.bind (k := 1) (m := 10) (Fixed.u 1) fun _ =>
      Fixed.bind (k := 2) (m := 8) (Fixed.u 2) fun _ => Fixed.map (Fixed.u 8) fun _ => rfl⟩

/-- For any file that starts with the magic and a supported version: either it is long enough for the
number of entries it declares and exactly that many entries are returned, or `struct.error` is raised.
There is never a short list. -/
theorem C10_truncated (f : WadFormat) (major minor : Nat) (hf : wadFormat major minor = some f) (hminor : minor < 256)
    (rest : Bytes) :
    let data := [0x52, 0x57] ++ le 1 major ++ le 1 minor ++ rest
    let hdr := wadHeaderLength major
    let count := leNat ((data.drop hdr).take 4)
    (hdr + 4 + count * entrySize f ≤ data.length →
      ∃ files, parseHeaders.run data = .ok ((major, minor), files) ∧ files.length = count) ∧
    (data.length < hdr + 4 + count * entrySize f → parseHeaders.run data = .error .struct) := by
  intro data hdr count
  obtain ⟨h1, h2, h3⟩ := wadHeader_reads hf hminor rest
  rw [parseHeaders_supported hf data h1 h2 h3]
  obtain ⟨dec, hdec⟩ := entryReader_fixed f
  have hbind : (do let n ← Rd.u 4; (entryReader f).times n) data hdr =
      if hdr + 4 ≤ data.length then (entryReader f).times count data (hdr + 4) else .error .struct := by
    simp only [Bind.bind]
    rw [Fixed.u 4 data hdr]
    by_cases h : hdr + 4 ≤ data.length
    · rw [if_pos h, if_pos h]
    · rw [if_neg h, if_neg h]
  rw [hbind]
  constructor
  · intro hlen
    rw [if_pos (by omega), hdec.times count data (hdr + 4) (by omega), if_pos hlen]
    exact ⟨_, rfl, by simp⟩
  · intro hlen
    by_cases h : hdr + 4 ≤ data.length
    · rw [if_pos h, hdec.times count data (hdr + 4) h, if_neg (by omega)]
    · rw [if_neg h]

/-- A file shorter than its magic and version raises `struct.error`; a wrong magic, or an unsupported
version, raises `ValueError`. -/
theorem C10_reject (data : Bytes) :
    (data.length < 4 → parseHeaders.run data = .error .struct) ∧
    (4 ≤ data.length → data.take 2 ≠ [0x52, 0x57] → parseHeaders.run data = .error .value) ∧
    (∀ major minor rest, data = [0x52, 0x57] ++ le 1 major ++ le 1 minor ++ rest → major < 256 →
      wadFormat major minor = none → parseHeaders.run data = .error .value) := by
  have hrun : parseHeaders.run data =
      if 4 ≤ data.length then parseHeaders.run data else .error .struct := by
    by_cases h : 4 ≤ data.length
    · rw [if_pos h]
    · rw [if_neg h]
      unfold Rd.run parseHeaders
      by_cases ha : 2 ≤ data.length
      · have h1 : Rd.exact 2 data 0 = .ok ((data.drop 0).take 2, 2) := by
          unfold Rd.exact; rw [if_pos (by omega)]
        by_cases hb : 2 + 1 ≤ data.length
        · have h2 := Fixed.u 1 data 2
          rw [if_pos hb] at h2
          have h3 := Fixed.u 1 data 3
          rw [if_neg (by omega)] at h3
          rw [Rd.bind_ok h1, Rd.bind_ok h2, Rd.bind_error h3]
        · have h2 := Fixed.u 1 data 2
          rw [if_neg hb] at h2
          rw [Rd.bind_ok h1, Rd.bind_error h2]
      · have h1 : Rd.exact 2 data 0 = .error .struct := by
          unfold Rd.exact; rw [if_neg (by omega)]
        rw [Rd.bind_error h1]
  refine ⟨fun h => ?_, fun h hm => ?_, ?_⟩
  · rw [hrun, if_neg (by omega)]
  · unfold Rd.run parseHeaders
    have h1 : Rd.exact 2 data 0 = .ok ((data.drop 0).take 2, 2) := by
      unfold Rd.exact; rw [if_pos (by omega)]
    have h2 := Fixed.u 1 data 2
    rw [if_pos (by omega)] at h2
    have h3 := Fixed.u 1 data 3
    rw [if_pos (by omega)] at h3
    have h4 : checkMagic ((data.drop 0).take 2) data (3 + 1) = .error .value := by
      unfold checkMagic; rw [List.drop_zero, if_pos hm]; rfl
    rw [Rd.bind_ok h1, Rd.bind_ok h2, Rd.bind_ok h3, Rd.bind_error h4]
  · rintro major minor rest rfl hmaj hf
    have e1 := Reads.exact [0x52, 0x57] [] (le 1 major ++ le 1 minor ++ rest)
    have e2 := Reads.u (w := 1) (n := major) (by omega) [0x52, 0x57] (le 1 minor ++ rest)
    simp only [List.nil_append, List.length_nil, List.length_cons, Nat.zero_add, ← List.append_assoc] at e1 e2
    simp only [le_length, Nat.reduceAdd] at e2
    have h3 := Fixed.u 1 ([0x52, 0x57] ++ le 1 major ++ le 1 minor ++ rest) 3
    rw [if_pos (by simp; omega)] at h3
    have h4 : checkMagic [0x52, 0x57] ([0x52, 0x57] ++ le 1 major ++ le 1 minor ++ rest) (3 + 1) = .ok ((), 4) := rfl
    have h5 : seekTable major ([0x52, 0x57] ++ le 1 major ++ le 1 minor ++ rest) 4 = .error .value := by
      unfold wadFormat at hf
      unfold seekTable
      split at hf
      · cases hf
      · split at hf
        · cases hf
        · split at hf
          · split at hf <;> cases hf
          · rename_i a b c; rw [if_neg a, if_neg b, if_neg c]; rfl
    unfold Rd.run parseHeaders
    rw [Rd.bind_ok e1, Rd.bind_ok e2, Rd.bind_ok h3, Rd.bind_ok h4, Rd.bind_error h5]

/-- Non-vacuity: a 3.1 file with two entries. -/
example :
    let r1 : WadRecord := ⟨0x1122334455667788, 400, 10, 20, 3, 0, true, 7, 99⟩
    let r2 : WadRecord := ⟨5, 410, 10, 10, 4, 2, false, 8, 98⟩
    parseHeaders.run (wadFile .v2 3 1 (List.replicate 264 0xAA) [r1, r2] [1, 2, 3]) =
      .ok ((3, 1), [r1.entry .v2, r2.entry .v2]) := by
  intro r1 r2
  refine C10_decode .v2 3 1 rfl (by decide) _ (by rw [List.length_replicate]; rfl) [r1, r2] ?_ (by decide) _
  intro r hr
  rcases List.mem_cons.1 hr with rfl | hr
  · exact ⟨by decide, by decide, by decide, by decide, by decide, by decide, by decide, by decide⟩
  · rw [List.mem_singleton.1 hr]
    exact ⟨by decide, by decide, by decide, by decide, by decide, by decide, by decide, by decide⟩

end Cdtb
