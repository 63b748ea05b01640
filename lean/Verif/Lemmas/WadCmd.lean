import Verif.Spec.WadCmd
import Verif.Lemmas.ExportFiles
import Verif.Props.C10
import Verif.Props.C11
import Verif.Props.C14
import Verif.Props.C16
/-!
# Lemmas for WAD commands
-/
namespace Cdtb
set_option autoImplicit false
open Py Spec

/-! ### Content -/

/-- Reading of good subchunks -/
theorem readSubchunks_good (cx : Codecs) (t : Bytes) (m : Nat) (pieces : List (Bytes × Bytes)) :
    ∀ (good : List SubchunkRecord) (index : Nat) (pre tail : Bytes) (later : List SubchunkRecord),
    List.Forall₂ (fun c p => Spec.Chunk cx c p.1 p.2) good pieces → subchunkRecords t index (good.length + m) = good ++ later →
    good.length + m = 0 ∨ 16 * (index + (good.length + m)) ≤ t.length →
    readSubchunks cx (pre ++ (pieces.map Prod.fst).flatten ++ tail) t (good.length + m) index pre.length =
      match readSubchunks cx (pre ++ (pieces.map Prod.fst).flatten ++ tail) t m (index + good.length)
        (pre ++ (pieces.map Prod.fst).flatten).length with
      | .ok d => .ok ((pieces.map Prod.snd).flatten ++ d)
      | .error e => .error e := by
  induction pieces with
  | nil =>
    intro good index pre tail later h hr hl
    cases h
    simp only [List.length_nil, Nat.zero_add, List.map_nil, List.flatten_nil, List.append_nil, Nat.add_zero, List.nil_append]
    rcases readSubchunks cx (pre ++ tail) t m index pre.length with e | d <;> rfl
  | cons p pieces ih =>
    intro good index pre tail later h hr hl
    cases h with
    | @cons c _ good _ hc h =>
      obtain ⟨p1, p2⟩ := p
      obtain ⟨h1, h2, h3⟩ := hc
      simp only at h1 h2 h3
      rw [show (c :: good).length + m = (good.length + m) + 1 by simp; omega] at hr hl ⊢
      rw [subchunkRecords_succ, List.cons_append, List.cons.injEq] at hr
      rw [readSubchunks_succ, if_neg (by omega)]
      simp only [hr.1]
      have hpiece : ((pre ++ (List.map Prod.fst ((p1, p2) :: pieces)).flatten ++ tail).drop pre.length).take c.compressedSize = p1 := by
        rw [List.append_assoc, List.drop_left, List.map_cons, List.flatten_cons, List.append_assoc, ← h1, List.take_left]
      rw [hpiece]
      rw [if_neg (by
        rw [not_or, not_lt, not_not]
        refine ⟨?_, h2⟩
        simp; omega)]
      have ih' := ih good (index + 1) (pre ++ p1) tail later h hr.2 (by omega)
      have e1 : pre ++ p1 ++ (List.map Prod.fst pieces).flatten = pre ++ (List.map Prod.fst ((p1, p2) :: pieces)).flatten := by simp
      rw [e1] at ih'
      have e2 : (pre ++ p1).length = pre.length + c.compressedSize := by simp [h1]
      rw [e2] at ih'
      rw [ih']
      have e3 : index + 1 + good.length = index + (c :: good).length := by simp; omega
      rw [e3]
      have hu : (if c.compressedSize = c.size then Except.ok p1 else cx.unzstd p1) = .ok p2 := by
        split
        · rename_i hs; rw [if_pos hs] at h3; rw [h3]
        · rename_i hs; rw [if_neg hs] at h3; exact h3
      rw [hu]
      simp only
      rcases readSubchunks cx (pre ++ (List.map Prod.fst ((p1, p2) :: pieces)).flatten ++ tail) t m (index + (c :: good).length)
        (pre ++ (List.map Prod.fst ((p1, p2) :: pieces)).flatten).length with e | d
      · rfl
      · simp

/-- The entry of a record, possibly with a path and an extension -/
def IsEntry (f : WadFormat) (r : WadRecord) (w : WadEntry) : Prop := ∃ p e, w = { r.entry f with path := p, ext := e }

theorem subchunkRecords_length (t : Bytes) (i k : Nat) : (subchunkRecords t i k).length = k := by simp [subchunkRecords]

theorem readData_chunked (cx : Codecs) (w : WadEntry) (file t : Bytes) {first : Nat} (h : w.type = 4) (hf : w.firstSubchunk = some first) :
    readData cx w file (some t) = Except.map some (readSubchunks cx (stored w file) t w.subchunkCount first 0) := by
  simp only [readData, stored_eq, h, hf]
  rfl

/-- The content of a record is what is read. -/
theorem contains_read {cx : Codecs} {file : Bytes} {toc : Option Bytes} {f : WadFormat} {r : WadRecord} {c : Option Bytes} {w : WadEntry}
    (h : Spec.Contains cx file toc f r c) (hw : IsEntry f r w) :
    (∀ d, c = some d → readData cx w file toc = .ok (some d)) ∧
    (c = none → readData cx w file toc = .ok none ∨ readData cx w file toc = .error .malformedSubchunk) := by
  obtain ⟨p, e, rfl⟩ := hw
  have hst : stored { r.entry f with path := p, ext := e } file = Spec.packed file r := rfl
  cases h with
  | raw ht =>
    refine ⟨?_, by simp⟩
    rintro d h; cases h
    exact C11_raw cx _ file toc ht
  | gzip d ht hd =>
    refine ⟨?_, by simp⟩
    rintro d' h; cases h
    exact (C11_gzip cx { r.entry f with path := p, ext := e } file toc ht _).2 ⟨d, rfl, hd⟩
  | redirection target zeros tail ht h1 h2 h3 =>
    refine ⟨by simp, fun _ => Or.inl ?_⟩
    exact (C11_redirect cx { r.entry f with path := p, ext := e } file toc).2.2 target zeros tail ht h3 h2 h1
  | zstd d ht hd =>
    refine ⟨?_, by simp⟩
    rintro d' h; cases h
    exact (C11_zstd cx { r.entry f with path := p, ext := e } file toc ht _).2 ⟨d, rfl, hd⟩
  | whole d ht h1 hd =>
    refine ⟨?_, by simp⟩
    rintro d' h; cases h
    subst h1
    exact ((C11_no_toc cx { r.entry f with path := p, ext := e } file ht).1 d).2 hd
  | noToc err ht h1 hd =>
    refine ⟨by simp, fun _ => Or.inr ?_⟩
    subst h1
    exact (C11_no_toc cx { r.entry f with path := p, ext := e } file ht).2 ⟨err, hd⟩
  | chunks t pieces tail ht h1 hv hl hc hp =>
    refine ⟨?_, by simp⟩
    rintro d' h; cases h
    subst h1
    have hfirst : (r.entry f).firstSubchunk = some r.first := by cases f <;> first | exact absurd rfl hv | rfl
    have hlen := subchunkRecords_length t r.first r.subchunks
    have := readSubchunks_good cx t 0 pieces (subchunkRecords t r.first r.subchunks) r.first [] tail [] hc
      (by rw [Nat.add_zero, hlen, List.append_nil]) (by rw [hlen]; omega)
    rw [List.nil_append, ← hp, Nat.add_zero, hlen] at this
    rw [readData_chunked cx { r.entry f with path := p, ext := e } file t ht hfirst, hst]
    show Except.map some (readSubchunks cx (Spec.packed file r) t r.subchunks r.first 0) = _
    rw [show (0 : Nat) = ([] : Bytes).length from rfl, this]
    simp [readSubchunks, Except.map]
  | corrupted t good rest bad pieces tail ht h1 hv hl hr hc hp hbad =>
    refine ⟨by simp, fun _ => Or.inr ?_⟩
    subst h1
    have hfirst : (r.entry f).firstSubchunk = some r.first := by cases f <;> first | exact absurd rfl hv | rfl
    have hlen := subchunkRecords_length t r.first r.subchunks
    rw [hr] at hlen
    simp only [List.length_append, List.length_cons] at hlen
    have := readSubchunks_good cx t (rest.length + 1) pieces good r.first [] tail (bad :: rest) hc (by rw [hlen, hr]) (by rw [hlen]; right; omega)
    rw [List.nil_append, ← hp, hlen] at this
    have hrec : subchunkRecord t (r.first + good.length) = bad := by
      have h5 : (subchunkRecords t r.first r.subchunks)[good.length]? = some bad := by rw [hr]; simp
      rw [subchunkRecords, List.getElem?_map, List.getElem?_range (by omega)] at h5
      simpa using h5
    have hb : readSubchunks cx (Spec.packed file r) t (rest.length + 1) (r.first + good.length) ((pieces.map Prod.fst).flatten).length =
        .error .malformedSubchunk := by
      rw [readSubchunks_succ, if_neg (by omega)]
      simp only [hrec]
      rw [if_pos]
      rw [hp, List.drop_left]
      rcases hbad with h | h
      · left; simp; omega
      · right; exact h
    rw [hb] at this
    rw [readData_chunked cx { r.entry f with path := p, ext := e } file t ht hfirst, hst]
    show Except.map some (readSubchunks cx (Spec.packed file r) t r.subchunks r.first 0) = _
    rw [show (0 : Nat) = ([] : Bytes).length from rfl, this]
    rfl

theorem contains_readFile {cx : Codecs} {file : Bytes} {toc : Option Bytes} {f : WadFormat} {r : WadRecord} {c : Option Bytes} {w : WadEntry}
    (h : Spec.Contains cx file toc f r c) (hw : IsEntry f r w) : readFileData cx w file toc = .ok c := by
  obtain ⟨h1, h2⟩ := contains_read h hw
  cases c with
  | none => exact ((C11_read_file_data cx w file toc []).2).2 (h2 rfl)
  | some d => exact ((C11_read_file_data cx w file toc d).1).2 (h1 d rfl)

theorem contains_unique {cx : Codecs} {file : Bytes} {toc : Option Bytes} {f : WadFormat} {r : WadRecord} {c c' : Option Bytes}
    (h : Spec.Contains cx file toc f r c) (h' : Spec.Contains cx file toc f r c') : c = c' := by
  have h1 := contains_readFile h ⟨none, none, rfl⟩
  rw [contains_readFile h' ⟨none, none, rfl⟩] at h1
  cases h1; rfl

theorem cut_flatten (data : Bytes) : ∀ (ns : List Nat) (d : Bytes), ∃ tail, d = (cut ns d).flatten ++ tail
  | [], d => ⟨d, rfl⟩
  | n :: ns, d => by
    obtain ⟨tail, h⟩ := cut_flatten data ns (d.drop n)
    refine ⟨tail, ?_⟩
    rw [cut, List.flatten_cons, List.append_assoc, ← h, List.take_append_drop]

theorem chunks_of_parts {cx : Codecs} : ∀ {recs : List SubchunkRecord} {pieces plains : List Bytes}, List.Forall₂ (Intact cx) recs pieces →
    List.Forall₂ (fun rp plain => Unpacks cx rp.1 rp.2 plain) (recs.zip pieces) plains →
    List.Forall₂ (fun c p => Spec.Chunk cx c p.1 p.2) recs (pieces.zip plains) ∧ (pieces.zip plains).map Prod.fst = pieces ∧
      (pieces.zip plains).map Prod.snd = plains
  | [], _, _, .nil, .nil => ⟨.nil, rfl, rfl⟩
  | _ :: _, _, _, .cons h1 h2, .cons h3 h4 => by
    obtain ⟨a, b, c⟩ := chunks_of_parts h2 h4
    exact ⟨.cons ⟨h1.1, h1.2, h3⟩ a, by simp [b], by simp [c]⟩

/-- What is read is the content of the record. -/
theorem read_contains {cx : Codecs} {file : Bytes} {toc : Option Bytes} {f : WadFormat} {r : WadRecord} {d : Bytes} {w : WadEntry}
    (hw : IsEntry f r w) (h : readData cx w file toc = .ok (some d)) : Spec.Contains cx file toc f r (some d) := by
  obtain ⟨p, e, rfl⟩ := hw
  have hst : ∀ w : WadEntry, w = { r.entry f with path := p, ext := e } → slice w.offset (w.offset + w.compressedSize) file = Spec.packed file r := by
    rintro w rfl; rfl
  have hty : ({ r.entry f with path := p, ext := e } : WadEntry).type = r.type := rfl
  generalize hw : ({ r.entry f with path := p, ext := e } : WadEntry) = w at h hty
  have hst := hst w hw.symm
  rcases Nat.lt_or_ge 4 r.type with h4 | h4
  · rw [C11_unsupported cx w file toc (by omega)] at h; cases h
  · have hcase : r.type = 0 ∨ r.type = 1 ∨ r.type = 2 ∨ r.type = 3 ∨ r.type = 4 := by omega
    rcases hcase with ht | ht | ht | ht | ht
    · rw [C11_raw cx w file toc (by omega), hst] at h
      cases h
      exact .raw ht
    · obtain ⟨b, h1, h2⟩ := (C11_gzip cx w file toc (by omega) _).1 h
      cases h1
      rw [hst] at h2
      exact .gzip _ ht h2
    · exact absurd h ((C11_redirect cx w file toc).1 (by omega) d)
    · obtain ⟨b, h1, h2⟩ := (C11_zstd cx w file toc (by omega) _).1 h
      cases h1
      rw [hst] at h2
      exact .zstd _ ht h2
    · cases toc with
      | none =>
        have h2 := ((C11_no_toc cx w file (by omega)).1 d).1 h
        rw [hst] at h2
        exact .whole _ ht rfl h2
      | some t =>
        cases hf : w.firstSubchunk with
        | none =>
          simp [readData, hty, ht, hf] at h
        | some first =>
          have hfirst : first = r.first ∧ f ≠ .v1 := by
            rw [← hw] at hf
            cases f <;> simp [WadRecord.entry] at hf ⊢ <;> exact hf.symm
          obtain ⟨rfl, hv⟩ := hfirst
          obtain ⟨h1, h2, plains, h3, rfl⟩ := (C11_subchunks cx w file t r.first (by omega) hf d).1 h
          have hsc : w.subchunkCount = r.subchunks := by rw [← hw]; rfl
          rw [hst, hsc] at h2 h3
          rw [hsc] at h1
          obtain ⟨a, b, c⟩ := chunks_of_parts h2 h3
          obtain ⟨tail, htail⟩ := cut_flatten [] (List.map (·.compressedSize) (subchunkRecords t r.first r.subchunks)) (Spec.packed file r)
          have := Spec.Contains.chunks (cx := cx) (file := file) (r := r) t _ tail ht rfl hv h1 a (by rw [b]; exact htail)
          rw [c] at this
          exact this

/-! ### Extensions -/

theorem hasExt_iff {p e : Str} : Spec.HasExt p e ↔ (splitext p).2 = '.' :: e := by
  constructor
  · rintro ⟨dir, stem, rfl, hd, hs, he, hdot, c, hc, hne⟩
    rw [List.append_assoc, splitext_dir hd (by simp [hs, he])]
    rw [rsplit1_eq_some.2 ⟨rfl, hdot⟩]
    simp only
    rw [if_neg]
    simp only [List.all_eq_true, decide_eq_true_eq]
    exact fun h => hne (h c hc)
  · intro h
    rcases splitext_cases p with h' | ⟨dir, stem, ext, hp, hd, hs, he, hdot, hc, h'⟩
    · rw [h'] at h; cases h
    · rw [h'] at h
      simp only [List.cons.injEq, true_and] at h
      subst h
      exact ⟨dir, stem, hp, hd, hs, he, hdot, hc⟩

theorem not_hasExt_iff {p : Str} : (∀ e, ¬ Spec.HasExt p e) ↔ (splitext p).2 = [] := by
  constructor
  · intro h
    rcases splitext_cases p with h' | ⟨dir, stem, ext, hp, hd, hs, he, hdot, hc, h'⟩
    · rw [h']
    · exact absurd (hasExt_iff.2 (by rw [h'])) (h ext)
  · intro h e he
    rw [hasExt_iff, h] at he
    cases he

theorem hasExt_root {p e : Str} (h : Spec.HasExt p e) : p = (splitext p).1 ++ '.' :: e := by
  rw [hasExt_iff] at h
  rcases splitext_cases p with h' | ⟨dir, stem, ext, hp, -, -, -, -, -, h'⟩
  · rw [h'] at h; cases h
  · rw [h'] at h ⊢
    simp only [List.cons.injEq, true_and] at h
    subst h
    exact hp

theorem not_hasExt_root {p : Str} (h : ∀ e, ¬ Spec.HasExt p e) : (splitext p).1 = p := by
  rcases splitext_cases p with h' | ⟨dir, stem, ext, hp, -, -, -, -, -, h'⟩
  · rw [h']
  · exact absurd (hasExt_iff.2 (by rw [h'])) (h ext)

/-! ### Opening -/

/-- The entry of a record after the resolution of paths -/
def resolvedEntry (hashes : Dict Int Str) (f : WadFormat) (r : WadRecord) : WadEntry :=
  match hashes.get? (r.hash : Int) with
  | some p => { r.entry f with path := some p, ext := some ((splitext p).2.drop 1) }
  | none => r.entry f

theorem resolvedEntry_known {hashes : Dict Int Str} {r : WadRecord} {p : Str} (f : WadFormat) (h : Spec.KnownAs hashes r p) :
    resolvedEntry hashes f r = { r.entry f with path := some p, ext := some ((splitext p).2.drop 1) } := by
  unfold resolvedEntry
  rw [show hashes.get? (r.hash : Int) = some p from h]

theorem resolvedEntry_unknown {hashes : Dict Int Str} {r : WadRecord} (f : WadFormat) (h : ∀ p, ¬ Spec.KnownAs hashes r p) :
    resolvedEntry hashes f r = r.entry f := by
  unfold resolvedEntry
  cases hg : hashes.get? (r.hash : Int) with
  | none => rfl
  | some p => exact absurd hg (h p)

theorem resolvedEntry_isEntry (hashes : Dict Int Str) (f : WadFormat) (r : WadRecord) : IsEntry f r (resolvedEntry hashes f r) := by
  unfold resolvedEntry
  split
  · exact ⟨_, _, rfl⟩
  · exact ⟨none, none, rfl⟩

theorem resolvedEntry_hash (hashes : Dict Int Str) (f : WadFormat) (r : WadRecord) : (resolvedEntry hashes f r).pathHash = r.hash := by
  unfold resolvedEntry
  split <;> rfl

theorem resolvedEntry_path (hashes : Dict Int Str) (f : WadFormat) (r : WadRecord) :
    (resolvedEntry hashes f r).path = hashes.get? (r.hash : Int) := by
  unfold resolvedEntry
  split
  · rename_i h; rw [h]
  · rename_i h; rw [h]; rfl

theorem resolvePaths_records (hashes : Dict Int Str) (f : WadFormat) (rs : List WadRecord) :
    resolvePaths hashes (rs.map (WadRecord.entry f)) = rs.map (resolvedEntry hashes f) := by
  unfold resolvePaths
  rw [List.map_map]
  apply List.map_congr_left
  intro r _
  show (match hashes.get? (r.hash : Int) with
    | some p => { r.entry f with path := some p, ext := some ((splitext p).2.drop 1) }
    | none => r.entry f) = _
  rfl

theorem loadSubchunkToc_skip (cx : Codecs) (hashes : Dict Int Str) (file : Bytes) (f : WadFormat) (before : List WadRecord) (rest : List WadEntry)
    (h : ∀ r ∈ before, ¬ Spec.IsToc hashes r) :
    loadSubchunkToc cx file (before.map (resolvedEntry hashes f) ++ rest) = loadSubchunkToc cx file rest := by
  induction before with
  | nil => rfl
  | cons r before ih =>
    rw [List.map_cons, List.cons_append, loadSubchunkToc, resolvedEntry_path]
    rw [ih (fun x hx => h x (by simp [hx]))]
    cases hg : hashes.get? (r.hash : Int) with
    | none => rfl
    | some p =>
      simp only
      rw [if_neg]
      intro he
      rw [endsWith_iff] at he
      obtain ⟨s, rfl⟩ := he
      exact h r (by simp) ⟨s, hg⟩

theorem loadSubchunkToc_toc (cx : Codecs) (hashes : Dict Int Str) (file : Bytes) (f : WadFormat) (r : WadRecord) (rest : List WadEntry)
    (h : Spec.IsToc hashes r) :
    loadSubchunkToc cx file (resolvedEntry hashes f r :: rest) = readData cx (resolvedEntry hashes f r) file none := by
  obtain ⟨s, hs⟩ := h
  rw [loadSubchunkToc, resolvedEntry_path, show hashes.get? (r.hash : Int) = _ from hs]
  simp only
  rw [if_pos (endsWith_iff.2 ⟨s, rfl⟩)]

theorem loadSubchunkToc_records {cx : Codecs} {hashes : Dict Int Str} {file : Bytes} {f : WadFormat} {rs : List WadRecord} {toc : Option Bytes}
    (h : Spec.TocOf cx hashes file f rs toc) : loadSubchunkToc cx file (rs.map (resolvedEntry hashes f)) = .ok toc := by
  rcases h with ⟨h, rfl⟩ | ⟨before, r, after, t, rfl, h1, h2, h3, rfl⟩
  · have := loadSubchunkToc_skip cx hashes file f rs [] h
    rw [List.append_nil] at this
    rw [this]; rfl
  · rw [List.map_append, List.map_cons, loadSubchunkToc_skip cx hashes file f before _ h1, loadSubchunkToc_toc cx hashes file f r _ h2]
    exact (contains_read h3 (resolvedEntry_isEntry hashes f r)).1 t rfl

theorem openWad_archive {cx : Codecs} {hashes : Dict Int Str} {file : Bytes} {f : WadFormat} {version : Nat × Nat} {rs : List WadRecord}
    {toc : Option Bytes} (h : Spec.IsArchive cx hashes file f version rs toc) :
    openWad cx hashes file = .ok { version, file, files := rs.map (resolvedEntry hashes f), toc } := by
  obtain ⟨filler, trailing, h1, h2⟩ := h.layout
  have h3 := C10_decode f version.1 version.2 h.format h.minor filler h1 rs h.fits h.count trailing
  rw [← h2] at h3
  unfold openWad
  rw [h3]
  show (do
    let toc ← loadSubchunkToc cx file (resolvePaths hashes (rs.map (WadRecord.entry f)))
    Except.ok (WadFile.mk (version.1, version.2) file (resolvePaths hashes (rs.map (WadRecord.entry f))) toc)) = _
  rw [resolvePaths_records, loadSubchunkToc_records h.table]
  rfl

theorem defaultHashfile_spec {dir wad path : Str} {opt : Option Str} (h : Spec.HashFileOf dir wad opt path) :
    hashFilePath dir wad opt = .ok path := by
  rcases h with rfl | ⟨rfl, ⟨s, rfl⟩, rfl⟩ | ⟨rfl, ⟨s, rfl⟩, rfl⟩
  · rfl
  · simp only [hashFilePath, defaultHashfile]
    rw [if_pos (endsWith_iff.2 ⟨s, rfl⟩)]
  · simp only [hashFilePath, defaultHashfile]
    rw [if_neg, if_pos (endsWith_iff.2 ⟨s, rfl⟩)]
    rw [endsWith_iff]
    rintro ⟨t, ht⟩
    have := congrArg List.getLast? ht
    simp at this

theorem commandOpen_opens {cx : Codecs} {dir : Str} {fs : FS} {path : Str} {opt : Option Str} {hashes : Dict Int Str} {file : Bytes} {f : WadFormat}
    {version : Nat × Nat} {rs : List WadRecord} {toc : Option Bytes} (h : Spec.Opens cx dir fs path opt hashes file f version rs toc) :
    commandOpen cx dir fs path opt = .ok { version, file, files := rs.map (resolvedEntry hashes f), toc } := by
  obtain ⟨hp, text, h1, h2, h3⟩ := h.known
  unfold commandOpen
  rw [defaultHashfile_spec h1]
  have h4 : loadHashFile fs hp = .ok hashes := by
    unfold loadHashFile FS.readFile
    rw [h2]
    show (do let text ← utf8 (utf8Bytes text); loadText text) = _
    rw [utf8_utf8Bytes]
    exact h3
  show (do
    let d ← loadHashFile fs hp
    let file ← fs.readFile path
    openWad cx d file) = _
  rw [h4]
  show (do
    let file ← fs.readFile path
    openWad cx hashes file) = _
  unfold FS.readFile
  rw [h.wad]
  exact openWad_archive h.archive

/-! ### Selection -/

theorem wadSelect_records (fnmatch : Str → Str → Bool) (hashes : Dict Int Str) (args : WadArgs) (f : WadFormat) (rs : List WadRecord) :
    ∃ sel : List WadRecord, List.Sublist sel rs ∧ (∀ r ∈ rs, r ∈ sel ↔ Spec.Selected fnmatch hashes args r) ∧
      wadSelect fnmatch args.unknown args.patterns (rs.map (resolvedEntry hashes f)) = sel.map (resolvedEntry hashes f) := by
  classical
  refine ⟨rs.filter fun r => decide (Spec.Selected fnmatch hashes args r), List.filter_sublist, ?_, ?_⟩
  · intro r hr; simp [hr]
  · unfold wadSelect
    simp only
    rw [List.filter_map]
    have hk : ∀ r : WadRecord, (keepUnknown args.unknown ∘ resolvedEntry hashes f) r = match args.unknown with
          | .yes => true
          | .only => (hashes.get? (r.hash : Int)).isNone
          | .no => (hashes.get? (r.hash : Int)).isSome := by
      intro r
      simp only [Function.comp, keepUnknown, resolvedEntry_path]
      cases args.unknown <;> rfl
    rw [funext hk]
    by_cases hp : args.patterns = []
    · rw [if_pos (by simp [hp])]
      congr 1
      apply List.filter_congr
      intro r _
      rw [Bool.eq_iff_iff, decide_eq_true_eq]
      constructor
      · intro h
        refine ⟨?_, ?_, fun hn => absurd hp hn⟩
        · intro hu p hk
          rw [hu] at h
          simp only at h
          rw [show hashes.get? (r.hash : Int) = some p from hk] at h
          cases h
        · intro hu
          rw [hu] at h
          simp only at h
          exact Option.isSome_iff_exists.1 h
      · rintro ⟨ho, hn, -⟩
        cases hu : args.unknown with
        | yes => rfl
        | only =>
          simp only
          rw [Option.isNone_iff_eq_none]
          cases hg : hashes.get? (r.hash : Int) with
          | none => rfl
          | some p => exact absurd hg (ho hu p)
        | no => exact Option.isSome_iff_exists.2 (hn hu)
    · rw [if_neg (by simpa using hp), List.filter_map, List.filter_filter]
      congr 1
      apply List.filter_congr
      intro r _
      rw [Bool.eq_iff_iff, decide_eq_true_eq]
      simp only [Function.comp_def, resolvedEntry_path, Bool.and_eq_true, List.any_eq_true]
      constructor
      · rintro ⟨⟨pat, hpat, hm⟩, h⟩
        refine ⟨?_, ?_, fun _ => ?_⟩
        · intro hu p hk
          rw [hu] at h
          simp only at h
          rw [show hashes.get? (r.hash : Int) = some p from hk] at h
          cases h
        · intro hu
          rw [hu] at h
          simp only at h
          exact Option.isSome_iff_exists.1 h
        · cases hg : hashes.get? (r.hash : Int) with
          | none => rw [hg] at hm; cases hm
          | some p => rw [hg] at hm; exact ⟨p, hg, pat, hpat, hm⟩
      · rintro ⟨ho, hn, hpt⟩
        obtain ⟨p, hk, pat, hpat, hm⟩ := hpt hp
        have hk' : hashes.get? (r.hash : Int) = some p := hk
        refine ⟨⟨pat, hpat, by rw [hk']; exact hm⟩, ?_⟩
        cases hu : args.unknown with
        | yes => rfl
        | only => exact absurd hk (ho hu p)
        | no => rw [hk']; rfl

/-! ### Guessed extensions -/

/-- The extension of an entry after guessing, when nothing was guessed before -/
def guessedEntry (cx : Codecs) (file : Bytes) (toc : Option Bytes) (w : WadEntry) : WadEntry :=
  if noExt w.ext then { w with ext := plainGuess cx ⟨file, toc, []⟩ w } else w

theorem guessLoop_fresh (cx : Codecs) (file : Bytes) (toc : Option Bytes) : ∀ (ws : List WadEntry) (cache : Dict Nat (Option Str)),
    (∀ w ∈ ws, noExt w.ext = true → w.ext = none ∧ ∃ c, readFileData cx w file toc = .ok c) →
    (guessLoop cx file toc cache ws).2 = (ws.map (guessedEntry cx file toc), .ok ())
  | [], cache, _ => rfl
  | w :: ws, cache, h => by
    have ih := fun c => guessLoop_fresh cx file toc ws c (fun w hw => h w (by simp [hw]))
    rw [guessLoop, List.map_cons]
    by_cases hn : noExt w.ext = true
    · obtain ⟨h1, c, h2⟩ := h w (by simp) hn
      rw [if_pos hn, h2]
      have hg : guessedEntry cx file toc w = { w with ext := plainGuess cx ⟨file, toc, []⟩ w } := if_pos hn
      have same : ({ w with ext := none } : WadEntry) = w := by rw [← h1]
      cases c with
      | none =>
        have := ih cache
        rcases hgl : guessLoop cx file toc cache ws with ⟨c, ws', r⟩
        rw [hgl] at this
        simp only at this ⊢
        cases this
        rw [hg]
        simp only [plainGuess, h2, same]
      | some d =>
        simp only
        by_cases hd : d = []
        · rw [if_pos (by simp [hd])]
          have := ih cache
          rcases hgl : guessLoop cx file toc cache ws with ⟨c, ws', r⟩
          rw [hgl] at this
          simp only at this ⊢
          cases this
          rw [hg]
          simp only [plainGuess, h2, hd, if_true, same]
        · rw [if_neg (by simpa using hd)]
          have := ih (cache.set w.pathHash (guessExtension cx d))
          rcases hgl : guessLoop cx file toc (cache.set w.pathHash (guessExtension cx d)) ws with ⟨c, ws', r⟩
          rw [hgl] at this
          simp only at this ⊢
          cases this
          rw [hg]
          simp only [plainGuess, h2, if_neg hd]
    · rw [if_neg hn]
      have hg : guessedEntry cx file toc w = w := if_neg hn
      have := ih cache
      rcases hgl : guessLoop cx file toc cache ws with ⟨c, ws', r⟩
      rw [hgl] at this
      simp only at this ⊢
      cases this
      rw [hg]

/-- When guessing ends normally, files without extension can be read. -/
theorem guessLoop_readable (cx : Codecs) (file : Bytes) (toc : Option Bytes) : ∀ (ws : List WadEntry) (cache : Dict Nat (Option Str)),
    (guessLoop cx file toc cache ws).2.2 = .ok () → ∀ w ∈ ws, noExt w.ext = true → ∃ c, readFileData cx w file toc = .ok c
  | [], _, _, w, hw, _ => by cases hw
  | w :: ws, cache, hok, w', hw', hn => by
    rw [guessLoop] at hok
    by_cases hx : noExt w.ext = true
    · rw [if_pos hx] at hok
      rcases hr : readFileData cx w file toc with e | c
      · rw [hr] at hok; cases hok
      · rw [hr] at hok
        rcases List.mem_cons.1 hw' with rfl | hw'
        · exact ⟨c, hr⟩
        · have key : ∃ cache', (guessLoop cx file toc cache' ws).2.2 = .ok () := by
            cases c with
            | none => exact ⟨cache, hok⟩
            | some d =>
              simp only at hok
              split at hok
              · exact ⟨cache, hok⟩
              · exact ⟨_, hok⟩
          obtain ⟨cache', hk⟩ := key
          exact guessLoop_readable cx file toc ws cache' hk w' hw' hn
    · rw [if_neg hx] at hok
      rcases List.mem_cons.1 hw' with rfl | hw'
      · exact absurd hn hx
      · exact guessLoop_readable cx file toc ws cache hok w' hw' hn

theorem guessExtensions_readable (cx : Codecs) (file : Bytes) (toc : Option Bytes) (ws : List WadEntry)
    (hok : (guessExtensions cx file toc [] ws).2.2 = .ok ()) : ∀ w ∈ ws, noExt w.ext = true → ∃ c, readFileData cx w file toc = .ok c := by
  intro w hw hn
  have hx : extsFromCache [] w = { w with ext := none } := if_pos hn
  have hmem := List.mem_map_of_mem (f := extsFromCache []) hw
  rw [hx] at hmem
  unfold guessExtensions at hok
  simp only at hok
  split at hok
  · rename_i hall
    rw [List.all_eq_true] at hall
    have := hall _ hmem
    cases this
  · have := guessLoop_readable cx file toc _ [] hok _ hmem rfl
    exact this

theorem guessExtensions_fresh (cx : Codecs) (file : Bytes) (toc : Option Bytes) (ws : List WadEntry)
    (h : ∀ w ∈ ws, noExt w.ext = true → ∃ c, readFileData cx w file toc = .ok c) :
    (guessExtensions cx file toc [] ws).2 = (ws.map (guessedEntry cx file toc), .ok ()) := by
  have hx : ∀ w : WadEntry, extsFromCache [] w = if noExt w.ext then { w with ext := none } else w := fun w => rfl
  have hsame : ∀ w : WadEntry, guessedEntry cx file toc (extsFromCache [] w) = guessedEntry cx file toc w := by
    intro w
    rw [hx]
    by_cases hn : noExt w.ext = true
    · rw [if_pos hn]
      unfold guessedEntry
      rw [if_pos hn, if_pos (by rfl)]
      rfl
    · rw [if_neg hn]
  unfold guessExtensions
  simp only
  split
  · rename_i hall
    simp only [Prod.mk.injEq, and_true]
    apply List.map_congr_left
    intro w hw
    rw [List.all_eq_true] at hall
    have hw' := hall _ (List.mem_map_of_mem (f := extsFromCache []) hw)
    rw [Bool.not_eq_true', hx] at hw'
    rw [hx]
    unfold guessedEntry
    by_cases hn : noExt w.ext = true
    · rw [if_pos hn] at hw'; cases hw'
    · rw [if_neg hn, if_neg hn]
  · rw [guessLoop_fresh cx file toc _ [] ?_]
    · rw [List.map_map]
      simp only [Prod.mk.injEq, and_true]
      apply List.map_congr_left
      intro w _
      exact hsame w
    · intro w' hw'
      rw [List.mem_map] at hw'
      obtain ⟨w, hw, rfl⟩ := hw'
      intro hn
      rw [hx] at hn ⊢
      by_cases hn' : noExt w.ext = true
      · rw [if_pos hn']
        exact ⟨rfl, h w hw hn'⟩
      · rw [if_neg hn'] at hn
        exact absurd hn hn'

/-! ### Names -/

/-- The extension guessed for data -/
def guessFor (cx : Codecs) (d : Bytes) : Option Str := if d = [] then none else guessExtension cx d

theorem dotGuess_eq (cx : Codecs) (d : Bytes) : Spec.dotGuess cx d = match guessFor cx d with
    | none => []
    | some [] => []
    | some e => '.' :: e := by
  unfold Spec.dotGuess guessFor
  split
  · rfl
  · rcases hg : guessExtension cx d with _ | _ | ⟨c, cs⟩
    · rfl
    · exact absurd hg (guessExtension_ne_nil cx d)
    · rfl

theorem firstMatch_mem {d : Bytes} {e : Str} : ∀ t : List (Matcher × Str), firstMatch d t = some e → ∃ m, (m, e) ∈ t
  | [], h => by cases h
  | (m, x) :: t, h => by
    rw [firstMatch] at h
    split at h
    · cases h; exact ⟨m, by simp⟩
    · obtain ⟨m', hm⟩ := firstMatch_mem t h; exact ⟨m', by simp [hm]⟩

/-- Guessed extensions are short, and are not paths. -/
theorem guessExtension_plain {cx : Codecs} {d : Bytes} {e : Str} (h : guessExtension cx d = some e) : '/' ∉ e ∧ e.length ≤ 13 := by
  unfold guessExtension at h
  have key : ∀ me ∈ magicTable, '/' ∉ me.2 ∧ me.2.length ≤ 13 := by decide +kernel
  split at h
  · rename_i e' hm
    cases h
    obtain ⟨m, hm⟩ := firstMatch_mem _ hm
    exact key _ hm
  · split at h
    · cases h; decide
    · cases h

theorem dotGuess_plain (cx : Codecs) (d : Bytes) : '/' ∉ Spec.dotGuess cx d ∧ (Spec.dotGuess cx d).length ≤ 14 := by
  unfold Spec.dotGuess
  split
  · simp
  · split
    · simp
    · rename_i e he
      obtain ⟨h1, h2⟩ := guessExtension_plain he
      simp [h1]; omega

theorem withExt_spec {cx : Codecs} {p q x : Str} {d : Bytes} {g : Option Str} (h : Spec.WithExt cx p d q x)
    (hg : (∀ e, ¬ Spec.HasExt p e) → g = guessFor cx d) : withExt p g = q ∧ wantedExt p g = x := by
  rcases h with ⟨rfl, e, he, rfl⟩ | ⟨hn, rfl, rfl⟩
  · rw [hasExt_iff] at he
    unfold withExt wantedExt
    rw [he]
    simp
  · have hg := hg hn
    rw [not_hasExt_iff] at hn
    have hw : wantedExt p g = ".cdtb".toList ++ Spec.dotGuess cx d := by
      unfold wantedExt
      rw [hn, if_neg (by simp), dotGuess_eq, hg]
      rcases guessFor cx d with _ | _ | _ <;> rfl
    refine ⟨?_, hw⟩
    unfold withExt
    rw [hn, if_neg (by simp), hw]

theorem plainGuess_contains {cx : Codecs} {file : Bytes} {toc : Option Bytes} {f : WadFormat} {r : WadRecord} {d : Bytes} {w : WadEntry}
    (h : Spec.Contains cx file toc f r (some d)) (hw : IsEntry f r w) : plainGuess cx ⟨file, toc, []⟩ w = guessFor cx d := by
  unfold plainGuess guessFor
  rw [contains_readFile h hw]

/-- Where a file is extracted -/
theorem outPath_named {cx : Codecs} {hashes : Dict Int Str} {file : Bytes} {toc : Option Bytes} {f : WadFormat} {r : WadRecord} {d : Bytes} {name : Str}
    (out : Str) (hfit : r.hash < 256 ^ 8) (hc : Spec.Contains cx file toc f r (some d)) (hn : Spec.WadName cx hashes r d name) :
    outPath out (guessedEntry cx file toc (resolvedEntry hashes f r)) = pjoin out name := by
  have hfit : r.hash < 2 ^ 64 := by omega
  have hguess := plainGuess_contains hc (resolvedEntry_isEntry hashes f r)
  have hkn : ∀ p, Spec.KnownAs hashes r p → p ≠ [] → ∀ q x, Spec.WithExt cx p d q x →
      ∃ w : WadEntry, guessedEntry cx file toc (resolvedEntry hashes f r) = w ∧ w.path = some p ∧ w.pathHash = r.hash ∧
        withExt p w.ext = q ∧ wantedExt p w.ext = x := by
    intro p hp hne q x hq
    refine ⟨_, rfl, ?_, ?_, ?_⟩
    · unfold guessedEntry
      split <;> rw [resolvedEntry_known f hp]
    · unfold guessedEntry
      split <;> rw [resolvedEntry_known f hp] <;> rfl
    · apply withExt_spec hq
      intro hno
      rw [not_hasExt_iff] at hno
      unfold guessedEntry
      rw [if_pos]
      · exact hguess
      · rw [resolvedEntry_known f hp, hno]; rfl
  unfold outPath
  congr 1
  cases hn with
  | short p q x hp hne hq hlen =>
    obtain ⟨w, hw, h1, h2, h3, h4⟩ := hkn p hp hne _ _ hq
    rw [hw]
    have hs : sanitizePath w = { w with path := some name } := by
      rw [sanitizePath_eq w p h1 hne, h3, if_neg (by omega)]
    rw [hs]
    have hne' : name ≠ [] := by
      rcases hq with ⟨rfl, -⟩ | ⟨-, rfl, rfl⟩
      · exact hne
      · simp [hne]
    rw [(C12_keeps "unknown".toList { w with path := some name }).1 (by simp [Unresolved, hne'])]
    rfl
  | long p q x hex hp hne hq hlen hx hhex =>
    obtain ⟨w, hw, h1, h2, h3, h4⟩ := hkn p hp hne _ _ hq
    rw [hw]
    have hhex' : hexW 16 w.pathHash = hex := by
      rw [h2]; exact (hex16_hexW hfit).unique hhex
    have hs := sanitizePath_eq w p h1 hne
    rw [h3, h4, if_pos hlen, hhex'] at hs
    have hsl : sliceTo (basename q) (250 - 17 - (x.length : Int)) = (basename q).take (233 - x.length) := by
      unfold sliceTo
      rw [if_pos (by omega)]
      congr 1
      omega
    rw [hsl] at hs
    rw [hs]
    rw [(C12_keeps "unknown".toList _).1]
    · simp
    · simp only [Unresolved, Option.some.injEq, reduceCtorEq, false_or]
      unfold pjoin
      split
      · simp
      · split <;> simp
  | unknown hex hp hhex =>
    have hun : Unresolved (resolvedEntry hashes f r) ∧ noExt (resolvedEntry hashes f r).ext = true := by
      unfold Unresolved
      cases hg : hashes.get? (r.hash : Int) with
      | none =>
        rw [resolvedEntry_unknown f (fun p h => by rw [Spec.KnownAs, hg] at h; cases h)]
        exact ⟨Or.inl rfl, rfl⟩
      | some p =>
        have := hp p hg
        subst this
        rw [resolvedEntry_known f hg]
        exact ⟨Or.inr rfl, rfl⟩
    have hge : guessedEntry cx file toc (resolvedEntry hashes f r) = { resolvedEntry hashes f r with ext := guessFor cx d } := by
      unfold guessedEntry
      rw [if_pos hun.2, hguess]
    rw [hge]
    have hu' : Unresolved { resolvedEntry hashes f r with ext := guessFor cx d } := hun.1
    rw [(C13_only_path _).1 hu']
    obtain ⟨hex', h1, h2⟩ := C12_name "unknown".toList _ hu' (by
      show (resolvedEntry hashes f r).pathHash < 2 ^ 64
      rw [resolvedEntry_hash]; exact hfit)
    rw [h2]
    have h3 : hex' = hex := by
      have h4 : Hex16 hex' r.hash := by
        have := h1
        rw [show ({ resolvedEntry hashes f r with ext := guessFor cx d } : WadEntry).pathHash = r.hash from resolvedEntry_hash hashes f r] at this
        exact this
      exact h4.unique hhex
    rw [h3, dotGuess_eq]
    rw [Option.getD_some]
    show "unknown".toList ++ '/' :: hex ++ _ = _
    rw [show ("unknown/".toList : Str) = "unknown".toList ++ ['/'] by decide]
    simp only [List.append_assoc, List.cons_append, List.nil_append]
    rfl

/-! ### Extraction -/

theorem pjoin_dirname {out name : Str} (h : out ≠ []) : dirname (pjoin out name) ≠ [] := by
  have hs : '/' ∈ pjoin out name := by
    unfold pjoin
    split
    · rename_i hn
      unfold startsWith at hn
      obtain ⟨t, rfl⟩ := List.isPrefixOf_iff_prefix.1 hn
      simp
    · split
      · rename_i hn
        simp only [Bool.or_eq_true, List.isEmpty_iff, h, false_or] at hn
        obtain ⟨t, rfl⟩ := endsWith_iff.1 hn
        simp
      · simp
  unfold dirname psplit
  cases hr : rsplit1 '/' (pjoin out name) with
  | none => exact absurd hs (rsplit1_eq_none.1 hr)
  | some db =>
    obtain ⟨d, b⟩ := db
    simp only
    split
    · simp
    · rename_i hall
      simp only [List.all_eq_true, decide_eq_true_eq, not_forall] at hall
      obtain ⟨c, hc, hne⟩ := hall
      obtain ⟨t, x, h1, -⟩ := rstripChar_last (c := '/') ⟨c, hc, hne⟩
      simp only
      rw [h1]; simp

/-- The paths written for readable entries -/
def OwnPaths (cx : Codecs) (file : Bytes) (toc : Option Bytes) (output : Str) (ws : List WadEntry) (x : Str) : Prop :=
  ∃ w ∈ ws, ∃ d, Readable cx file toc w d ∧ x = outPath output w

/-- Two paths that do not interfere -/
def ApartPaths (x y : Str) : Prop := x ≠ y ∧ ¬ Spec.DirOf x y ∧ ¬ Spec.DirOf y x

/-- Extraction without faults -/
theorem wadExtract_run (cx : Codecs) (file : Bytes) (toc : Option Bytes) (output : Str) : ∀ (ws : List WadEntry) (fs : FS),
    (∀ w ∈ ws, (∃ d, Readable cx file toc w d) ∨ readData cx w file toc = .ok none ∨ readData cx w file toc = .error .malformedSubchunk) →
    (∀ w ∈ ws, ∀ d, Readable cx file toc w d → Spec.Named (outPath output w) ∧ dirname (outPath output w) ≠ []) →
    ws.Pairwise (fun w w' => ∀ d d', Readable cx file toc w d → Readable cx file toc w' d' → ApartPaths (outPath output w) (outPath output w')) →
    (∀ w ∈ ws, ∀ d, Readable cx file toc w d → fs (outPath output w) ≠ some .dir ∧ ∀ q, Spec.DirOf q (outPath output w) → ∀ b, fs q ≠ some (.file b)) →
    ∃ fs', wadExtract cx file toc fs output true (ws.map fun w => (w, {})) = (fs', .ok ()) ∧
      (∀ w ∈ ws, ∀ d, Readable cx file toc w d → fs' (outPath output w) = some (.file d)) ∧
      TouchesOnly (OwnPaths cx file toc output ws) fs fs'
  | [], fs, _, _, _, _ => ⟨fs, rfl, by simp, TouchesOnly.refl _ _⟩
  | w :: ws, fs, hread, hname, hpair, hfree => by
    rw [List.pairwise_cons] at hpair
    have ih := fun fs1 => wadExtract_run cx file toc output ws fs1 (fun w hw => hread w (by simp [hw])) (fun w hw => hname w (by simp [hw])) hpair.2
    rw [List.map_cons, wadExtract_cons]
    simp only [Bool.not_true, Bool.false_and, Bool.false_eq_true, if_false]
    by_cases hr : ∃ d, Readable cx file toc w d
    · obtain ⟨d, hd⟩ := hr
      obtain ⟨hn, hdn⟩ := hname w (by simp) d hd
      obtain ⟨hf1, hf2⟩ := hfree w (by simp) d hd
      have hq : WriteFaults.Quiet {} := ⟨rfl, rfl, fun _ => rfl, rfl⟩
      have h1 := writeFileOrRemove_quiet (body := [.write d]) hq hn hf1 hf2 hdn
      have h2 := writeFileOrRemove_touches fs (outPath output w) [.write d] {}
      have h3 := writeFileOrRemove_clean (fs := fs) (body := [.write d]) (f := {}) rfl hn
      rw [extractEntry_readable hd]
      rcases hw : writeFileOrRemove fs (outPath output w) [.write d] {} with ⟨fs1, r⟩
      rw [hw] at h1 h2 h3
      simp only [bodyErr, List.findSome?_cons, List.findSome?_nil] at h1
      subst h1
      simp only at h2 h3 ⊢
      have h4 : fs1 (outPath output w) = some (.file d) := by
        have := h3.2
        simpa [bodyBytes] using this
      obtain ⟨fs', e1, e2, e3⟩ := ih fs1 (by
        intro w' hw' d' hd'
        obtain ⟨a1, a2, a3⟩ := hpair.1 w' hw' d d' hd hd'
        obtain ⟨b1, b2⟩ := hfree w' (by simp [hw']) d' hd'
        constructor
        · rcases h2 (outPath output w') (fun h => a1 h.symm) with h | ⟨h, -, -⟩
          · rw [h]; exact b1
          · exact absurd (dirPrefixes_dirOf h) a3
        · intro q hq b
          by_cases hqw : q = outPath output w
          · subst hqw; exact absurd hq a2
          · rcases h2 q hqw with h | ⟨-, -, h⟩
            · rw [h]; exact b2 q hq b
            · rw [h]; simp)
      refine ⟨fs', e1, ?_, ?_⟩
      · intro w' hw' d' hd'
        rcases List.mem_cons.1 hw' with rfl | hw'
        · have : d' = d := by
            unfold Readable at hd hd'
            rw [hd] at hd'; cases hd'; rfl
          subst this
          rcases e3 (outPath output w') (by
            rintro ⟨w'', hw'', d'', hd'', he⟩
            exact (hpair.1 w'' hw'' _ _ hd hd'').1 he) with h | ⟨-, h, -⟩
          · rw [h, h4]
          · rw [h4] at h; cases h
        · exact e2 w' hw' d' hd'
      · refine TouchesOnly.trans ?_ (e3.mono ?_)
        · intro q hq
          rcases h2 q (fun h => hq ⟨w, by simp, d, hd, h⟩) with h | ⟨ha, hb, hc⟩
          · exact Or.inl h
          · exact Or.inr ⟨⟨_, ⟨w, by simp, d, hd, rfl⟩, dirPrefixes_dirOf ha⟩, hb, hc⟩
        · rintro x ⟨w', hw', hx⟩
          exact ⟨w', by simp [hw'], hx⟩
    · have he : extractEntry cx file toc fs w (outPath output w) {} = (fs, .ok ()) := by
        unfold extractEntry
        rcases hread w (by simp) with h | h | h
        · exact absurd h hr
        · rw [h]
        · rw [h]
      rw [he]
      simp only
      obtain ⟨fs', e1, e2, e3⟩ := ih fs (fun w hw => hfree w (by simp [hw]))
      refine ⟨fs', e1, ?_, e3.mono ?_⟩
      · intro w' hw' d' hd'
        rcases List.mem_cons.1 hw' with rfl | hw'
        · exact absurd ⟨d', hd'⟩ hr
        · exact e2 w' hw' d' hd'
      · rintro x ⟨w', hw', hx⟩
        exact ⟨w', by simp [hw'], hx⟩

/-! ### Targets -/

theorem contains_readable {cx : Codecs} {hashes : Dict Int Str} {file : Bytes} {toc : Option Bytes} {f : WadFormat} {r : WadRecord} {d : Bytes} :
    Spec.Contains cx file toc f r (some d) → Readable cx file toc (guessedEntry cx file toc (resolvedEntry hashes f r)) d := by
  intro h
  have hw := resolvedEntry_isEntry hashes f r
  have := (contains_read h hw).1 d rfl
  unfold Readable guessedEntry
  split
  · exact this
  · exact this

theorem guessedEntry_read (cx : Codecs) (file : Bytes) (toc : Option Bytes) (w : WadEntry) :
    readData cx (guessedEntry cx file toc w) file toc = readData cx w file toc := by
  unfold guessedEntry
  split <;> rfl

theorem readable_contains {cx : Codecs} {hashes : Dict Int Str} {file : Bytes} {toc : Option Bytes} {f : WadFormat} {r : WadRecord} {d : Bytes}
    {c : Option Bytes} (hc : Spec.Contains cx file toc f r c) (h : Readable cx file toc (guessedEntry cx file toc (resolvedEntry hashes f r)) d) : c = some d := by
  unfold Readable at h
  rw [guessedEntry_read] at h
  obtain ⟨h1, h2⟩ := contains_read hc (resolvedEntry_isEntry hashes f r)
  cases c with
  | none => rcases h2 rfl with h3 | h3 <;> rw [h3] at h <;> cases h
  | some d' =>
    rw [h1 d' rfl] at h
    cases h; rfl

/-- Every file has a name, when the extensions of known paths are not too long. -/
theorem wadName_exists (cx : Codecs) (hashes : Dict Int Str) (r : WadRecord) (d : Bytes) (hfit : r.hash < 256 ^ 8)
    (hext : ∀ p e, Spec.KnownAs hashes r p → Spec.HasExt p e → e.length ≤ 232) : ∃ name, Spec.WadName cx hashes r d name := by
  have hfit : r.hash < 2 ^ 64 := by omega
  by_cases hk : ∃ p, Spec.KnownAs hashes r p ∧ p ≠ []
  · obtain ⟨p, hp, hne⟩ := hk
    have hq : ∃ q x, Spec.WithExt cx p d q x ∧ x.length ≤ 233 := by
      by_cases he : ∃ e, Spec.HasExt p e
      · obtain ⟨e, he⟩ := he
        exact ⟨p, '.' :: e, Or.inl ⟨rfl, e, he, rfl⟩, by have := hext p e hp he; simp; omega⟩
      · refine ⟨_, _, Or.inr ⟨fun e h => he ⟨e, h⟩, rfl, rfl⟩, ?_⟩
        have := (dotGuess_plain cx d).2
        rw [List.length_append]
        have h5 : (".cdtb".toList : Str).length = 5 := by decide
        omega
    obtain ⟨q, x, hq, hx⟩ := hq
    by_cases hl : (basename q).length < 250
    · exact ⟨_, .short p q x hp hne hq hl⟩
    · exact ⟨_, .long p q x _ hp hne hq (by omega) hx (hex16_hexW hfit)⟩
  · exact ⟨_, .unknown _ (fun p hp => by_contra fun hne => hk ⟨p, hp, hne⟩) (hex16_hexW hfit)⟩

theorem named_of_last {a b : Str} (h : b ≠ []) (hb : '/' ∉ b) : Spec.Named (a ++ b) := by
  obtain ⟨b', c, rfl⟩ : ∃ b' c, b = b' ++ [c] := ⟨b.dropLast, b.getLast h, (List.dropLast_append_getLast h).symm⟩
  exact ⟨a ++ b', c, by simp, fun hc => hb (by simp [hc])⟩

theorem withExt_named {cx : Codecs} {p q x : Str} {d : Bytes} (h : Spec.WithExt cx p d q x) : Spec.Named q ∧ x ≠ [] ∧ '/' ∉ x := by
  rcases h with ⟨rfl, e, ⟨dir, stem, rfl, -, -, he, -⟩, rfl⟩ | ⟨-, rfl, rfl⟩
  · exact ⟨named_of_last (by simp) (by simp [he]), by simp, by simp [he]⟩
  · have := (dotGuess_plain cx d).1
    have h1 : '/' ∉ ".cdtb".toList ++ Spec.dotGuess cx d := by
      rw [List.mem_append]; rintro (h | h)
      · revert h; decide
      · exact this h
    exact ⟨named_of_last (by simp) h1, by simp, h1⟩

theorem wadName_named {cx : Codecs} {hashes : Dict Int Str} {r : WadRecord} {d : Bytes} {name : Str} (h : Spec.WadName cx hashes r d name) :
    Spec.Named name := by
  cases h with
  | short p q x _ _ hq _ => exact (withExt_named hq).1
  | long p q x hex _ _ hq _ _ hhex =>
    obtain ⟨-, h1, h2⟩ := withExt_named hq
    have hn : Spec.Named ((basename q).take (233 - x.length) ++ '.' :: hex ++ x) := named_of_last h1 h2
    exact hn.pjoin
  | unknown hex _ hhex =>
    rw [List.append_assoc]
    refine named_of_last ?_ ?_
    · intro h
      have h1 := hhex.length
      rw [List.append_eq_nil_iff] at h
      rw [h.1] at h1
      cases h1
    · rw [List.mem_append]
      rintro (h | h)
      · exact hhex.no_special.1 h
      · exact (dotGuess_plain cx d).1 h

end Cdtb
