import Verif.Model.Wad
import Verif.Lemmas.FS
import Verif.Props.C12
import Verif.Props.C13
/-!
# C14 Extraction of a WAD
-/
namespace Cdtb
set_option autoImplicit false
open Py

/-- Where an entry is extracted: below `output`, at its sanitized path (C13), or at the path of unknown
files (C12). -/
def outPath (output : Str) (w : WadEntry) : Str :=
  pjoin output ((setUnknownPath "unknown".toList (sanitizePath w)).path.getD [])

/-- The data of a readable entry: not a redirection, not a malformed subchunk, no other error. -/
def Readable (cx : Codecs) (file : Bytes) (toc : Option Bytes) (w : WadEntry) (d : Bytes) : Prop :=
  readData cx w file toc = .ok (some d)

theorem readData_path (cx : Codecs) (w : WadEntry) (p : Option Str) (file : Bytes) (toc : Option Bytes) :
    readData cx { w with path := p } file toc = readData cx w file toc := rfl

theorem readData_final (cx : Codecs) (w : WadEntry) (file : Bytes) (toc : Option Bytes) :
    readData cx (setUnknownPath "unknown".toList (sanitizePath w)) file toc = readData cx w file toc := by
  obtain ⟨p, hp⟩ := (C13_only_path w).2
  obtain ⟨q, hq, -⟩ := (C12_keeps "unknown".toList (sanitizePath w)).2
  rw [hq, hp]
  rfl

/-- The loop, on entries and output paths. -/
theorem wadExtract_cons (cx : Codecs) (file : Bytes) (toc : Option Bytes) (fs : FS) (output : Str) (ow : Bool)
    (w : WadEntry) (f : WriteFaults) (ws : List (WadEntry × WriteFaults)) :
    wadExtract cx file toc fs output ow ((w, f) :: ws) =
      if !ow && (fs (outPath output w)).isSome then wadExtract cx file toc fs output ow ws
      else match extractEntry cx file toc fs w (outPath output w) f with
        | (fs', .ok ()) => wadExtract cx file toc fs' output ow ws
        | (fs', .error e) => (fs', .error e) := by
  unfold wadExtract
  simp only [List.map_cons, extractLoop]
  have : ∀ out, extractEntry cx file toc fs (setUnknownPath "unknown".toList (sanitizePath w)) out f =
      extractEntry cx file toc fs w out f := by
    intro out
    unfold extractEntry
    rw [readData_final]
  rw [this]
  rfl

/-- Effect of one entry. -/
theorem extractEntry_unreadable {cx : Codecs} {file : Bytes} {toc : Option Bytes} {w : WadEntry}
    (h : ∀ d, ¬ Readable cx file toc w d) (fs : FS) (out : Str) (f : WriteFaults) :
    (extractEntry cx file toc fs w out f).1 = fs := by
  unfold extractEntry
  unfold Readable at h
  rcases hr : readData cx w file toc with e | _ | d
  · cases e <;> rfl
  · rfl
  · exact absurd hr (h d)

theorem extractEntry_readable {cx : Codecs} {file : Bytes} {toc : Option Bytes} {w : WadEntry} {d : Bytes}
    (h : Readable cx file toc w d) (fs : FS) (out : Str) (f : WriteFaults) :
    extractEntry cx file toc fs w out f = match writeFileOrRemove fs out [.write d] f with
    | (fs', .ok ()) => (fs', .ok ())
    | (fs', .error e) => if e.isBadName then (fs', .ok ()) else (fs', .error e) := by
  unfold extractEntry
  unfold Readable at h
  rw [h]
  rfl

theorem extractEntry_fs {cx : Codecs} {file : Bytes} {toc : Option Bytes} {w : WadEntry} {d : Bytes}
    (h : Readable cx file toc w d) (fs : FS) (out : Str) (f : WriteFaults) :
    (extractEntry cx file toc fs w out f).1 = (writeFileOrRemove fs out [.write d] f).1 := by
  rw [extractEntry_readable h]
  rcases writeFileOrRemove fs out [.write d] f with ⟨fs', e | u⟩
  · simp only; split <;> rfl
  · rfl

/-- Whatever the faults and the outcome, an object that is not at the output path of a readable entry is
not changed: files and directories stay as they are, and only ancestors of output paths of readable entries
can be created, as directories. -/
theorem C14_frame (cx : Codecs) (file : Bytes) (toc : Option Bytes) (output : Str) (ow : Bool) (q : Str) :
    ∀ (ws : List (WadEntry × WriteFaults)) (fs : FS),
    (∀ wf ∈ ws, ∀ d, Readable cx file toc wf.1 d → q ≠ outPath output wf.1) →
    (wadExtract cx file toc fs output ow ws).1 q = fs q ∨
    (fs q = none ∧ (wadExtract cx file toc fs output ow ws).1 q = some .dir ∧
      ∃ wf ∈ ws, (∃ d, Readable cx file toc wf.1 d) ∧ q ∈ dirPrefixes (dirname (outPath output wf.1)))
  | [], fs, _ => Or.inl rfl
  | (w, f) :: ws, fs, h => by
    have ih := C14_frame cx file toc output ow q ws
    have hws : ∀ wf ∈ ws, ∀ d, Readable cx file toc wf.1 d → q ≠ outPath output wf.1 :=
      fun wf hwf => h wf (List.mem_cons_of_mem _ hwf)
    have lift : ∀ fs', ((wadExtract cx file toc fs' output ow ws).1 q = fs' q ∨
        (fs' q = none ∧ (wadExtract cx file toc fs' output ow ws).1 q = some .dir ∧
          ∃ wf ∈ ws, (∃ d, Readable cx file toc wf.1 d) ∧ q ∈ dirPrefixes (dirname (outPath output wf.1)))) →
        (fs' q = fs q ∨ (fs q = none ∧ fs' q = some .dir ∧ (∃ d, Readable cx file toc w d) ∧ q ∈ dirPrefixes (dirname (outPath output w)))) →
        ((wadExtract cx file toc fs' output ow ws).1 q = fs q ∨
        (fs q = none ∧ (wadExtract cx file toc fs' output ow ws).1 q = some .dir ∧
          ∃ wf ∈ (w, f) :: ws, (∃ d, Readable cx file toc wf.1 d) ∧ q ∈ dirPrefixes (dirname (outPath output wf.1)))) := by
      rintro fs' h1 (h2 | ⟨h2, h3, h4⟩)
      · rcases h1 with h1 | ⟨h1, h5, wf, h6, h7⟩
        · left; rw [h1, h2]
        · right; exact ⟨h2 ▸ h1, h5, wf, List.mem_cons_of_mem _ h6, h7⟩
      · right
        refine ⟨h2, ?_, (w, f), List.mem_cons_self .., h4⟩
        rcases h1 with h1 | ⟨h1, -⟩
        · rw [h1, h3]
        · rw [h3] at h1; cases h1
    have hentry : (extractEntry cx file toc fs w (outPath output w) f).1 q = fs q ∨
        (fs q = none ∧ (extractEntry cx file toc fs w (outPath output w) f).1 q = some .dir ∧
          (∃ d, Readable cx file toc w d) ∧ q ∈ dirPrefixes (dirname (outPath output w))) := by
      by_cases hr : ∃ d, Readable cx file toc w d
      · obtain ⟨d, hd⟩ := hr
        rw [extractEntry_fs hd]
        have := writeFileOrRemove_touches fs (outPath output w) [.write d] f q (h (w, f) (List.mem_cons_self ..) d hd)
        rcases this with h1 | ⟨h1, h2, h3⟩
        · exact Or.inl h1
        · exact Or.inr ⟨h2, h3, ⟨d, hd⟩, h1⟩
      · left; rw [extractEntry_unreadable (fun d hd => hr ⟨d, hd⟩)]
    rw [wadExtract_cons]
    split
    · exact lift fs (ih fs hws) (Or.inl rfl)
    · rcases he : extractEntry cx file toc fs w (outPath output w) f with ⟨fs', e | u⟩
      · rw [he] at hentry
        rcases hentry with h1 | ⟨h1, h2, h3⟩
        · exact Or.inl h1
        · exact Or.inr ⟨h1, h2, (w, f), List.mem_cons_self .., h3⟩
      · rw [he] at hentry
        exact lift fs' (ih fs' hws) hentry

/-- A file is never turned into something else by another entry. -/
theorem file_kept (cx : Codecs) (file : Bytes) (toc : Option Bytes) (output : Str) (ow : Bool) (q : Str)
    (ws : List (WadEntry × WriteFaults)) (fs : FS) (b : Bytes) (hb : fs q = some (.file b))
    (h : ∀ wf ∈ ws, ∀ d, Readable cx file toc wf.1 d → q ≠ outPath output wf.1) :
    (wadExtract cx file toc fs output ow ws).1 q = some (.file b) := by
  rcases C14_frame cx file toc output ow q ws fs h with h1 | ⟨h1, -⟩
  · rw [h1, hb]
  · rw [hb] at h1; cases h1

/-- Extraction with overwriting, when it ends normally: each readable entry whose write met no fault has its
data at its output path, unless a later readable entry has the same output path. -/
theorem C14_written (cx : Codecs) (file : Bytes) (toc : Option Bytes) (output : Str) (fs : FS)
    (before after : List (WadEntry × WriteFaults)) (w : WadEntry) (d : Bytes) (hd : Readable cx file toc w d)
    (hok : (wadExtract cx file toc fs output true (before ++ (w, {}) :: after)).2 = .ok ())
    (hlast : ∀ wf ∈ after, ∀ d', Readable cx file toc wf.1 d' → outPath output w ≠ outPath output wf.1) :
    (wadExtract cx file toc fs output true (before ++ (w, {}) :: after)).1 (outPath output w) = some (.file d) := by
  induction before generalizing fs with
  | nil =>
    rw [List.nil_append, wadExtract_cons] at hok ⊢
    simp only [Bool.not_true, Bool.false_and, Bool.false_eq_true, if_false] at hok ⊢
    rw [extractEntry_readable hd] at hok ⊢
    rcases hw : writeFileOrRemove fs (outPath output w) [.write d] {} with ⟨fs', e | u⟩
    · -- without faults, errors are not about names
      exfalso
      rw [hw] at hok
      have hr : (writeTry fs (outPath output w) [.write d] {}).2 = .error e := by
        rw [← writeFileOrRemove_result, hw]
      have : e.isBadName = false := by
        unfold writeTry at hr
        rcases hm : fs.makedirs (dirname (outPath output w)) none with ⟨fs1, e1 | u⟩
        · simp only [hm] at hr
          cases hr
          unfold FS.makedirs at hm
          split at hm
          · cases hm; rfl
          · have key : ∀ (ds : List Str) (fs fs1 : FS) e, makedirsGo fs none ds = (fs1, .error e) → e = .os 20 := by
              intro ds
              induction ds with
              | nil => intro fs fs1 e h; simp [makedirsGo] at h
              | cons x xs ih =>
                intro fs fs1 e h
                simp only [makedirsGo, Option.map_none] at h
                rcases hx : fs x with _ | _ | _
                · rw [hx] at h; exact ih _ _ _ h
                · rw [hx] at h; cases h; rfl
                · rw [hx] at h; exact ih _ _ _ h
            rw [key _ _ _ _ hm]; rfl
        · simp only [hm] at hr
          split at hr
          · cases hr; rfl
          · simp [closeFile, writeBody] at hr
      simp only [this, Bool.false_eq_true, if_false] at hok
      cases hok
    · rw [hw] at hok
      simp only at hok ⊢
      have h1 : fs' (outPath output w) = some (.file d) := by
        have h2 : (writeFileOrRemove fs (outPath output w) [.write d] {}).2 = .ok () := by rw [hw]
        have h3 := writeFileOrRemove_ok_fs h2
        rw [writeFileOrRemove_result] at h2
        have := (writeTry_ok h2).1
        rw [← h3, hw] at this
        simpa [bodyBytes] using this
      exact file_kept cx file toc output true _ after fs' d h1 hlast
  | cons wf before ih =>
    obtain ⟨w', f'⟩ := wf
    rw [List.cons_append, wadExtract_cons] at hok ⊢
    simp only [Bool.not_true, Bool.false_and, Bool.false_eq_true, if_false] at hok ⊢
    rcases he : extractEntry cx file toc fs w' (outPath output w') f' with ⟨fs', e | u⟩
    · rw [he] at hok; cases hok
    · rw [he] at hok
      exact ih fs' hok

/-- Errors are not hidden: when extraction with overwriting ends normally, every entry is readable, a
redirection or a malformed subchunk entry. -/
theorem C14_no_swallow (cx : Codecs) (file : Bytes) (toc : Option Bytes) (output : Str) :
    ∀ (ws : List (WadEntry × WriteFaults)) (fs : FS),
    (wadExtract cx file toc fs output true ws).2 = .ok () → ∀ wf ∈ ws,
    (∃ d, Readable cx file toc wf.1 d) ∨ readData cx wf.1 file toc = .ok none ∨
      readData cx wf.1 file toc = .error .malformedSubchunk
  | [], _, _, wf, h => by cases h
  | (w, f) :: ws, fs, hok, wf, hwf => by
    rw [wadExtract_cons] at hok
    simp only [Bool.not_true, Bool.false_and, Bool.false_eq_true, if_false] at hok
    rcases he : extractEntry cx file toc fs w (outPath output w) f with ⟨fs', e | u⟩
    · rw [he] at hok; cases hok
    · rw [he] at hok
      rcases List.mem_cons.1 hwf with rfl | hwf
      · unfold Readable
        unfold extractEntry at he
        rcases hr : readData cx w file toc with e | _ | d
        · rw [hr] at he
          cases e <;> first | (right; right; rfl) | cases he
        · right; left; rfl
        · left; exact ⟨d, rfl⟩
      · exact C14_no_swallow cx file toc output ws fs' hok wf hwf

/-- Without overwriting, whatever the faults and the outcome, everything that existed is left untouched. -/
theorem C14_lazy (cx : Codecs) (file : Bytes) (toc : Option Bytes) (output : Str) (q : Str) (n : Node) :
    ∀ (ws : List (WadEntry × WriteFaults)) (fs : FS), fs q = some n →
    (wadExtract cx file toc fs output false ws).1 q = some n
  | [], _, h => h
  | (w, f) :: ws, fs, h => by
    rw [wadExtract_cons]
    split
    · exact C14_lazy cx file toc output q n ws fs h
    · rename_i hex
      have hne : q ≠ outPath output w := by
        rintro rfl
        rw [h] at hex
        simp at hex
      have h1 : (extractEntry cx file toc fs w (outPath output w) f).1 q = some n := by
        by_cases hr : ∃ d, Readable cx file toc w d
        · obtain ⟨d, hd⟩ := hr
          rw [extractEntry_fs hd]
          rcases writeFileOrRemove_touches fs (outPath output w) [.write d] f q hne with h2 | ⟨-, h2, -⟩
          · rw [h2, h]
          · rw [h] at h2; cases h2
        · rw [extractEntry_unreadable (fun d hd => hr ⟨d, hd⟩), h]
      rcases he : extractEntry cx file toc fs w (outPath output w) f with ⟨fs', e | u⟩
      · rw [he] at h1; exact h1
      · rw [he] at h1
        exact C14_lazy cx file toc output q n ws fs' h1

/-- Without overwriting and without faults, when extraction ends normally, the output path of a readable
entry exists at the end, and it holds the data of that entry if it did not exist before and it is not the
output path of an earlier readable entry, nor an ancestor of one. -/
theorem C14_lazy_written (cx : Codecs) (file : Bytes) (toc : Option Bytes) (output : Str) (fs : FS)
    (before after : List (WadEntry × WriteFaults)) (w : WadEntry) (d : Bytes) (hd : Readable cx file toc w d)
    (hok : (wadExtract cx file toc fs output false (before ++ (w, {}) :: after)).2 = .ok ())
    (hnew : fs (outPath output w) = none)
    (hfirst : ∀ wf ∈ before, (∀ d', Readable cx file toc wf.1 d' → outPath output w ≠ outPath output wf.1) ∧
      outPath output w ∉ dirPrefixes (dirname (outPath output wf.1))) :
    (wadExtract cx file toc fs output false (before ++ (w, {}) :: after)).1 (outPath output w) = some (.file d) := by
  induction before generalizing fs with
  | nil =>
    rw [List.nil_append, wadExtract_cons] at hok ⊢
    have hc : (!false && (fs (outPath output w)).isSome) = false := by rw [hnew]; rfl
    simp only [hc, Bool.false_eq_true, if_false] at hok ⊢
    have h1 := C14_written cx file toc output fs [] [] w d hd
    rw [List.nil_append, wadExtract_cons] at h1
    simp only [Bool.not_true, Bool.false_and, Bool.false_eq_true, if_false] at h1
    rcases he : extractEntry cx file toc fs w (outPath output w) {} with ⟨fs', e | u⟩
    · rw [he] at hok; cases hok
    · rw [he] at hok h1
      exact C14_lazy cx file toc output _ _ after fs' (h1 rfl (by simp))
  | cons wf before ih =>
    obtain ⟨w', f'⟩ := wf
    rw [List.cons_append, wadExtract_cons] at hok ⊢
    split at hok
    · rename_i hc
      rw [if_pos hc]
      exact ih fs hok hnew (fun wf hwf => hfirst wf (List.mem_cons_of_mem _ hwf))
    · rename_i hc
      rw [if_neg hc]
      have h1 := C14_frame cx file toc output false (outPath output w) [(w', f')] fs
        (by intro wf hwf d' hd'; rw [List.mem_singleton.1 hwf] at hd' ⊢
            exact (hfirst (w', f') (List.mem_cons_self ..)).1 d' hd')
      have h2 := (hfirst (w', f') (List.mem_cons_self ..)).2
      rw [wadExtract_cons, if_neg hc] at h1
      rcases he : extractEntry cx file toc fs w' (outPath output w') f' with ⟨fs', e | u⟩
      · rw [he] at hok; cases hok
      · rw [he] at hok h1
        refine ih fs' hok ?_ (fun wf hwf => hfirst wf (List.mem_cons_of_mem _ hwf))
        rcases h1 with h1 | ⟨-, -, wf, hwf, -, h3⟩
        · rw [← hnew]; exact h1
        · rw [List.mem_singleton.1 hwf] at h3; exact absurd h3 h2

/-- The errors for names refused by the system: `EINVAL` and `ENAMETOOLONG` -/
theorem isBadName_iff {e : Err} : e.isBadName = true ↔ e = .os 22 ∨ e = .os 36 := by
  cases e <;> simp [Err.isBadName]

/-- A name refused by the system (`EINVAL`, 22, or `ENAMETOOLONG`, 36) is skipped: the other entries are still extracted. -/
theorem C14_bad_name (cx : Codecs) (file : Bytes) (toc : Option Bytes) (output : Str) (fs : FS) (w : WadEntry)
    (d : Bytes) (hd : Readable cx file toc w d) (f : WriteFaults) (e : Err) (he : e = .os 22 ∨ e = .os 36)
    (hf : (writeFileOrRemove fs (outPath output w) [.write d] f).2 = .error e)
    (ws : List (WadEntry × WriteFaults)) :
    wadExtract cx file toc fs output true ((w, f) :: ws) =
      wadExtract cx file toc (writeFileOrRemove fs (outPath output w) [.write d] f).1 output true ws := by
  rw [← isBadName_iff] at he
  rw [wadExtract_cons, extractEntry_readable hd]
  rcases hw : writeFileOrRemove fs (outPath output w) [.write d] f with ⟨fs', e' | u⟩
  · rw [hw] at hf
    cases hf
    simp [he]
  · rw [hw] at hf; cases hf

/-- Any other error of a write stops the extraction. -/
theorem C14_other_error (cx : Codecs) (file : Bytes) (toc : Option Bytes) (output : Str) (fs : FS) (w : WadEntry)
    (d : Bytes) (hd : Readable cx file toc w d) (f : WriteFaults) (e : Err) (h22 : e ≠ .os 22) (h36 : e ≠ .os 36)
    (hf : (writeFileOrRemove fs (outPath output w) [.write d] f).2 = .error e)
    (ws : List (WadEntry × WriteFaults)) :
    wadExtract cx file toc fs output true ((w, f) :: ws) =
      ((writeFileOrRemove fs (outPath output w) [.write d] f).1, .error e) := by
  have he : e.isBadName = false := by
    rw [← Bool.not_eq_true, isBadName_iff]; tauto
  rw [wadExtract_cons, extractEntry_readable hd]
  rcases hw : writeFileOrRemove fs (outPath output w) [.write d] f with ⟨fs', e' | u⟩
  · rw [hw] at hf
    cases hf
    simp [he]
  · rw [hw] at hf; cases hf

/-- Non-vacuity: three entries (one is a redirection), extracted over an existing file, with and without
overwriting. -/
example :
    let cx : Codecs := { gunzip := .ok, unzstd := .ok, xxh3 := leNat, isJson := fun _ => false }
    let w1 : WadEntry := { wadEntry 1 0 2 2 0 false none none with path := some "a/x.bin".toList }
    let w2 : WadEntry := wadEntry 2 2 2 2 0 false none none
    let w3 : WadEntry := { wadEntry 3 0 4 4 2 false none none with path := some "a/y.bin".toList }
    let fs : FS := fun p => if p = "out".toList then some .dir else if p = "out/a".toList then some .dir
      else if p = "out/a/x.bin".toList then some (.file [9]) else none
    let file : Bytes := [0, 0, 0, 0]
    let r := wadExtract cx file none fs "out".toList true [(w1, {}), (w2, {}), (w3, {})]
    let r' := wadExtract cx file none fs "out".toList false [(w1, {}), (w2, {}), (w3, {})]
    r.2 = .ok () ∧ r.1 "out/a/x.bin".toList = some (.file [0, 0]) ∧
    r.1 "out/unknown/0000000000000002".toList = some (.file [0, 0]) ∧ r.1 "out/a/y.bin".toList = none ∧
    r'.2 = .ok () ∧ r'.1 "out/a/x.bin".toList = some (.file [9]) ∧
    r'.1 "out/unknown/0000000000000002".toList = some (.file [0, 0]) := by decide +kernel

/-! ## Cases that meet the hypotheses -/

/-- `C14_bad_name`: a name too long is skipped; `C14_other_error`: a full disk stops the extraction -/
example :
    let cx : Codecs := { gunzip := .ok, unzstd := .ok, xxh3 := leNat, isJson := fun _ => false }
    let w1 : WadEntry := { wadEntry 1 0 2 2 0 false none none with path := some "a/x.bin".toList }
    let w2 : WadEntry := { wadEntry 2 2 2 2 0 false none none with path := some "a/y.bin".toList }
    let run (e : Err) := wadExtract cx [1, 2, 3, 4] none (fun _ => none) "out".toList true [(w1, { open_ := some e }), (w2, {})]
    (writeFileOrRemove (fun _ => none) (outPath "out".toList w1) [.write [1, 2]] { open_ := some (.os 36) }).2 = .error (.os 36) ∧
    (run (.os 36)).2 = .ok () ∧ (run (.os 36)).1 "out/a/y.bin".toList = some (.file [3, 4]) ∧ (run (.os 36)).1 "out/a/x.bin".toList = none ∧
    (run (.os 28)).2 = .error (.os 28) ∧ (run (.os 28)).1 "out/a/y.bin".toList = none := by decide +kernel

end Cdtb
