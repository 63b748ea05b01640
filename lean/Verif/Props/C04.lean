import Verif.Lemmas.FS
/-!
# C04  A failed write leaves no partial file and touches nothing else

`writeFileOrRemove fs path body faults` runs a body of writes under the write-or-remove helper, in
the file system `fs`, with arbitrary faults; it gives the resulting file system and the outcome.
-/
namespace Cdtb
set_option autoImplicit false
open Py

/-- Success: the file holds exactly the bytes written, in order. -/
theorem C04_success (fs : FS) (path : Str) (chunks : List Bytes) (f : WriteFaults)
    (h : (writeFileOrRemove fs path (chunks.map .write) f).2 = .ok ()) :
    (writeFileOrRemove fs path (chunks.map .write) f).1 path = some (.file chunks.flatten) := by
  rw [writeFileOrRemove_ok_fs h]
  rw [writeFileOrRemove_result] at h
  have hb : bodyBytes (chunks.map .write) = chunks.flatten := by
    simp only [bodyBytes, List.map_map]
    congr 1
    exact (List.map_congr_left (fun _ _ => rfl)).trans (List.map_id _)
  rw [(writeTry_ok h).1, hb]

/-- Failure: the error reaches the caller, and no file is left at the path if removing is possible. -/
theorem C04_failure (fs : FS) (path : Str) (body : List BodyStep) (f : WriteFaults) (e : Err)
    (h : (writeFileOrRemove fs path body f).2 = .error e) (hr : f.remove = false) (b : Bytes) :
    (writeFileOrRemove fs path body f).1 path ≠ some (.file b) := by
  rw [writeFileOrRemove_error_fs h, hr]
  exact remove_not_file _ _ _

/-- A failing step is never swallowed: the outcome is a success only if the parent directories could
be made, opening, closing and all writes succeeded, and the body did not raise. -/
theorem C04_no_swallow (fs : FS) (path : Str) (body : List BodyStep) (f : WriteFaults)
    (h : (writeFileOrRemove fs path body f).2 = .ok ()) :
    (fs.makedirs (dirname path) f.makedirs).2 = .ok () ∧ f.open_ = none ∧ f.close = none ∧
    (∀ j < body.length, f.write j = none) ∧ (∀ e, .raise e ∉ body) := by
  rw [writeFileOrRemove_result] at h
  obtain ⟨_, h2, h3, h4, h5, h6⟩ := writeTry_ok h
  refine ⟨h6, h3, h4, h5, fun e he => ?_⟩
  obtain ⟨b, hb⟩ := h2 _ he
  simp at hb

/-- Without any fault, writing below existing or creatable directories succeeds. -/
theorem C04_no_fault (fs : FS) (path : Str) (chunks : List Bytes) (hd : dirname path ≠ [])
    (hp : ∀ d ∈ dirPrefixes (dirname path), ∀ b, fs d ≠ some (.file b)) (hn : fs path ≠ some .dir)
    (hb : basename path ≠ []) :
    (writeFileOrRemove fs path (chunks.map .write) {}).2 = .ok () := by
  rw [writeFileOrRemove_result]
  have h1 : (fs.makedirs (dirname path) none).2 = .ok () := by
    simp only [FS.makedirs, List.isEmpty_iff, hd, if_false]
    exact makedirsGo_succeeds _ _ hp
  have h2 : (fs.makedirs (dirname path) none).1 path ≠ some .dir := by
    rcases makedirs_dirsAdded fs (dirname path) none path with h | ⟨h, _⟩
    · rw [h]; exact hn
    · exact absurd h (not_mem_dirPrefixes_dirname hb)
  unfold writeTry
  rcases hm : fs.makedirs (dirname path) none with ⟨fs1, r⟩
  rw [hm] at h1 h2
  simp only at h1 h2
  subst h1
  simp only [h2, if_false, closeFile]
  exact writeBody_succeeds (by simp) (fun _ => rfl)

/-- Whatever the outcome, every other file is unchanged (none is created, modified or removed), no
directory is removed, and the directories created are ancestors of the path. -/
theorem C04_frame (fs : FS) (path : Str) (body : List BodyStep) (f : WriteFaults) (q : Str) (hq : q ≠ path) :
    let fs' := (writeFileOrRemove fs path body f).1
    (∀ b, fs' q = some (.file b) ↔ fs q = some (.file b)) ∧
    (fs q = some .dir → fs' q = some .dir) ∧
    (fs' q = some .dir → fs q = some .dir ∨ (fs q = none ∧ ∃ r, dirname path = q ++ r)) := by
  intro fs'
  rcases writeFileOrRemove_touches fs path body f q hq with h | ⟨h1, h2, h3⟩
  · rw [show fs' q = fs q from h]; exact ⟨fun _ => Iff.rfl, id, Or.inl⟩
  · rw [show fs' q = some .dir from h3, h2]
    refine ⟨fun _ => by simp, fun _ => rfl, fun _ => Or.inr ⟨rfl, ?_⟩⟩
    rcases (mem_dirPrefixes h1).2 with rfl | ⟨r, hr⟩
    · exact ⟨[], by simp⟩
    · exact ⟨'/' :: r, hr⟩

/-- If even the removal fails, what is left is the old object, or a prefix of the intended content. -/
theorem C04_residue (fs : FS) (path : Str) (body : List BodyStep) (f : WriteFaults) (hb : basename path ≠ [])
    (b : Bytes) (h : (writeFileOrRemove fs path body f).1 path = some (.file b)) :
    fs path = some (.file b) ∨ b <+: bodyBytes body := by
  have key : ∀ b, (writeTry fs path body f).1 path = some (.file b) →
      fs path = some (.file b) ∨ b <+: bodyBytes body := by
    intro b h
    have hmk := makedirs_dirsAdded fs (dirname path) f.makedirs path
    unfold writeTry at h
    rcases hm : fs.makedirs (dirname path) f.makedirs with ⟨fs1, r⟩
    rw [hm] at h hmk
    have h0 : fs1 path = fs path := by
      rcases hmk with h | ⟨h, _⟩
      · exact h
      · exact absurd h (not_mem_dirPrefixes_dirname hb)
    cases r with
    | error e => left; rw [← h0]; exact h
    | ok u =>
      simp only at h
      cases ho : f.open_ with
      | some e => rw [ho] at h; left; rw [← h0]; exact h
      | none =>
        rw [ho] at h
        simp only at h
        split at h
        · left; rw [← h0]; exact h
        · right
          simp only [FS.set_self, Option.some.injEq, Node.file.injEq] at h
          rw [← h]
          have hp := writeBody_prefix f 0 [] body
          simp only [List.nil_append] at hp
          unfold closeFile
          cases f.close with
          | none => exact hp
          | some ke => exact (List.take_prefix _ _).trans hp
  cases hr : (writeFileOrRemove fs path body f).2 with
  | ok u => rw [writeFileOrRemove_ok_fs hr] at h; exact key b h
  | error e =>
    rw [writeFileOrRemove_error_fs hr] at h
    apply key
    unfold FS.remove at h
    cases hrm : f.remove with
    | true => simpa [hrm] using h
    | false =>
      simp only [hrm, Bool.false_eq_true, if_false] at h
      cases hf : (writeTry fs path body f).1 path with
      | none => rw [hf] at h; simp [hf] at h
      | some n =>
        rw [hf] at h
        cases n with
        | file c => simp at h
        | dir => simp [hf] at h

/-- Finding: a bare file name (no directory part) can never be written, since creating the empty
directory name fails; an existing file of that name is removed. -/
theorem C04_bare_name (fs : FS) (path : Str) (body : List BodyStep) (f : WriteFaults) (hs : '/' ∉ path) :
    (writeFileOrRemove fs path body f).2 = .error .fileNotFound ∧
    (f.remove = false → ∀ b, (writeFileOrRemove fs path body f).1 path ≠ some (.file b)) := by
  have hd : dirname path = [] := by
    unfold dirname psplit
    rw [rsplit1_eq_none.2 hs]
  have h : (writeFileOrRemove fs path body f).2 = .error .fileNotFound := by
    rw [writeFileOrRemove_result, writeTry, hd]
    simp [FS.makedirs]
  exact ⟨h, fun hr b => C04_failure fs path body f _ h hr b⟩

/-! Non-vacuity: a success, and a failure on the second write after one byte. -/
example : (writeFileOrRemove (fun _ => none) "a/b".toList [.write [1, 2], .write [3]] {}).2 = .ok () := by
  decide +kernel
example : dirname "a/b/c".toList = "a/b".toList ∧ basename "a/b/c".toList = "c".toList ∧
    dirPrefixes "a/b".toList = ["a".toList, "a/b".toList] := by decide +kernel
example : (writeFileOrRemove (fun _ => none) "a/b".toList [.write [1, 2], .write [3, 4]]
      { write := fun i => if i = 1 then some (1, .os 28) else none }).2 = .error (.os 28) ∧
    (writeFileOrRemove (fun _ => none) "a/b".toList [.write [1, 2], .write [3, 4]]
      { write := fun i => if i = 1 then some (1, .os 28) else none }).1 "a/b".toList = none ∧
    (writeTry (fun _ => none) "a/b".toList [.write [1, 2], .write [3, 4]]
      { write := fun i => if i = 1 then some (1, .os 28) else none }).1 "a/b".toList
        = some (.file [1, 2, 3]) := by
  decide +kernel

end Cdtb
