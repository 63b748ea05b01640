import Verif.Props.C67
import Verif.Props.C04
import Verif.Lemmas.ExportJobs

/-! # C67: `fetch-hashes` succeeds when nothing fails -/

namespace Cdtb
set_option autoImplicit false
open Py Spec

/-- Nothing is in the way of the hash files: the directory and its parents are not files, the files are not directories. -/
structure Spec.ClearHashes (dir : Str) (fs : FS) : Prop where
  dirs : ∀ q, q = dir ∨ Spec.DirOf q dir → ∀ x, fs q ≠ some (.file x)
  files : ∀ b ∈ hashNames, fs (inDir dir b) ≠ some .dir

/-- Nothing fails during the update of a file: the server tells the date of the file and gives it, it can be written. -/
def Spec.Answered (c : UpdateCall) (content : Bytes) : Prop :=
  (∃ h t, c.head = .ok h ∧ HttpDate h t) ∧ c.get = .ok content ∧ c.faults = {}

theorem before_slash {X b q r : Str} (hb : '/' ∉ b) (h : X ++ b = q ++ '/' :: r) : ∃ r', X = q ++ '/' :: r' := by
  rcases List.append_eq_append_iff.1 h with ⟨a, h1, h2⟩ | ⟨a, h1, h2⟩
  · exact absurd (by rw [h2]; simp) hb
  · cases a with
    | nil => exact absurd (by rw [← List.nil_append b, ← h2]; simp) hb
    | cons c a =>
      simp only [List.cons_append, List.cons.injEq] at h2
      exact ⟨a, by rw [h1, ← h2.1]⟩

theorem dirOf_inDir {dir b q : Str} (hb : '/' ∉ b) (h : Spec.DirOf q (inDir dir b)) : q = dir ∨ Spec.DirOf q dir := by
  rcases h with h | ⟨r, h⟩
  · exact Or.inr (Or.inl h)
  · unfold inDir at h
    split at h
    · exact Or.inr (Or.inr (before_slash hb h))
    · rw [show dir ++ '/' :: b = (dir ++ ['/']) ++ b by simp] at h
      obtain ⟨r', h'⟩ := before_slash hb h
      rcases List.eq_nil_or_concat r' with rfl | ⟨r'', c, rfl⟩
      · exact Or.inl (List.append_inj_left' h' rfl).symm
      · refine Or.inr (Or.inr ⟨r'', ?_⟩)
        rw [List.concat_eq_append, ← List.cons_append, ← List.append_assoc] at h'
        exact List.append_inj_left' h' rfl

theorem inDir_not_above {dir b q : Str} (hb : FileName b) (h : q = dir ∨ Spec.DirOf q dir) : q ≠ inDir dir b := by
  rintro rfl
  have hl : dir.length < (inDir dir b).length := by
    have := List.length_pos_of_ne_nil hb.1
    unfold inDir; split <;> simp <;> omega
  rcases h with h | h | ⟨r, h⟩
  · rw [h] at hl; omega
  · have hm : ∀ c ∈ b, c ∈ inDir dir b := by
      intro c hc; unfold inDir; split <;> simp [hc]
    obtain ⟨c, hc⟩ := List.exists_mem_of_ne_nil b hb.1
    exact hb.2 (h c (hm c hc) ▸ hc)
  · have := congrArg List.length h
    simp at this; omega

theorem update_succeeds {dir b : Str} (hd : dir ≠ []) (hb : FileName b) {d : TimedFS} {c : UpdateCall} {content : Bytes}
    (hdirs : ∀ q, q = dir ∨ Spec.DirOf q dir → ∀ x, d.fs q ≠ some (.file x)) (hp : d.fs (inDir dir b) ≠ some .dir)
    (hc : Answered c content) : (updateHashfile dir d b c).2.1 = .ok () := by
  obtain ⟨⟨h, t, hh, ht⟩, hg, hf⟩ := hc
  have hsl : '/' ∈ inDir dir b := by
    unfold inDir
    split
    · rename_i h; exact List.mem_append_left _ (List.mem_of_getLast? h)
    · simp
  have hdn := dirname_nonempty hsl
  have hfetch : (fetchHashfile d (inDir dir b) c).2 = .ok () := by
    unfold fetchHashfile
    rw [hg, hf]
    exact C04_no_fault d.fs (inDir dir b) [content] hdn (fun q hq => hdirs q (dirOf_inDir hb.2 (dirPrefixes_dirOf hq))) hp
      (by rw [basename_inDir hb.2]; exact hb.1)
  cases hn : d.fs (inDir dir b) with
  | none =>
    have hpar : ∀ x, d.fs (dirname (inDir dir b)) ≠ some (.file x) :=
      hdirs _ (dirOf_inDir hb.2 (dirname_dirOf hdn))
    have hst : d.stat (inDir dir b) = .error .fileNotFound := by
      unfold TimedFS.stat
      rw [hn]
      change (match d.fs (dirname (inDir dir b)) with | some (.file _) => _ | _ => _) = _
      split
      · rename_i x hx; exact absurd hx (hpar x)
      · rfl
    unfold updateHashfile checkUpdate
    rw [pjoin_inDir hd hb.2]
    simp only [hst]
    exact hfetch
  | some n =>
    unfold updateHashfile checkUpdate
    rw [pjoin_inDir hd hb.2]
    simp only [stat_present hn, hh, bind, Except.bind, parseHttpDate_date ht]
    by_cases hle : d.mtime (inDir dir b) ≥ (t : Int) * 1000000000
    · rw [decide_eq_true hle]
    · rw [decide_eq_false hle]; exact hfetch

theorem updateAll_succeeds {dir : Str} (hd : dir ≠ []) {calls : Str → UpdateCall} : ∀ (bs : List Str) (d : TimedFS), bs.Nodup →
    (∀ b ∈ bs, FileName b) → (∀ q, q = dir ∨ Spec.DirOf q dir → ∀ x, d.fs q ≠ some (.file x)) →
    (∀ b ∈ bs, d.fs (inDir dir b) ≠ some .dir) → (∀ b ∈ bs, ∃ content, Answered (calls b) content) →
    (updateAll dir calls d bs).2 = .ok () := by
  intro bs
  induction bs with
  | nil => intros; rfl
  | cons b bs ih =>
    intro d hnd hfn hdirs hp hc
    obtain ⟨hnb, hnd'⟩ := List.nodup_cons.1 hnd
    have hb := hfn b (by simp)
    obtain ⟨x, hx⟩ := hc b (by simp)
    have h1 := update_succeeds hd hb hdirs (hp b (by simp)) hx
    have h2 := fun q hq => C67_frame dir b hd hb d (calls b) q hq
    have h3 := fun x hx hne => update_untouched dir b x hd hb hx hne d (calls b)
    rcases hu : updateHashfile dir d b (calls b) with ⟨d1, r1, reqs⟩
    rw [hu] at h1 h3
    simp only [hu] at h1 h2
    subst h1
    simp only [updateAll, hu]
    refine ih d1 hnd' (fun b' hb' => hfn b' (by simp [hb'])) (fun q hq x hf => ?_) (fun b' hb' => ?_) (fun b' hb' => hc b' (by simp [hb']))
    · exact hdirs q hq x ((h2 q (inDir_not_above hb hq) x).1.1 hf)
    · rw [(h3 b' (hfn b' (by simp [hb'])) (fun h => hnb (h ▸ hb'))).1]
      exact hp b' (by simp [hb'])

/-- `fetch-hashes` succeeds when nothing fails: if nothing is in the way of the files, the server answers and files can be
written, the command succeeds. Each file then has the content given by the server, or is the one which was there and was not older. -/
theorem C67_succeeds (source dir : Str) (hd : dir ≠ []) (hs : dir ≠ source) (d : TimedFS) (hclear : ClearHashes dir d.fs)
    (calls : Str → UpdateCall) (content : Str → Bytes) (hc : ∀ b ∈ hashNames, Answered (calls b) (content b)) :
    (commandFetchHashes source dir calls none d).2 = .ok () ∧
    ∀ b ∈ hashNames, (commandFetchHashes source dir calls none d).1.fs (inDir dir b) = some (.file (content b)) ∨
      ∃ old, d.fs (inDir dir b) = some (.file old) ∧
        (commandFetchHashes source dir calls none d).1.fs (inDir dir b) = some (.file old) ∧
        ∀ h t, (calls b).head = .ok h → HttpDate h t → (t : Int) * 1000000000 ≤ d.mtime (inDir dir b) := by
  have hok : (commandFetchHashes source dir calls none d).2 = .ok () := by
    have hmk := makedirs_dirsAdded d.fs dir none
    have hpre : ∀ q ∈ dirPrefixes dir, q = dir ∨ Spec.DirOf q dir := fun q hq => (mem_dirPrefixes hq).2.imp id Or.inr
    have hmo : (d.fs.makedirs dir none).2 = .ok () := by
      unfold FS.makedirs
      rw [if_neg (by simpa using hd)]
      exact makedirsGo_succeeds d.fs _ fun q hq => hclear.dirs q (hpre q hq)
    rcases hm : d.fs.makedirs dir none with ⟨fs1, r⟩
    rw [hm] at hmk hmo
    simp only at hmo
    subst hmo
    unfold commandFetchHashes
    rw [if_neg hs, hm]
    refine updateAll_succeeds hd fetchedHashes _ fetchedHashes_ok.1 fetchedHashes_ok.2 (fun q hq x hf => ?_) (fun b hb => ?_) (fun b hb => ⟨_, hc b hb⟩)
    · rcases hmk q with h | ⟨-, -, h⟩
      · simp only at h hf; rw [h] at hf; exact hclear.dirs q hq x hf
      · simp only at h hf; rw [h] at hf; cases hf
    · rcases hmk (inDir dir b) with h | ⟨h, -⟩
      · simp only at h ⊢; rw [h]; exact hclear.files b hb
      · exact absurd rfl (inDir_not_above (fetchedHashes_ok.2 b hb) (hpre _ h))
  refine ⟨hok, fun b hb => ?_⟩
  rcases (C67_fetch source dir hd calls none d).2.2.1 hok b hb with ⟨x, h1, h2, -⟩ | ⟨h1, h2, -, h, h3, h4⟩
  · left
    rw [h2]
    have := (hc b hb).2.1
    rw [h1] at this
    rw [Except.ok.inj this]
  · right
    cases hx : d.fs (inDir dir b) with
    | none => exact absurd hx h1
    | some n =>
      cases n with
      | dir => exact absurd hx (hclear.files b hb)
      | file old =>
        refine ⟨old, rfl, by rw [h2, hx], fun h' t hh ht => h4 t ?_⟩
        rw [h3] at hh
        rw [Except.ok.inj hh]
        exact ht

theorem C67ex.disk_clear : ClearHashes C67ex.dir C67ex.disk.fs where
  dirs q _ x h := by
    unfold C67ex.disk at h
    simp only at h
    split at h <;> cases h
  files := by decide +kernel

open C67ex in
/-- The first call of the examples, for all files, on the empty disk -/
example : (commandFetchHashes "/src".toList dir (fun _ => c1) none disk).2 = .ok () :=
  (C67_succeeds _ dir (by decide) (by decide +kernel) disk disk_clear (fun _ => c1) (fun _ => [1])
    fun _ _ => ⟨⟨date0, 0, rfl, date0_ok⟩, by decide +kernel, rfl⟩).1

open C67ex in
/-- A file in the way -/
example : (commandFetchHashes "/src".toList dir (fun _ => c1) none
    { disk with fs := fun p => if p = "/data".toList then some (.file []) else none }).2 ≠ .ok () := by decide +kernel

end Cdtb
