import Verif.Lemmas.Parallel
/-!
# C06  Parallel bundle download is schedule-independent

`poolRun tasks fs sched` executes the tasks' file system steps in the order of the schedule (a list
of task names: each occurrence is one step of that task). `Separate` says that destinations are
distinct and none is a parent directory of another.
-/
namespace Cdtb
set_option autoImplicit false
open Py
variable {ι : Type} [DecidableEq ι]

/-- The sequential download corresponding to a task (no `force`). -/
def taskCall (base : Str) (urls : ι → Str) (response : ι → Res Bytes) (faults : ι → WriteFaults) (i : ι) :
    DownloadCall := ⟨urls i, none, false, response i, faults i⟩

/-- The task for a bundle: destination, response, faults. -/
def bundleTask (base : Str) (urls : ι → Str) (response : ι → Res Bytes) (faults : ι → WriteFaults) (i : ι) : Task :=
  ⟨storageFspath base (urls i), response i, faults i⟩

theorem final_start_eq_download (base : Str) (urls : ι → Str) (response : ι → Res Bytes)
    (faults : ι → WriteFaults) (i : ι) (fs : FS) :
    (bundleTask base urls response faults i).final .start fs =
      ((download base fs (taskCall base urls response faults i)).1,
       (download base fs (taskCall base urls response faults i)).2.1) := by
  simp only [Task.final, bundleTask, download, taskCall, DownloadCall.dest, Bool.not_false, Bool.true_and,
    Option.getD_none]
  by_cases h : fs.isFile (storageFspath base (urls i)) = true
  · simp [h]
  · cases hr : response i <;> simp [h]

/-- Every complete schedule (all tasks finished) gives the same file system and the same outcome for
each task as downloading the bundles one after the other, in any order `ids`. -/
theorem C06_schedule_independent (base : Str) (urls : ι → Str) (response : ι → Res Bytes)
    (faults : ι → WriteFaults) (fs : FS) (hs : Separate (bundleTask base urls response faults))
    (ids : List ι) (hall : ∀ i, i ∈ ids) (hnd : ids.Nodup) (sched : List ι)
    (hdone : ∀ i, ∃ r, (poolRun (bundleTask base urls response faults) fs sched).states i = .done r) :
    (poolRun (bundleTask base urls response faults) fs sched).fs
        = downloads base fs (ids.map (taskCall base urls response faults)) ∧
    ∀ pre i post, ids = pre ++ i :: post →
      (poolRun (bundleTask base urls response faults) fs sched).states i
        = .done (download base (downloads base fs (pre.map (taskCall base urls response faults)))
            (taskCall base urls response faults i)).2.1 := by
  set tasks := bundleTask base urls response faults with htasks
  let N : ι → Nat := fun i => 7 + (dirPrefixes (dirname (tasks i).dest)).length
  -- the sequential schedule
  have hseq : ∀ (l : List ι) (c : PoolState ι), l.Nodup → (∀ i ∈ l, c.states i = .start) →
      ((l.flatMap fun i => List.replicate (N i) i).foldl (poolStep tasks) c).fs
        = downloads base c.fs (l.map (taskCall base urls response faults)) ∧
      (∀ j, j ∉ l → ((l.flatMap fun i => List.replicate (N i) i).foldl (poolStep tasks) c).states j = c.states j) ∧
      ∀ pre i post, l = pre ++ i :: post →
        ((l.flatMap fun i => List.replicate (N i) i).foldl (poolStep tasks) c).states i
          = .done (download base (downloads base c.fs (pre.map (taskCall base urls response faults)))
            (taskCall base urls response faults i)).2.1 := by
    intro l
    induction l with
    | nil =>
      intro c _ _
      refine ⟨rfl, fun _ _ => rfl, fun pre i post h => ?_⟩
      simp at h
    | cons a l ih =>
      intro c hnd hst
      have hsolo : (tasks a).step^[N a] (c.states a, c.fs) = (tasks a).solo c.fs (N a) := by
        rw [hst a (by simp)]; rfl
      have hcomp := (tasks a).solo_complete c.fs (N a) (Nat.le_refl _)
      rw [htasks, final_start_eq_download, ← htasks] at hcomp
      rw [List.flatMap_cons, List.foldl_append, pool_replicate, hsolo, hcomp]
      obtain ⟨hnd1, hnd2⟩ := List.nodup_cons.1 hnd
      obtain ⟨h1, h2, h3⟩ := ih ⟨fun j => if j = a then TState.done
            (download base c.fs (taskCall base urls response faults a)).2.1 else c.states j,
          (download base c.fs (taskCall base urls response faults a)).1⟩ hnd2 (by
        intro i hi
        have : i ≠ a := by rintro rfl; exact hnd1 hi
        simp [this, hst i (by simp [hi])])
      refine ⟨h1, ?_, ?_⟩
      · intro j hj
        simp only [List.mem_cons, not_or] at hj
        rw [h2 j hj.2]; simp [hj.1]
      · intro pre i post hl
        cases pre with
        | nil =>
          simp only [List.nil_append, List.cons.injEq] at hl
          obtain ⟨rfl, rfl⟩ := hl
          rw [h2 a hnd1]; simp [downloads]
        | cons b pre =>
          simp only [List.cons_append, List.cons.injEq] at hl
          obtain ⟨rfl, rfl⟩ := hl
          rw [h3 pre i post rfl]; rfl
  obtain ⟨g1, -, g3⟩ := hseq ids ⟨fun _ => .start, fs⟩ hnd (fun _ _ => rfl)
  have hrun2 : (ids.flatMap fun i => List.replicate (N i) i).foldl (poolStep tasks) ⟨fun _ => .start, fs⟩
      = poolRun tasks fs (ids.flatMap fun i => List.replicate (N i) i) := rfl
  rw [hrun2] at g1 g3
  obtain ⟨k, _, hst, hv⟩ := poolRun_view tasks hs fs sched
  obtain ⟨k', _, hst', hv'⟩ := poolRun_view tasks hs fs (ids.flatMap fun i => List.replicate (N i) i)
  have hsame : ∀ i, (tasks i).solo fs (k i) = (tasks i).solo fs (k' i) := by
    intro i
    obtain ⟨r, hr⟩ := hdone i
    obtain ⟨pre, post, hpp⟩ := List.append_of_mem (hall i)
    have h2 := g3 pre i post hpp
    rw [hst i] at hr
    rw [hst' i] at h2
    exact (tasks i).solo_done_unique fs _ _ _ _ hr h2
  have hfs : (poolRun tasks fs sched).fs = (poolRun tasks fs (ids.flatMap fun i => List.replicate (N i) i)).fs := by
    have : (fun i => ((tasks i).solo fs (k i)).2) = fun i => ((tasks i).solo fs (k' i)).2 := by
      funext i; rw [hsame]
    rw [this] at hv
    exact hv.unique hv'
  refine ⟨by rw [hfs, g1], fun pre i post hpp => ?_⟩
  rw [hst i, hsame i, ← hst' i, g3 pre i post hpp]

/-- Every schedule giving each task enough steps is complete: no task can block another. -/
theorem C06_no_blocking (tasks : ι → Task) (hs : Separate tasks) (fs : FS) (sched : List ι) (i : ι)
    (h : 7 + (dirPrefixes (dirname (tasks i).dest)).length ≤ sched.count i) :
    ∃ r, (poolRun tasks fs sched).states i = .done r := by
  obtain ⟨k, hk, hst, _⟩ := poolRun_view tasks hs fs sched
  rw [hst i, hk i, (tasks i).solo_complete fs _ h]
  exact ⟨_, rfl⟩

/-- At any point of any schedule (complete or not), files other than the destinations are as before. -/
theorem C06_frame (tasks : ι → Task) (hs : Separate tasks) (fs : FS) (sched : List ι) (q : Str)
    (hq : ∀ i, q ≠ (tasks i).dest) (b : Bytes) :
    (poolRun tasks fs sched).fs q = some (.file b) ↔ fs q = some (.file b) := by
  obtain ⟨k, _, _, hv⟩ := poolRun_view tasks hs fs sched
  by_cases hd : ∃ i, ((tasks i).solo fs (k i)).2 q = some .dir
  · rw [hv.dirs q hq hd]
    obtain ⟨i, hi⟩ := hd
    rcases (tasks i).solo_frame fs (k i) q (hq i) with h | ⟨h, _⟩
    · rw [← h, hi]
    · rw [h]; simp
  · rw [hv.rest q hq hd]

/-- With a server that gives every bundle and no disk fault, all bundles have their server content
at the end of every complete schedule. -/
theorem C06_contents (base : Str) (urls : ι → Str) (server : ι → Bytes) (fs : FS)
    (hs : Separate (bundleTask base urls (fun i => .ok (server i)) (fun _ => {})))
    (hfs : ∀ i, fs (storageFspath base (urls i)) = none)
    (hdir : ∀ i, dirname (storageFspath base (urls i)) ≠ [])
    (hpar : ∀ i, ∀ d ∈ dirPrefixes (dirname (storageFspath base (urls i))), ∀ b, fs d ≠ some (.file b))
    (hb : ∀ i, basename (storageFspath base (urls i)) ≠ [])
    (sched : List ι)
    (hdone : ∀ i, ∃ r, (poolRun (bundleTask base urls (fun i => .ok (server i)) (fun _ => {})) fs sched).states i = .done r)
    (i : ι) :
    (poolRun (bundleTask base urls (fun i => .ok (server i)) (fun _ => {})) fs sched).states i = .done (.ok ()) ∧
    (poolRun (bundleTask base urls (fun i => .ok (server i)) (fun _ => {})) fs sched).fs
      (storageFspath base (urls i)) = some (.file (server i)) := by
  set tasks := bundleTask base urls (fun i => Except.ok (server i)) (fun _ => ({} : WriteFaults)) with htasks
  obtain ⟨k, _, hst, hv⟩ := poolRun_view tasks hs fs sched
  obtain ⟨r, hr⟩ := hdone i
  rw [hst i] at hr
  have hcomp := (tasks i).solo_complete fs _ (Nat.le_refl _)
  have hsame := (tasks i).solo_done_unique fs _ _ _ _ hr (by rw [hcomp])
  rw [hcomp, htasks, final_start_eq_download] at hsame
  have hok : (writeFileOrRemove fs (storageFspath base (urls i)) [.write (server i)] {}).2 = .ok () := by
    rw [writeFileOrRemove_result]
    have h1 : (fs.makedirs (dirname (storageFspath base (urls i))) none).2 = .ok () := by
      simp only [FS.makedirs, List.isEmpty_iff, hdir i, if_false]
      exact makedirsGo_succeeds _ _ (hpar i)
    have h2 : (fs.makedirs (dirname (storageFspath base (urls i))) none).1 (storageFspath base (urls i)) ≠ some .dir := by
      rcases makedirs_dirsAdded fs (dirname (storageFspath base (urls i))) none (storageFspath base (urls i)) with h | ⟨h, _⟩
      · rw [h, hfs i]; simp
      · exact absurd h (not_mem_dirPrefixes_dirname (hb i))
    unfold writeTry
    rcases hm : fs.makedirs (dirname (storageFspath base (urls i))) none with ⟨fs1, r⟩
    rw [hm] at h1 h2
    simp only at h1 h2
    subst h1
    simp only [h2, if_false, closeFile]
    exact writeBody_succeeds (by simp) (fun _ => rfl)
  have hdl : download base fs (taskCall base urls (fun i => .ok (server i)) (fun _ => {}) i)
      = ((writeFileOrRemove fs (storageFspath base (urls i)) [.write (server i)] {}).1, .ok (), true) := by
    simp only [download, taskCall, DownloadCall.dest, Option.getD_none, FS.isFile, hfs i]
    simp only [Bool.and_false, Bool.false_eq_true, if_false]
    exact Prod.ext rfl (Prod.ext hok rfl)
  rw [hdl] at hsame
  refine ⟨?_, ?_⟩
  · rw [hst i, htasks, hsame]
  · have hd := hv.dests i
    simp only [htasks, hsame] at hd
    have hd' : (bundleTask base urls (fun i => Except.ok (server i)) (fun _ => ({} : WriteFaults)) i).dest
      = storageFspath base (urls i) := rfl
    rw [hd'] at hd
    rw [hd, writeFileOrRemove_ok_fs hok]
    rw [writeFileOrRemove_result] at hok
    rw [(writeTry_ok hok).1]; simp [bodyBytes]

omit [DecidableEq ι] in
/-- The actual destinations: bundles of one storage, with the same number of hex digits. -/
theorem separate_of_same_dir (tasks : ι → Task) (dir : Str) (name : ι → Str) (n : Nat)
    (hd : ∀ i, (tasks i).dest = dir ++ '/' :: name i) (hn : ∀ i, name i ≠ []) (hl : ∀ i, (name i).length = n)
    (hinj : ∀ i j, name i = name j → i = j) (hslash : ∀ i, '/' ∉ name i) : Separate tasks where
  inj := by
    intro i j h
    rw [hd, hd] at h
    have := List.append_cancel_left h
    simp at this
    exact hinj i j this
  parents := by
    intro i j hm
    have h1 := mem_dirPrefixes_length hm
    have hb : basename (tasks j).dest ≠ [] := by
      unfold basename psplit
      have : rsplit1 '/' (tasks j).dest = some (dir, name j) := rsplit1_eq_some.2 ⟨hd j, hslash j⟩
      rw [this]
      simp only
      split <;> exact hn j
    have h2 := dirname_length hb
    rw [hd, hd] at *
    simp only [List.length_append, List.length_cons, hl] at h1 h2
    omega

/-! Non-vacuity: two bundles of a real storage layout are separate, and an interleaved schedule of
two tasks completes. -/
example : Separate (bundleTask (ι := Bool) "st".toList
    (fun b => if b then "channels/public/bundles/0000000000000001.bundle".toList
      else "channels/public/bundles/00000000000000FF.bundle".toList)
    (fun b => .ok [if b then 1 else 2]) (fun _ => {})) := by
  apply separate_of_same_dir _ "st/channels/public/bundles".toList
    (fun b => if b then "0000000000000001.bundle".toList else "00000000000000FF.bundle".toList) 23
  all_goals decide +kernel

example :
    let tasks := bundleTask (ι := Bool) "s".toList (fun b => if b then "d/x".toList else "d/y".toList)
      (fun b => .ok [if b then 1 else 2]) (fun _ => {})
    let r := poolRun tasks (fun _ => none) ((List.replicate 9 [true, false]).flatten)
    r.states true = .done (.ok ()) ∧ r.states false = .done (.ok ()) ∧
    r.fs "s/d/x".toList = some (.file [1]) ∧ r.fs "s/d/y".toList = some (.file [2]) := by
  decide +kernel

end Cdtb
