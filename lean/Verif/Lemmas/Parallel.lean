import Verif.Model.Parallel
import Verif.Lemmas.FS
import Mathlib.Logic.Function.Iterate
import Mathlib.Data.List.Induction
/-! Lemmas about the parallel download: non-interference of the tasks. -/
namespace Cdtb
set_option autoImplicit false
open Py

/-- Invariant of local states: directories left to make are among the parents of the destination. -/
def Task.WF (t : Task) : TState → Prop
  | .mkdirs todo _ _ => ∀ q ∈ todo, q ∈ dirPrefixes (dirname t.dest)
  | _ => True

theorem Task.next_wf (t : Task) (fs : FS) (s : TState) (h : t.WF s) : t.WF (t.next fs s).1 := by
  cases s with
  | start => simp only [Task.next]; split <;> trivial
  | request =>
    simp only [Task.next]
    cases t.response with
    | error e => trivial
    | ok b =>
      simp only
      split
      · trivial
      · exact fun q hq => hq
  | mkdirs todo f b =>
    rcases f with _ | ⟨_ | k, e⟩ <;> cases todo with
    | nil => trivial
    | cons q qs =>
      simp only [Task.next]
      first
        | trivial
        | (have hq : ∀ q' ∈ qs, q' ∈ dirPrefixes (dirname t.dest) := fun q' hq' => h q' (by simp [hq'])
           rcases fs q with _ | _ | _ <;> first | exact hq | trivial)
  | opening b =>
    simp only [Task.next]
    cases t.faults.open_ with
    | some e => trivial
    | none => simp only; split <;> trivial
  | writing b =>
    simp only [Task.next]
    rcases t.faults.write 0 with _ | ⟨k, e⟩ <;> trivial
  | closing c r =>
    simp only [Task.next]
    rcases closeFile t.faults (c, r) with ⟨c', _ | _⟩ <;> trivial
  | cleanup e =>
    simp only [Task.next]
    split
    · trivial
    · split <;> trivial
  | done r => trivial

/-- A step only depends on the destination and on which parents are regular files. -/
theorem Task.next_congr (t : Task) (fs g : FS) (s : TState) (h : t.WF s) (hd : fs t.dest = g t.dest)
    (hp : ∀ q ∈ dirPrefixes (dirname t.dest), (∃ b, fs q = some (.file b)) ↔ (∃ b, g q = some (.file b))) :
    t.next fs s = t.next g s := by
  have hif : fs.isFile t.dest = g.isFile t.dest := by simp [FS.isFile, hd]
  cases s with
  | start => simp only [Task.next, hif]
  | request => rfl
  | mkdirs todo f b =>
    rcases f with _ | ⟨_ | k, e⟩ <;> cases todo with
    | nil => rfl
    | cons q qs =>
      simp only [Task.next]
      try
        (have hq := hp q (h q (by simp))
         rcases hf : fs q with _ | ⟨b1⟩ | _ <;> rcases hg : g q with _ | ⟨b2⟩ | _ <;> simp_all)
  | opening b => simp only [Task.next, hd]
  | writing b => rfl
  | closing c r => rfl
  | cleanup e => simp only [Task.next, hif]
  | done r => rfl

/-- A directory is only made among the parents, where there is no regular file. -/
theorem Task.next_mkdir (t : Task) (fs : FS) (s s' : TState) (q : Str) (h : t.WF s)
    (hn : t.next fs s = (s', .mkdir q)) :
    q ∈ dirPrefixes (dirname t.dest) ∧ ∀ b, fs q ≠ some (.file b) := by
  cases s with
  | start => simp only [Task.next] at hn; split at hn <;> simp at hn
  | request =>
    simp only [Task.next] at hn
    cases hr : t.response with
    | error e => rw [hr] at hn; simp at hn
    | ok b => rw [hr] at hn; simp only at hn; split at hn <;> simp at hn
  | mkdirs todo f b =>
    rcases f with _ | ⟨_ | k, e⟩ <;> cases todo with
    | nil => simp [Task.next] at hn
    | cons q' qs =>
      simp only [Task.next] at hn
      first
        | (simp at hn; done)
        | (rcases hf : fs q' with _ | ⟨b1⟩ | _ <;> rw [hf] at hn <;> simp at hn
           all_goals (obtain ⟨_, rfl⟩ := hn; exact ⟨h q' (by simp), by simp [hf]⟩))
  | opening b =>
    simp only [Task.next] at hn
    cases ho : t.faults.open_ with
    | some e => rw [ho] at hn; simp at hn
    | none => rw [ho] at hn; simp only at hn; split at hn <;> simp at hn
  | writing b =>
    simp only [Task.next] at hn
    rcases hw : t.faults.write 0 with _ | ⟨k, e⟩ <;> rw [hw] at hn <;> simp at hn
  | closing c r =>
    simp only [Task.next] at hn
    rcases hw : closeFile t.faults (c, r) with ⟨c', _ | _⟩ <;> rw [hw] at hn <;> simp at hn
  | cleanup e =>
    simp only [Task.next] at hn
    split at hn
    · simp at hn
    · split at hn <;> simp at hn
  | done r => simp [Task.next] at hn

/-- Solo execution of a task. -/
def Task.solo (t : Task) (fs : FS) (k : Nat) : TState × FS := t.step^[k] (.start, fs)

theorem Task.solo_succ (t : Task) (fs : FS) (k : Nat) : t.solo fs (k + 1) = t.step (t.solo fs k) :=
  Function.iterate_succ_apply' _ _ _

theorem Task.solo_wf (t : Task) (fs : FS) (k : Nat) : t.WF (t.solo fs k).1 := by
  induction k with
  | zero => trivial
  | succ k ih => rw [solo_succ]; exact t.next_wf _ _ ih

theorem Task.solo_frame (t : Task) (fs : FS) (k : Nat) (q : Str) (hq : q ≠ t.dest) :
    (t.solo fs k).2 q = fs q ∨ (fs q = none ∧ (t.solo fs k).2 q = some .dir) := by
  induction k with
  | zero => exact Or.inl rfl
  | succ k ih =>
    rw [solo_succ, Task.step]
    rcases hn : t.next (t.solo fs k).2 (t.solo fs k).1 with ⟨s', e⟩
    cases e with
    | nop => exact ih
    | put n => simp only [Eff.apply, FS.set_other _ hq]; exact ih
    | mkdir q' =>
      simp only [Eff.apply]
      by_cases hqq : q = q'
      · subst hqq
        have := (t.next_mkdir _ _ _ _ (t.solo_wf fs k) hn).2
        rw [FS.set_self]
        rcases ih with h | ⟨h1, _⟩
        · rw [h] at this
          rcases hf : fs q with _ | ⟨b⟩ | _
          · exact Or.inr ⟨rfl, rfl⟩
          · exact absurd hf (this b)
          · exact Or.inl rfl
        · exact Or.inr ⟨h1, rfl⟩
      · rw [FS.set_other _ hqq]; exact ih

/-- Once done, a task stays done. -/
theorem Task.solo_done (t : Task) (fs : FS) (k : Nat) (r) (h : (t.solo fs k).1 = .done r) (m : Nat) :
    t.solo fs (k + m) = t.solo fs k := by
  induction m with
  | zero => rfl
  | succ m ih =>
    rw [← Nat.add_assoc, solo_succ, ih, Task.step, h]
    simp only [Task.next, Eff.apply]
    rw [← h]

theorem Task.solo_done_unique (t : Task) (fs : FS) (k k' : Nat) (r r') (h : (t.solo fs k).1 = .done r)
    (h' : (t.solo fs k').1 = .done r') : t.solo fs k = t.solo fs k' := by
  rcases Nat.le_total k k' with hle | hle
  · have := t.solo_done fs k r h (k' - k)
    rw [Nat.add_sub_cancel' hle] at this; exact this.symm
  · have := t.solo_done fs k' r' h' (k - k')
    rw [Nat.add_sub_cancel' hle] at this; exact this

variable {ι : Type} [DecidableEq ι]

/-- The tasks do not collide: distinct destinations, no destination is a parent of another. -/
structure Separate (tasks : ι → Task) : Prop where
  inj : ∀ i j, (tasks i).dest = (tasks j).dest → i = j
  parents : ∀ i j, (tasks i).dest ∉ dirPrefixes (dirname (tasks j).dest)

/-- The shared file system as a superposition of the tasks' solo file systems. -/
structure View (tasks : ι → Task) (fs0 : FS) (sf : ι → FS) (fs : FS) : Prop where
  dests : ∀ i, fs (tasks i).dest = sf i (tasks i).dest
  dirs : ∀ q, (∀ i, q ≠ (tasks i).dest) → (∃ i, sf i q = some .dir) → fs q = some .dir
  rest : ∀ q, (∀ i, q ≠ (tasks i).dest) → (¬ ∃ i, sf i q = some .dir) → fs q = fs0 q

theorem View.unique {tasks : ι → Task} {fs0 : FS} {sf : ι → FS} {fs fs' : FS}
    (h : View tasks fs0 sf fs) (h' : View tasks fs0 sf fs') : fs = fs' := by
  funext q
  by_cases hq : ∃ i, q = (tasks i).dest
  · obtain ⟨i, rfl⟩ := hq; rw [h.dests, h'.dests]
  · have hq' : ∀ i, q ≠ (tasks i).dest := fun i hi => hq ⟨i, hi⟩
    by_cases hd : ∃ i, sf i q = some .dir
    · rw [h.dirs q hq' hd, h'.dirs q hq' hd]
    · rw [h.rest q hq' hd, h'.rest q hq' hd]

/-- Every reachable state is the superposition of solo executions. -/
theorem poolRun_view (tasks : ι → Task) (hs : Separate tasks) (fs0 : FS) (sched : List ι) :
    ∃ k : ι → Nat, (∀ i, k i = sched.count i) ∧
      (∀ i, (poolRun tasks fs0 sched).states i = ((tasks i).solo fs0 (k i)).1) ∧
      View tasks fs0 (fun i => ((tasks i).solo fs0 (k i)).2) (poolRun tasks fs0 sched).fs := by
  induction sched using List.reverseRecOn with
  | nil =>
    refine ⟨fun _ => 0, by simp, fun i => rfl, ⟨fun i => rfl, ?_, ?_⟩⟩
    · rintro q _ ⟨i, hi⟩; exact hi
    · intro q _ _; rfl
  | append_singleton sched i ih =>
    obtain ⟨k, hk, hst, hv⟩ := ih
    have hrun : poolRun tasks fs0 (sched ++ [i]) = poolStep tasks (poolRun tasks fs0 sched) i := by
      simp [poolRun]
    rw [hrun]
    generalize poolRun tasks fs0 sched = c at hst hv ⊢
    refine ⟨fun j => if j = i then k i + 1 else k j, ?_, ?_, ?_⟩
    · intro j
      by_cases hj : j = i
      · subst hj; simp [hk]
      · have : ¬ i = j := fun h => hj h.symm
        simp [hj, hk, List.count_singleton, this]
    all_goals
      have hcong : (tasks i).next c.fs (c.states i)
          = (tasks i).next ((tasks i).solo fs0 (k i)).2 ((tasks i).solo fs0 (k i)).1 := by
        rw [hst i]
        apply Task.next_congr _ _ _ _ ((tasks i).solo_wf fs0 (k i)) (hv.dests i)
        intro q hq
        have hqd : ∀ j, q ≠ (tasks j).dest := by rintro j rfl; exact hs.parents j i hq
        by_cases hd : ∃ j, ((tasks j).solo fs0 (k j)).2 q = some .dir
        · rw [hv.dirs q hqd hd]
          obtain ⟨j, hj⟩ := hd
          constructor
          · simp
          · rintro ⟨b, hb⟩
            exfalso
            rcases (tasks i).solo_frame fs0 (k i) q (hqd i) with h | ⟨_, h⟩
            · rcases (tasks j).solo_frame fs0 (k j) q (hqd j) with h' | ⟨h', _⟩
              · rw [h, ← h', hj] at hb; simp at hb
              · rw [h, h'] at hb; simp at hb
            · rw [h] at hb; simp at hb
        · rw [hv.rest q hqd hd]
          rcases (tasks i).solo_frame fs0 (k i) q (hqd i) with h | ⟨_, h⟩
          · rw [h]
          · exact absurd ⟨i, h⟩ hd
    · intro j
      by_cases hj : j = i
      · subst hj
        simp only [poolStep, if_true, Task.step, Task.solo_succ, hcong]
      · simp only [poolStep, hj, if_false]; exact hst j
    · rcases hn : (tasks i).next ((tasks i).solo fs0 (k i)).2 ((tasks i).solo fs0 (k i)).1 with ⟨s', e⟩
      have hsolo : ((tasks i).solo fs0 (k i + 1)).2 = e.apply (tasks i).dest ((tasks i).solo fs0 (k i)).2 := by
        simp only [Task.solo_succ, Task.step, hn]
      have hfs : (poolStep tasks c i).fs = e.apply (tasks i).dest c.fs := by
        simp only [poolStep, Task.step, hcong, hn]
      have hsf : ∀ j, ((tasks j).solo fs0 (if j = i then k i + 1 else k j)).2
          = if j = i then e.apply (tasks i).dest ((tasks i).solo fs0 (k i)).2 else ((tasks j).solo fs0 (k j)).2 := by
        intro j
        by_cases hj : j = i
        · subst hj; simp [hsolo]
        · simp [hj]
      rw [hfs]
      cases e with
      | nop =>
        have : (fun j => ((tasks j).solo fs0 (if j = i then k i + 1 else k j)).2) = fun j => ((tasks j).solo fs0 (k j)).2 := by
          funext j; rw [hsf]
          by_cases hj : j = i
          · subst hj; simp [Eff.apply]
          · simp [hj]
        rw [this]; exact hv
      | put n =>
        refine ⟨?_, ?_, ?_⟩
        · intro j
          by_cases hj : j = i
          · subst hj
            show _ = ((tasks j).solo fs0 (if j = j then k j + 1 else k j)).2 (tasks j).dest
            rw [hsf j, if_pos rfl]; simp only [Eff.apply, FS.set_self]
          · have hne : (tasks j).dest ≠ (tasks i).dest := fun h => hj (hs.inj _ _ h)
            simp only [hsf, hj, if_false, Eff.apply, FS.set_other _ hne]
            exact hv.dests j
        · rintro q hq ⟨j, hj⟩
          simp only [Eff.apply, FS.set_other _ (hq i)]
          refine hv.dirs q hq ⟨j, ?_⟩
          rw [hsf] at hj
          by_cases hji : j = i
          · subst hji; simpa only [if_true, Eff.apply, FS.set_other _ (hq j)] using hj
          · simpa [hji] using hj
        · intro q hq hno
          simp only [Eff.apply, FS.set_other _ (hq i)]
          refine hv.rest q hq ?_
          rintro ⟨j, hj⟩
          refine hno ⟨j, ?_⟩
          rw [hsf]
          by_cases hji : j = i
          · subst hji; simpa only [if_true, Eff.apply, FS.set_other _ (hq j)] using hj
          · simpa [hji] using hj
      | mkdir d =>
        have hd := (tasks i).next_mkdir _ _ _ _ ((tasks i).solo_wf fs0 (k i)) hn
        have hdd : ∀ j, (tasks j).dest ≠ d := by rintro j rfl; exact hs.parents j i hd.1
        refine ⟨?_, ?_, ?_⟩
        · intro j
          simp only [Eff.apply, FS.set_other _ (hdd j), hsf]
          by_cases hj : j = i
          · subst hj; simp only [if_true, Eff.apply, FS.set_other _ (hdd j)]; exact hv.dests j
          · simp only [hj, if_false]; exact hv.dests j
        · rintro q hq ⟨j, hj⟩
          by_cases hqd : q = d
          · subst hqd; simp [Eff.apply]
          · simp only [Eff.apply, FS.set_other _ hqd]
            refine hv.dirs q hq ⟨j, ?_⟩
            rw [hsf] at hj
            by_cases hji : j = i
            · subst hji; simpa only [if_true, Eff.apply, FS.set_other _ hqd] using hj
            · simpa [hji] using hj
        · intro q hq hno
          have hqd : q ≠ d := by
            rintro rfl
            exact hno ⟨i, by rw [hsf]; simp [Eff.apply]⟩
          simp only [Eff.apply, FS.set_other _ hqd]
          refine hv.rest q hq ?_
          rintro ⟨j, hj⟩
          refine hno ⟨j, ?_⟩
          rw [hsf]
          by_cases hji : j = i
          · subst hji; simpa only [if_true, Eff.apply, FS.set_other _ hqd] using hj
          · simpa [hji] using hj

/-! ### A solo execution ends in the result of the sequential function -/

theorem FS.set_set (fs : FS) (p : Str) (a b) : (fs.set p a).set p b = fs.set p b := by
  funext q; simp only [FS.set]; split <;> rfl

theorem FS.set_same (fs : FS) (p : Str) (a) (h : fs p = a) : fs.set p a = fs := by
  funext q; simp only [FS.set]; split
  · subst q; exact h.symm
  · rfl

/-- Result of the rest of the computation. -/
def Task.finishOpen (t : Task) (b : Bytes) (fs : FS) : FS × Res Unit :=
  match t.faults.open_ with
  | some e => (fs.remove t.dest t.faults.remove, .error e)
  | none => if fs t.dest = some .dir then (fs.remove t.dest t.faults.remove, .error (.os 21))
    else
      let (c, r) := closeFile t.faults (writeBody t.faults 0 [] [.write b])
      match r with
      | .ok () => (fs.set t.dest (some (.file c)), .ok ())
      | .error e => ((fs.set t.dest (some (.file c))).remove t.dest t.faults.remove, .error e)

def Task.finishMk (t : Task) (b : Bytes) (r : FS × Res Unit) : FS × Res Unit :=
  match r with
  | (fs, .error e) => (fs.remove t.dest t.faults.remove, .error e)
  | (fs, .ok ()) => t.finishOpen b fs

theorem Task.finishMk_eq (t : Task) (b : Bytes) (fs : FS) :
    t.finishMk b (fs.makedirs (dirname t.dest) t.faults.makedirs) = writeFileOrRemove fs t.dest [.write b] t.faults := by
  unfold writeFileOrRemove writeTry finishMk finishOpen
  rcases fs.makedirs (dirname t.dest) t.faults.makedirs with ⟨fs1, _ | _⟩
  · rfl
  · simp only
    cases t.faults.open_ with
    | some e => rfl
    | none =>
      simp only
      split
      · rfl
      · rcases closeFile t.faults (writeBody t.faults 0 [] [.write b]) with ⟨c, _ | _⟩ <;> rfl

def Task.final (t : Task) : TState → FS → FS × Res Unit
  | .start, fs => if fs.isFile t.dest then (fs, .ok ()) else match t.response with
    | .error e => (fs, .error e)
    | .ok b => writeFileOrRemove fs t.dest [.write b] t.faults
  | .request, fs => match t.response with
    | .error e => (fs, .error e)
    | .ok b => writeFileOrRemove fs t.dest [.write b] t.faults
  | .mkdirs todo f b, fs => t.finishMk b (makedirsGo fs f todo)
  | .opening b, fs => t.finishOpen b fs
  | .writing b, fs =>
    let (c, r) := closeFile t.faults (writeBody t.faults 0 [] [.write b])
    match r with
    | .ok () => (fs.set t.dest (some (.file c)), .ok ())
    | .error e => ((fs.set t.dest (some (.file c))).remove t.dest t.faults.remove, .error e)
  | .closing c r, fs =>
    let (c', r') := closeFile t.faults (c, r)
    match r' with
    | .ok () => (fs.set t.dest (some (.file c')), .ok ())
    | .error e => ((fs.set t.dest (some (.file c'))).remove t.dest t.faults.remove, .error e)
  | .cleanup e, fs => (fs.remove t.dest t.faults.remove, .error e)
  | .done r, fs => (fs, r)

theorem Task.final_step (t : Task) (c : TState × FS) :
    t.final (t.step c).1 (t.step c).2 = t.final c.1 c.2 := by
  obtain ⟨s, fs⟩ := c
  cases s with
  | start =>
    by_cases h : fs.isFile t.dest = true <;> simp [Task.step, Task.next, Task.final, Eff.apply, h]
  | request =>
    cases hr : t.response with
    | error e => simp [Task.step, Task.next, Task.final, Eff.apply, hr]
    | ok b =>
      by_cases hd : (dirname t.dest).isEmpty = true
      · have := t.finishMk_eq b fs
        rw [FS.makedirs, if_pos hd] at this
        simp only [Task.step, Task.next, Task.final, Eff.apply, hr, hd, if_true, ← this, Task.finishMk]
      · have := t.finishMk_eq b fs
        rw [FS.makedirs, if_neg hd] at this
        simp only [Task.step, Task.next, Task.final, Eff.apply, hr, hd, ← this]
        rfl
  | mkdirs todo f b =>
    rcases f with _ | ⟨_ | k, e⟩ <;> cases todo with
    | nil => simp [Task.step, Task.next, Task.final, makedirsGo, Eff.apply, Task.finishMk]
    | cons q qs =>
      first
        | (simp [Task.step, Task.next, Task.final, makedirsGo, Eff.apply, Task.finishMk]; done)
        | (rcases hf : fs q with _ | ⟨b1⟩ | _
           · simp [Task.step, Task.next, Task.final, makedirsGo, Eff.apply, hf]
           · simp [Task.step, Task.next, Task.final, makedirsGo, Eff.apply, Task.finishMk, hf]
           · simp [Task.step, Task.next, Task.final, makedirsGo, Eff.apply, FS.set_same _ _ _ hf, hf])
  | opening b =>
    cases ho : t.faults.open_ with
    | some e => simp [Task.step, Task.next, Task.final, Task.finishOpen, Eff.apply, ho]
    | none =>
      by_cases hd : fs t.dest = some .dir
      · simp [Task.step, Task.next, Task.final, Task.finishOpen, Eff.apply, ho, hd]
      · simp only [Task.step, Task.next, Task.final, Task.finishOpen, Eff.apply, ho, hd, if_false, FS.set_set]
  | writing b =>
    rcases hw : t.faults.write 0 with _ | ⟨k, e⟩ <;>
      simp [Task.step, Task.next, Task.final, writeBody, hw, Eff.apply, FS.set_set]
  | closing c r =>
    rcases hw : closeFile t.faults (c, r) with ⟨c', _ | _⟩ <;>
      simp [Task.step, Task.next, Task.final, hw, Eff.apply]
  | cleanup e =>
    by_cases hr : t.faults.remove = true
    · simp [Task.step, Task.next, Task.final, FS.remove, Eff.apply, hr]
    · rcases hf : fs t.dest with _ | ⟨b⟩ | _ <;>
        simp [Task.step, Task.next, Task.final, FS.remove, FS.isFile, Eff.apply, hr, hf]
  | done r => simp [Task.step, Task.next, Task.final, Eff.apply]

/-- Number of steps a task can still make. -/
def Task.rank (t : Task) : TState → Nat
  | .start => 7 + (dirPrefixes (dirname t.dest)).length
  | .request => 6 + (dirPrefixes (dirname t.dest)).length
  | .mkdirs todo _ _ => 5 + todo.length
  | .opening _ => 4
  | .writing _ => 3
  | .closing _ _ => 2
  | .cleanup _ => 1
  | .done _ => 0

theorem Task.rank_step (t : Task) (c : TState × FS) : t.rank (t.step c).1 ≤ t.rank c.1 - 1 := by
  obtain ⟨s, fs⟩ := c
  cases s with
  | start => simp only [Task.step, Task.next]; split <;> simp [Task.rank]
  | request =>
    simp only [Task.step, Task.next]
    cases t.response with
    | error e => simp [Task.rank]
    | ok b => simp only; split <;> simp [Task.rank] <;> omega
  | mkdirs todo f b =>
    rcases f with _ | ⟨_ | k, e⟩ <;> cases todo with
    | nil => simp [Task.step, Task.next, Task.rank]
    | cons q qs =>
      simp only [Task.step, Task.next]
      first
        | (simp [Task.rank]; omega)
        | (rcases hf : fs q with _ | ⟨b1⟩ | _ <;> simp [Task.rank] <;> omega)
  | opening b =>
    simp only [Task.step, Task.next]
    cases t.faults.open_ with
    | some e => simp [Task.rank]
    | none => simp only; split <;> simp [Task.rank]
  | writing b =>
    simp only [Task.step, Task.next]
    rcases t.faults.write 0 with _ | ⟨k, e⟩ <;> simp [Task.rank]
  | closing c r =>
    simp only [Task.step, Task.next]
    rcases closeFile t.faults (c, r) with ⟨c', _ | _⟩ <;> simp [Task.rank]
  | cleanup e =>
    simp only [Task.step, Task.next]
    split
    · simp [Task.rank]
    · split <;> simp [Task.rank]
  | done r => simp [Task.step, Task.next, Task.rank]

theorem Task.rank_zero {t : Task} {s : TState} (h : t.rank s = 0) : ∃ r, s = .done r := by
  cases s <;> simp_all [Task.rank]

theorem Task.iterate_final (t : Task) (k : Nat) (c : TState × FS) :
    t.final (t.step^[k] c).1 (t.step^[k] c).2 = t.final c.1 c.2 ∧ t.rank (t.step^[k] c).1 ≤ t.rank c.1 - k := by
  induction k generalizing c with
  | zero => simp
  | succ k ih =>
    rw [Function.iterate_succ_apply]
    obtain ⟨h1, h2⟩ := ih (t.step c)
    refine ⟨by rw [h1, t.final_step], ?_⟩
    have := t.rank_step c
    omega

/-- After enough steps, a solo execution is done with the result of `final`. -/
theorem Task.solo_complete (t : Task) (fs : FS) (k : Nat) (hk : 7 + (dirPrefixes (dirname t.dest)).length ≤ k) :
    t.solo fs k = (.done (t.final .start fs).2, (t.final .start fs).1) := by
  have h := t.iterate_final k (.start, fs)
  unfold Task.solo
  have h0 : t.rank (.start) - k = 0 := by simp only [Task.rank]; omega
  obtain ⟨r, hr⟩ := Task.rank_zero (Nat.le_zero.1 (h0 ▸ h.2))
  have h1 := h.1
  rw [hr] at h1
  simp only [Task.final] at h1 ⊢
  rw [← h1]
  exact Prod.ext hr rfl

/-- Steps of a single task in the pool are its solo steps. -/
theorem pool_replicate (tasks : ι → Task) (i : ι) (n : Nat) (c : PoolState ι) :
    (List.replicate n i).foldl (poolStep tasks) c =
      ⟨fun j => if j = i then ((tasks i).step^[n] (c.states i, c.fs)).1 else c.states j,
        ((tasks i).step^[n] (c.states i, c.fs)).2⟩ := by
  induction n generalizing c with
  | zero =>
    simp only [List.replicate_zero, List.foldl_nil, Function.iterate_zero, id_eq]
    obtain ⟨st, fs⟩ := c
    congr 1
    funext j; split
    · subst j; rfl
    · rfl
  | succ n ih =>
    rw [List.replicate_succ, List.foldl_cons, ih, Function.iterate_succ_apply]
    simp only [poolStep, if_true]
    congr 1
    funext j; split <;> rfl

end Cdtb
