import Verif.Model.Download
/-!
# Model of the parallel download of bundles (cdtb/patcher.py:554-558)

`ThreadPool(8).map(storage.download_bundle, sorted(ids), 1)`: every bundle is one task executing
`download_bundle` (cdtb/patcher.py:431-436), that is `Storage.download` (cdtb/storage.py:240-255) without
`force`. A task is a machine whose steps are the accesses to the file system; steps of different
tasks interleave arbitrarily (this includes all schedules of a pool of any number of threads).
-/
namespace Cdtb
set_option autoImplicit false
open Py

/-- A task: destination on disk, what the server answers, faults of the disk. -/
structure Task where
  dest : Str
  response : Res Bytes
  faults : WriteFaults

/-- Local state of a task: the point reached in `download` / `write_file_or_remove`. -/
inductive TState where
  /-- about to evaluate `os.path.isfile(fspath)` (cdtb/storage.py:248) -/
  | start
  /-- about to request (cdtb/storage.py:252-253) -/
  | request
  /-- in `os.makedirs` (cdtb/tools.py:29), with the directories left to make -/
  | mkdirs (todo : List Str) (fault : Option (Nat × Err)) (content : Bytes)
  /-- about to open the file (cdtb/tools.py:30) -/
  | opening (content : Bytes)
  /-- about to write (cdtb/storage.py:255) -/
  | writing (content : Bytes)
  /-- about to close; content on disk and outcome of the body -/
  | closing (content : Bytes) (r : Res Unit)
  /-- in the `except` clause (cdtb/tools.py:32-38) -/
  | cleanup (e : Err)
  | done (r : Res Unit)
deriving DecidableEq

/-- Effect of a step on the file system. -/
inductive Eff where
  | nop
  | mkdir (q : Str)
  | put (n : Option Node)

def Eff.apply (dest : Str) : Eff → FS → FS
  | .nop, fs => fs
  | .mkdir q, fs => fs.set q (some .dir)
  | .put n, fs => fs.set dest n

/-- One step of a task, reading the file system: new local state and effect. -/
def Task.next (t : Task) (fs : FS) : TState → TState × Eff
  | .start => if fs.isFile t.dest then (.done (.ok ()), .nop) else (.request, .nop)
  | .request => match t.response with
    | .error e => (.done (.error e), .nop)
    | .ok b =>
      if (dirname t.dest).isEmpty then (.cleanup .fileNotFound, .nop)
      else (.mkdirs (dirPrefixes (dirname t.dest)) t.faults.makedirs b, .nop)
  | .mkdirs todo f b => match f, todo with
    | some (0, e), _ => (.cleanup e, .nop)
    | _, [] => (.opening b, .nop)
    | f, q :: qs => match fs q with
      | some (.file _) => (.cleanup (.os 20), .nop)
      | _ => (.mkdirs qs (f.map fun ke => (ke.1 - 1, ke.2)) b, .mkdir q)
  | .opening b => match t.faults.open_ with
    | some e => (.cleanup e, .nop)
    | none => if fs t.dest = some .dir then (.cleanup (.os 21), .nop)
      else (.writing b, .put (some (.file [])))
  | .writing b => match t.faults.write 0 with
    | some (k, e) => (.closing (b.take k) (.error e), .put (some (.file (b.take k))))
    | none => (.closing b (.ok ()), .put (some (.file b)))
  | .closing c r =>
    let (c', r') := closeFile t.faults (c, r)
    match r' with
    | .ok () => (.done (.ok ()), .put (some (.file c')))
    | .error e => (.cleanup e, .put (some (.file c')))
  | .cleanup e =>
    if t.faults.remove then (.done (.error e), .nop)
    else if fs.isFile t.dest then (.done (.error e), .put none)
    else (.done (.error e), .nop)
  | .done r => (.done r, .nop)

/-- One step of a task. -/
def Task.step (t : Task) (c : TState × FS) : TState × FS :=
  let (s', e) := t.next c.2 c.1
  (s', e.apply t.dest c.2)

/-- State of the whole system: local states of the tasks, shared file system. -/
structure PoolState (ι : Type) where
  states : ι → TState
  fs : FS

/-- A step of the task `i`. -/
def poolStep {ι : Type} [DecidableEq ι] (tasks : ι → Task) (c : PoolState ι) (i : ι) : PoolState ι :=
  let (s', fs') := (tasks i).step (c.states i, c.fs)
  ⟨fun j => if j = i then s' else c.states j, fs'⟩

/-- Execution of a schedule, from the start. -/
def poolRun {ι : Type} [DecidableEq ι] (tasks : ι → Task) (fs : FS) (sched : List ι) : PoolState ι :=
  sched.foldl (poolStep tasks) ⟨fun _ => .start, fs⟩

end Cdtb
