import Verif.Model.WadCmd
/-!
# Model of the directory of hash files and of its updates

cdtb/hashes.py:23-50 (`_default_hash_dir`), 76-77, 88-110 (`update_default_hashfile`), cdtb/binfile.py:16-19 and
cdtb/rstfile.py:7-11, 22-23 (the other hash files), cdtb/__main__.py:91-114 (`command_fetch_hashes`).
-/
namespace Cdtb
set_option autoImplicit false
open Py

/-! ## The directory -/

/-- The environment of the process: `os.environ.get`, and `Path.home()` (which may raise) -/
structure OsEnv where
  getenv : Str → Option Str
  home : Res Str

/-- `_env_dir`: cdtb/hashes.py:35-37. Paths are strings, joined by a slash: the normalisation of `pathlib` (`a//b`, `a/./b`,
`a/`) is not modelled. -/
def OsEnv.envDir (e : OsEnv) (name : Str) : Option Str :=
  match e.getenv name with
  | some value => if value.isEmpty then none else some value
  | none => none

/-- `Path.is_absolute` -/
def isAbsolute (p : Str) : Bool := startsWith p ['/']

/-- `_default_hash_dir`: cdtb/hashes.py:23-48 -/
def defaultHashDir (e : OsEnv) : Res Str :=
  match e.envDir "CDTB_HASHES_DIR".toList with
  | some path => .ok path
  | none =>
    match e.envDir "CDRAGON_DATA".toList with
    | some path => .ok (pjoin path "hashes/lol".toList)
    | none => do
      let base ← match (e.envDir "XDG_DATA_HOME".toList).filter isAbsolute with
        | some path => Except.ok path
        | none =>
          match e.envDir "LOCALAPPDATA".toList with
          | some path => Except.ok path
          | none => e.home.map fun h => pjoin h ".local/share".toList
      .ok (pjoin base "cdragon/data/hashes/lol".toList)

/-! ## The hash files -/

/-- `get_hashfile` (cdtb/rstfile.py:7-11, with the file names of 22-23): the path of the hash file -/
def rstHashfile (dir : Str) (gameVersion : Int) : Str :=
  if gameVersion ≥ 1415 then pjoin dir "hashes.rst.xxh3.txt".toList else pjoin dir "hashes.rst.xxh64.txt".toList

/-- The four hash files of bin files: cdtb/binfile.py:16-19 -/
def binHashfiles (dir : Str) : List Str :=
  ["hashes.binentries.txt", "hashes.binhashes.txt", "hashes.binfields.txt", "hashes.bintypes.txt"].map
    fun s => pjoin dir s.toList

/-! ## Dates -/

/-- The names of `%a` and `%b`, in the locale of C -/
def dayNames : List Str := ["Mon", "Tue", "Wed", "Thu", "Fri", "Sat", "Sun"].map String.toList
def monthNames : List Str :=
  ["Jan", "Feb", "Mar", "Apr", "May", "Jun", "Jul", "Aug", "Sep", "Oct", "Nov", "Dec"].map String.toList

/-- A number written with digits only -/
def digitsNat (s : Str) : Option Nat :=
  if s.all (fun c => decide ('0' ≤ c ∧ c ≤ '9')) then some (s.foldl (fun n c => 10 * n + (c.toNat - 48)) 0) else none

/-- `calendar.isleap`, as used by `datetime` -/
def isLeap (y : Nat) : Bool := y % 4 == 0 && (y % 100 != 0 || y % 400 == 0)

def monthLengths (y : Nat) : List Nat := [31, if isLeap y then 29 else 28, 31, 30, 31, 30, 31, 31, 30, 31, 30, 31]

/-- `timestamp()` of a date in UTC (`datetime` in cdtb/hashes.py:100-101): difference of the proleptic Gregorian ordinals.
`m` counts from 0. -/
def timestampUTC (y m d hour min sec : Nat) : Int :=
  let ordinal := (y - 1) * 365 + (y - 1) / 4 - (y - 1) / 100 + (y - 1) / 400 + ((monthLengths y).take m).sum + d
  ((ordinal : Int) - 719163) * 86400 + hour * 3600 + min * 60 + sec

/-- `strptime(s, '%a, %d %b %Y %H:%M:%S GMT').replace(tzinfo=utc).timestamp()` (cdtb/hashes.py:100-101). Only the
canonical form, with two digits for the day and the time, is accepted here: `strptime` is more lenient (one digit, letter
case, spaces). It does not check that the day of the week is the right one. -/
def parseHttpDate (s : Str) : Res Int :=
  let field (i n : Nat) := (s.drop i).take n
  if s.length = 29 ∧ field 0 3 ∈ dayNames ∧ field 3 2 = [',', ' '] ∧ field 7 1 = [' '] ∧ field 8 3 ∈ monthNames ∧
      field 11 1 = [' '] ∧ field 16 1 = [' '] ∧ field 19 1 = [':'] ∧ field 22 1 = [':'] ∧ field 25 4 = [' ', 'G', 'M', 'T'] then
    let m := monthNames.idxOf (field 8 3)
    match digitsNat (field 5 2), digitsNat (field 12 4), digitsNat (field 17 2), digitsNat (field 20 2), digitsNat (field 23 2) with
    | some d, some y, some hour, some min, some sec =>
      if 1 ≤ d ∧ d ≤ (monthLengths y).getD m 0 ∧ 1 ≤ y ∧ hour < 24 ∧ min < 60 ∧ sec < 60 then
        .ok (timestampUTC y m d hour min sec)
      else .error .value
    | _, _, _, _, _ => .error .value
  else .error .value

/-! ## Updates -/

/-- The disk, with the time of the last modification of files (`st_mtime`), in nanoseconds since the epoch. Its conversion
to a float is not modelled. -/
structure TimedFS where
  fs : FS
  mtime : Str → Int

/-- What happens during one call of `update_default_hashfile`.
* `head`: the `last-modified` header of the answer to the first request, or the error of `requests.head`, of
  `raise_for_status`, or of the access to the header;
* `get`: the content of the answer to the second request, or its error;
* `now`: the time at which the file is written;
* `faults`: what fails while writing the file. -/
structure UpdateCall where
  head : Res Str
  get : Res Bytes
  now : Int
  faults : WriteFaults

/-- The requests of a call -/
inductive HashRequest where
  | head
  | get
deriving DecidableEq, Repr

/-- `path.stat().st_mtime` -/
def TimedFS.stat (d : TimedFS) (path : Str) : Res Int :=
  match d.fs path with
  | some _ => .ok (d.mtime path)
  | none => match d.fs (dirname path) with
    | some (.file _) => .error (.os 20)
    | _ => .error .fileNotFound

/-- Does `write_file_or_remove` open the file (which changes its time)? cdtb/tools.py:28-30 -/
def fileOpened (fs : FS) (path : Str) (f : WriteFaults) : Bool :=
  match fs.makedirs (dirname path) f.makedirs with
  | (fs1, .ok ()) => f.open_.isNone && decide (fs1 path ≠ some .dir)
  | (_, .error _) => false

/-- The `try` part of `update_default_hashfile` (cdtb/hashes.py:94-102): is the file up to date? Also
the requests made. -/
def checkUpdate (d : TimedFS) (path : Str) (c : UpdateCall) : Res Bool × List HashRequest :=
  match d.stat path with
  | .error e => (.error e, [])
  | .ok last => (do
      let header ← c.head
      let modified ← parseHttpDate header
      .ok (decide (last ≥ modified * 1000000000)), [.head])

/-- The second part of `update_default_hashfile`: cdtb/hashes.py:107-110 -/
def fetchHashfile (d : TimedFS) (path : Str) (c : UpdateCall) : TimedFS × Res Unit :=
  match c.get with
  | .error e => (d, .error e)
  | .ok content =>
    let (fs', r) := writeFileOrRemove d.fs path [.write content] c.faults
    ({ fs := fs', mtime := if fileOpened d.fs path c.faults then fun p => if p = path then c.now else d.mtime p else d.mtime }, r)

/-- `update_default_hashfile`: cdtb/hashes.py:88-110. Also the requests made. -/
def updateHashfile (dir : Str) (d : TimedFS) (basename : Str) (c : UpdateCall) :
    TimedFS × Res Unit × List HashRequest :=
  let path := pjoin dir basename
  match checkUpdate d path c with
  | (.ok true, reqs) => (d, .ok (), reqs)
  | (.error .fileNotFound, reqs) | (.ok false, reqs) =>
    let (d', r) := fetchHashfile d path c
    (d', r, reqs ++ [.get])
  | (.error e, reqs) => (d, .error e, reqs)

/-- A hard crash while the file is written: only `k` bytes have reached the disk, and the handler of exceptions does
not run. -/
def updateCrash (dir : Str) (d : TimedFS) (basename : Str) (content : Bytes) (now : Int) (k : Nat) : TimedFS :=
  let path := pjoin dir basename
  { fs := (d.fs.makedirs (dirname path) none).1.set path (some (.file (content.take k))),
    mtime := fun p => if p = path then now else d.mtime p }

/-- The names of `command_fetch_hashes`: cdtb/__main__.py:102-112 -/
def fetchedHashes : List Str :=
  ["hashes.binentries.txt", "hashes.binfields.txt", "hashes.binhashes.txt", "hashes.bintypes.txt", "hashes.game.txt",
   "hashes.lcu.txt", "hashes.rst.txt", "hashes.rst.xxh64.txt", "hashes.rst.xxh3.txt"].map String.toList

/-- The loop of `command_fetch_hashes`: cdtb/__main__.py:113-114 -/
def updateAll (dir : Str) (calls : Str → UpdateCall) : TimedFS → List Str → TimedFS × Res Unit
  | d, [] => (d, .ok ())
  | d, b :: bs =>
    match updateHashfile dir d b (calls b) with
    | (d', .error e, _) => (d', .error e)
    | (d', .ok (), _) => updateAll dir calls d' bs

/-- `command_fetch_hashes`: cdtb/__main__.py:91-114. `source` is the directory of the program, `calls` tells what happens
during the update of each file, `fault` what fails in the creation of the directory. -/
def commandFetchHashes (source dir : Str) (calls : Str → UpdateCall) (fault : Option (Nat × Err))
    (d : TimedFS) : TimedFS × Res Unit :=
  if dir = source then (d, .error .usage)
  else match d.fs.makedirs dir fault with
    | (fs1, .error e) => ({ d with fs := fs1 }, .error e)
    | (fs1, .ok ()) => updateAll dir calls { d with fs := fs1 } fetchedHashes

/-- `command_fetch_hashes` as called by the toolbox (cdtb/__main__.py:91-114): files, printed texts, outcome. Times of files are those of `mtime`, and are not
kept after the run. -/
def fetchHashesRun (source dir : Str) (calls : Str → UpdateCall) (fault : Option (Nat × Err)) (mtime : Str → Int) (fs : FS) : FS × List Str × Res Unit :=
  let (d, r) := commandFetchHashes source dir calls fault { fs, mtime }
  (d.fs, if dir = source then [] else ["Updating hash files: ".toList ++ dir], r)

end Cdtb
