import Verif.Model.Patcher
import Verif.Py.Utf8
/-!
# Model of cdtb/patcher.py: releases of a `PatcherStorage` (lines 329-411), `download_manifest` (413-429),
`PatcherRelease` (471-505)
-/
namespace Cdtb
set_option autoImplicit false
open Py

/-! ## Manifest URLs -/

/-- `s.replace(old, new)` for a non-empty `old`; the number is how many characters of a replaced
occurrence remain to be skipped. -/
def replaceGo (old new : Str) : Nat → Str → Str
  | _, [] => []
  | 0, c :: r => if old.isPrefixOf (c :: r) then new ++ replaceGo old new (old.length - 1) r else c :: replaceGo old new 0 r
  | k + 1, _ :: r => replaceGo old new k r

/-- `PatcherStorage.URL_BASE`: cdtb/patcher.py:309 -/
def patcherUrl : Str := "https://lol.dyn.riotcdn.net/".toList

/-- `[0-9A-F]`: cdtb/patcher.py:420 -/
def isHexU (c : Char) : Bool := (48 ≤ c.toNat && c.toNat ≤ 57) || (65 ≤ c.toNat && c.toNat ≤ 70)

/-- `re.match(r"^channels/public/releases/([0-9A-F]{16})\.manifest$", s)`, the matched group.
Like in Python, `$` also matches before a final line feed: cdtb/patcher.py:420 -/
def matchManifest (s : Str) : Option Str :=
  let p := "channels/public/releases/".toList
  if startsWith s p then
    let r := s.drop p.length
    let h := r.take 16
    if h.length = 16 ∧ h.all isHexU = true ∧ (r.drop 16 = ".manifest".toList ∨ r.drop 16 = ".manifest\n".toList) then some h else none
  else none

/-- The argument of `download_manifest`: cdtb/patcher.py:413 -/
inductive ManifestRef where
  | url (s : Str)
  | id (n : Int)
deriving DecidableEq, Repr

/-- The id of the manifest: cdtb/patcher.py:416-425 -/
def ManifestRef.toId : ManifestRef → Res Int
  | .url s => do
    let s := replaceGo ".secure.".toList ".".toList 0 s
    if !startsWith s patcherUrl then throw .value
    match matchManifest (s.drop patcherUrl.length) with
    | none => throw .value
    | some h => match int16 h with
      | some n => pure n
      | none => throw .value
  | .id n => pure n

/-- `f"{n:016X}"` for an `int` (the sign counts for one character): cdtb/patcher.py:427 -/
def hexInt16U (n : Int) : Str := if n < 0 then '-' :: hexWU 15 n.natAbs else hexWU 16 n.natAbs

/-- The path in the storage: cdtb/patcher.py:427 -/
def manifestRel (n : Int) : Str := "channels/public/releases/".toList ++ hexInt16U n ++ ".manifest".toList

/-- `PatcherStorage.download_manifest`: cdtb/patcher.py:413-429. The boolean tells whether a request was made;
the response is a function of the requested path (the URL is `patcherUrl` followed by it). -/
def downloadManifest (base : Str) (fs : FS) (response : Str → Res Bytes) (faults : WriteFaults) (ref : ManifestRef) :
    FS × Res Str × Bool :=
  match ref.toId with
  | .error e => (fs, .error e, false)
  | .ok n =>
    let path := manifestRel n
    match download base fs ⟨path, none, false, response path, faults⟩ with
    | (fs', .error e, q) => (fs', .error e, q)
    | (fs', .ok (), q) => (fs', .ok path, q)

/-! ## Releases -/

/-- Data of a release: the dict of `release.json`. Values other than strings are not modelled. -/
abbrev RelData := Dict Str Str

/-- The `json` module on such dicts; `json.load` may raise. -/
structure JsonLib where
  dump : RelData → Bytes
  load : Bytes → Res RelData

/-- `a == b` on dicts (same number of items, and each item of `a` is in `b`). -/
def relDataEq (a b : RelData) : Bool := a.length = b.length && a.all (fun kv => b.get? kv.1 = some kv.2)

/-- `release_info`: cdtb/patcher.py:361-364 -/
def releaseInfo (client game : Str) : RelData := [("client_patch_url".toList, client), ("game_patch_url".toList, game)]

/-- Path of `release.json`: cdtb/patcher.py:377, 479-480 -/
def PCfg.releaseJson (cfg : PCfg) (version : Int) : Str := cfg.storageDir version ++ "/release.json".toList

/-- Path of `latest.timestamp`: cdtb/patcher.py:379, 407 -/
def PCfg.latestPath (cfg : PCfg) : Str := cfg.releasePath ++ "/latest.timestamp".toList

/-- `open(path)` and reading it all -/
def FS.readFile (fs : FS) (path : Str) : Res Bytes := match fs path with
  | some (.file b) => .ok b
  | some .dir => .error (.os 21)
  | none => .error .fileNotFound

/-- `PatcherStorage.latest_timestamp`: cdtb/patcher.py:406-411 -/
def PCfg.latestTimestamp (cfg : PCfg) (fs : FS) : Res (Option Int) :=
  if fs cfg.latestPath = none then .ok none
  else do
    let b ← fs.readFile cfg.latestPath
    let s ← utf8 b
    match int10 (strip s) with
    | some n => pure (some n)
    | none => throw .value

/-- `PatcherRelease.__init__`, its data: cdtb/patcher.py:476-481 -/
def PCfg.releaseData (cfg : PCfg) (js : JsonLib) (fs : FS) (version : Int) : Res RelData := do
  let b ← fs.readFile (cfg.releaseJson version)
  js.load b

/-- `PatcherRelease.available_elements`, for a name: cdtb/patcher.py:489-498 (an empty URL is no URL) -/
def relElement (data : RelData) (name : Str) : Option Str :=
  match data.get? (name ++ "_patch_url".toList) with
  | some [] => none
  | o => o

/-- `PatcherRelease.available_elements` / `elements`: names of the elements of the release:
cdtb/patcher.py:496-505 (`PatchElement.names`: cdtb/storage.py:339) -/
def relElements (data : RelData) : List Str :=
  ["game".toList, "client".toList].filter fun n => (relElement data n).isSome

/-- `get_latest_client_manifest`, once the configurations (id, patch URL) of the patchline are there:
cdtb/patcher.py:392-396 -/
def clientPatchUrl (patchline : Str) (configs : List (Str × Str)) : Res Str :=
  let region := if patchline = "pbe".toList then "PBE".toList else "EUW".toList
  match configs.find? (fun c => c.1 = region) with
  | some c => .ok c.2
  | none => .error .value

/-- `get_latest_game_manifest`, once the releases (download URLs) are there: cdtb/patcher.py:402-404 -/
def gamePatchUrl (releases : List Str) : Res Str :=
  if releases.length = 1 then match releases.getLast? with
    | some u => .ok u
    | none => .error .index
  else .error .assertion

/-- What the world gives to a call of `fetch_latest_update`: the URLs of the manifests (or the exception when
getting them: cdtb/patcher.py:382-404), the clock, and the faults of the two writes. -/
structure FetchEnv where
  client : Res Str
  game : Res Str
  time : Int
  f1 : WriteFaults
  f2 : WriteFaults

/-- `print(f"{timestamp}", file=f)`: cdtb/patcher.py:380 -/
def timestampText (t : Int) : Bytes := utf8Bytes (showInt t ++ ['\n'])

/-- Is the latest release (if any) the same?: cdtb/patcher.py:366-372 -/
def PCfg.upToDate (cfg : PCfg) (js : JsonLib) (fs : FS) (info : RelData) : Res Bool := do
  match ← cfg.latestTimestamp fs with
  | none => pure false
  | some t => do
    let data ← cfg.releaseData js fs t
    pure (relDataEq info data)

/-- The two writes: cdtb/patcher.py:375-380 -/
def PCfg.record (cfg : PCfg) (js : JsonLib) (fs : FS) (info : RelData) (env : FetchEnv) : FS × Res Unit :=
  match writeFileOrRemove fs (cfg.releaseJson env.time) [.write (js.dump info)] env.f1 with
  | (fs1, .error e) => (fs1, .error e)
  | (fs1, .ok ()) => writeFileOrRemove fs1 cfg.latestPath [.write (timestampText env.time)] env.f2

/-- `PatcherStorage.fetch_latest_update`: cdtb/patcher.py:358-380 -/
def PCfg.fetchLatest (cfg : PCfg) (js : JsonLib) (fs : FS) (env : FetchEnv) : FS × Res Unit :=
  match env.client with
  | .error e => (fs, .error e)
  | .ok c => match env.game with
    | .error e => (fs, .error e)
    | .ok g =>
      match cfg.upToDate js fs (releaseInfo c g) with
      | .error e => (fs, .error e)
      | .ok true => (fs, .ok ())
      | .ok false => cfg.record js fs (releaseInfo c g) env

/-- Fetches one after the other, until one raises: cdtb/patcher.py:358-380 -/
def PCfg.fetchAll (cfg : PCfg) (js : JsonLib) : FS → List FetchEnv → FS × Res Unit
  | fs, [] => (fs, .ok ())
  | fs, env :: envs => match cfg.fetchLatest js fs env with
    | (fs', .error e) => (fs', .error e)
    | (fs', .ok ()) => cfg.fetchAll js fs' envs

/-- A hard crash (the handlers of exceptions do not run) during the writes of a fetch: only `k` bytes of
`release.json` are on disk (`first k`), or it is there and nothing else was done (`between`), or only `k` bytes of
`latest.timestamp` are on disk (`second k`): cdtb/patcher.py:377-380 -/
inductive FetchCrash where
  | first (k : Nat)
  | between
  | second (k : Nat)
deriving DecidableEq, Repr

/-- State of the disk after such a crash: cdtb/patcher.py:375-380 -/
def PCfg.recordCrash (cfg : PCfg) (js : JsonLib) (fs : FS) (info : RelData) (time : Int) : FetchCrash → FS
  | .first k =>
    (fs.makedirs (dirname (cfg.releaseJson time)) none).1.set (cfg.releaseJson time) (some (.file ((js.dump info).take k)))
  | .between => (writeFileOrRemove fs (cfg.releaseJson time) [.write (js.dump info)] {}).1
  | .second k =>
    let fs1 := (writeFileOrRemove fs (cfg.releaseJson time) [.write (js.dump info)] {}).1
    (fs1.makedirs (dirname cfg.latestPath) none).1.set cfg.latestPath (some (.file ((timestampText time).take k)))

/-- One event in the life of a storage: a fetch, or a fetch cut by a hard crash. -/
inductive FetchEvent where
  | fetch (env : FetchEnv)
  | crash (env : FetchEnv) (at_ : FetchCrash)

/-- State of the disk after an event: cdtb/patcher.py:358-380. A crash only matters if the fetch was to write. -/
def PCfg.afterEvent (cfg : PCfg) (js : JsonLib) (fs : FS) : FetchEvent → FS
  | .fetch env => (cfg.fetchLatest js fs env).1
  | .crash env c => match env.client, env.game with
    | .ok u, .ok g => match cfg.upToDate js fs (releaseInfo u g) with
      | .ok false => cfg.recordCrash js fs (releaseInfo u g) env.time c
      | _ => fs
    | _, _ => fs

/-- A history of events -/
def PCfg.afterEvents (cfg : PCfg) (js : JsonLib) (fs : FS) (evs : List FetchEvent) : FS := evs.foldl (cfg.afterEvent js) fs

/-- The versions of `iter_releases`, newest first: cdtb/patcher.py:338-347. `names` is what `os.listdir` gives. -/
def PCfg.releaseVersions (cfg : PCfg) (fs : FS) (names : List Str) : List Int :=
  ((names.filterMap int10).insertionSort (fun a b => b ≤ a)).filter fun v => fs.isFile (cfg.releaseJson v)

/-- `PatcherStorage.iter_releases`, as a list of versions with their data: cdtb/patcher.py:332-347 -/
def PCfg.iterReleases (cfg : PCfg) (js : JsonLib) (fs : FS) (names : List Str) : Res (List (Int × RelData)) :=
  if fs cfg.releasePath = some .dir then
    (cfg.releaseVersions fs names).mapM fun v => (cfg.releaseData js fs v).map fun d => (v, d)
  else .ok []

end Cdtb
