import Verif.Model.Rads
import Verif.Model.PatchVersion
/-!
# Model of RADS storages on disk (cdtb/rads.py:94-138, 204-215, 241-253, 285-392, 442-449, 475-558)

Text files are read and written as UTF-8. A file is decoded as a whole.
-/
namespace Cdtb
set_option autoImplicit false
open Py

/-- A storage (cdtb/rads.py:60-63, cdtb/storage.py:192-195), and the libraries it uses. `exe` is `get_exe_version`
(cdtb/storage.py:439-444), from the content of the file. -/
structure RadsCfg where
  base : Str
  url : Str
  z : Inflate
  exe : Bytes → Res (Option Str)

/-- What the world gives during a call: responses of the CDN, order of sets (cdtb/rads.py:291, 295), faults of the disk
when writing the file at a path relative to the storage, files of the current directory. -/
structure RadsWorld where
  get : Str → Res Bytes
  stream : Str → Res (List Bytes)
  order : List ProjVer → List ProjVer := id
  faults : Str → WriteFaults := fun _ => {}
  cwd : Str → Bool := fun _ => false

/-- `URL_PBE`: cdtb/rads.py:51-58 -/
def urlPbe : Str := "http://l3cdn.riotgames.com/releases/pbe/".toList

/-- `RadsSolutionVersion`: its solution (name) and version, cdtb/rads.py:212-215 -/
structure SolVer where
  name : Str
  version : Version
deriving DecidableEq, Repr

/-- `RadsSolutionVersion.path`: cdtb/rads.py:156, 213 -/
def SolVer.path (sv : SolVer) : Str := "solutions/".toList ++ sv.name ++ "/releases/".toList ++ sv.version.s

/-- `RadsProjectVersion.path`: cdtb/rads.py:405, 446 -/
def ProjVer.path (pv : ProjVer) : Str := "projects/".toList ++ pv.name ++ "/releases/".toList ++ pv.version.s

/-! ## Manifests -/

/-- `Storage.download` (cdtb/storage.py:240-255), not forced -/
def RadsCfg.download (cfg : RadsCfg) (w : RadsWorld) (fs : FS) (urlpath path : Str) : FS × Res Unit :=
  let (fs', r, _) := Cdtb.download cfg.base fs ⟨urlpath, some path, false, w.get urlpath, w.faults path⟩
  (fs', r)

/-- The text of a file of the storage -/
def RadsCfg.readText (cfg : RadsCfg) (fs : FS) (path : Str) : Res Str := do
  let b ← fs.readFile (storageFspath cfg.base path)
  utf8 b

/-- Path of the solution manifest: cdtb/rads.py:250 -/
def SolVer.manifest (sv : SolVer) : Str := sv.path ++ "/solutionmanifest".toList

/-- `RadsSolutionVersion.dependencies`: cdtb/rads.py:241-283 -/
def RadsCfg.dependencies (cfg : RadsCfg) (w : RadsWorld) (fs : FS) (sv : SolVer) : FS × Res LangDeps :=
  match cfg.download w fs sv.manifest sv.manifest with
  | (fs', .error e) => (fs', .error e)
  | (fs', .ok ()) => (fs', do
      let text ← cfg.readText fs' sv.manifest
      dependenciesOfText sv.name sv.version text)

/-- The order of the project versions: `projects` gives the list of a set in some cases (cdtb/rads.py:290-295). -/
def RadsWorld.arrange (w : RadsWorld) : RadsLangs → List ProjVer → List ProjVer
  | .all, ps => w.order ps
  | .some_ _, ps => w.order ps
  | _, ps => ps

/-- `RadsSolutionVersion.projects`: cdtb/rads.py:285-295 -/
def RadsCfg.projects (cfg : RadsCfg) (w : RadsWorld) (fs : FS) (sv : SolVer) (langs : RadsLangs) : FS × Res (List ProjVer) :=
  match cfg.dependencies w fs sv with
  | (fs', .error e) => (fs', .error e)
  | (fs', .ok d) => (fs', (solutionProjects d langs).map (w.arrange langs))

/-- Path of the package manifest: cdtb/rads.py:479 -/
def ProjVer.manifest (pv : ProjVer) : Str := pv.path ++ "/packagemanifest".toList

/-- Its URL: cdtb/rads.py:480 -/
def ProjVer.manifestUrl (pv : ProjVer) : Str := pv.path ++ "/packages/files/packagemanifest".toList

/-- `RadsProjectVersion._get_package_files`: cdtb/rads.py:475-484, for an object that has not loaded them yet. The entries of the manifest are
given; the map is `packageFiles` of them. -/
def RadsCfg.entries (cfg : RadsCfg) (w : RadsWorld) (fs : FS) (pv : ProjVer) : FS × Res (List PkgFile) :=
  match cfg.download w fs pv.manifestUrl pv.manifest with
  | (fs', .error e) => (fs', .error e)
  | (fs', .ok ()) => (fs', do
      let text ← cfg.readText fs' pv.manifest
      parsePkgManifest text)

/-- The environment in which packages of a project version are extracted: cdtb/rads.py:510, 513, 518 -/
def RadsCfg.env (cfg : RadsCfg) (w : RadsWorld) (pv : ProjVer) : RadsEnv :=
  { base := cfg.base, projectPath := pv.path, z := cfg.z, stream := w.stream, faults := w.faults }

/-! ## Download -/

/-- Path and URL of the release manifest: cdtb/rads.py:532 -/
def ProjVer.releaseManifest (pv : ProjVer) : Str := pv.path ++ "/releasemanifest".toList

/-- `RadsProjectVersion.extract`, for a new object: cdtb/rads.py:490-527 -/
def RadsCfg.extractAll (cfg : RadsCfg) (w : RadsWorld) (fs : FS) (pv : ProjVer) : FS × Res Unit :=
  match cfg.entries w fs pv with
  | (fs', .error e) => (fs', .error e)
  | (fs', .ok pfs) => (cfg.env w pv).extract fs' pfs none

/-- `RadsProjectVersion.download`: cdtb/rads.py:529-533 -/
def RadsCfg.downloadProject (cfg : RadsCfg) (w : RadsWorld) (fs : FS) (pv : ProjVer) : FS × Res Unit :=
  match cfg.download w fs pv.releaseManifest pv.releaseManifest with
  | (fs', .error e) => (fs', .error e)
  | (fs', .ok ()) => cfg.extractAll w fs' pv

/-- The loop on project versions: cdtb/rads.py:306-307 -/
def RadsCfg.downloadProjects (cfg : RadsCfg) (w : RadsWorld) : FS → List ProjVer → FS × Res Unit
  | fs, [] => (fs, .ok ())
  | fs, pv :: pvs => match cfg.downloadProject w fs pv with
    | (fs', .error e) => (fs', .error e)
    | (fs', .ok ()) => cfg.downloadProjects w fs' pvs

/-- `RadsSolutionVersion.download` (cdtb/rads.py:302-307), also `RadsPatchElement.download` (552-553) -/
def RadsCfg.downloadSolution (cfg : RadsCfg) (w : RadsWorld) (fs : FS) (sv : SolVer) (langs : RadsLangs) : FS × Res Unit :=
  match cfg.projects w fs sv langs with
  | (fs', .error e) => (fs', .error e)
  | (fs', .ok pvs) => cfg.downloadProjects w fs' pvs

/-- The loop of `filepaths`: cdtb/rads.py:299-300; the paths of files, in order, until the end or an exception -/
def RadsCfg.filepathsLoop (cfg : RadsCfg) (w : RadsWorld) : FS → List ProjVer → FS × List Str × Res Unit
  | fs, [] => (fs, [], .ok ())
  | fs, pv :: pvs => match cfg.entries w fs pv with
    | (fs', .error e) => (fs', [], .error e)
    | (fs', .ok pfs) => match cfg.filepathsLoop w fs' pvs with
      | (fs'', l, r) => (fs'', (packageFiles pfs).keys ++ l, r)

/-- `RadsSolutionVersion.filepaths`: cdtb/rads.py:297-300 -/
def RadsCfg.filepaths (cfg : RadsCfg) (w : RadsWorld) (fs : FS) (sv : SolVer) (langs : RadsLangs) : FS × List Str × Res Unit :=
  match cfg.projects w fs sv langs with
  | (fs', .error e) => (fs', [], .error e)
  | (fs', .ok pvs) => cfg.filepathsLoop w fs' pvs

/-! ## Patch version -/

/-- Project, file and extractor of a solution: cdtb/rads.py:344-361 -/
def RadsCfg.retriever (cfg : RadsCfg) (solution : Str) : Res (Str × Str × (Bytes → Res (Option Str))) :=
  if solution = "league_client_sln".toList then .ok ("league_client".toList, "system.yaml".toList, systemYamlVersion)
  else if solution = "lol_game_client_sln".toList then .ok ("lol_game_client".toList, "League of Legends.exe".toList, cfg.exe)
  else .error .runtime

/-- The file is extracted, unless there is one at this path in the current directory: cdtb/rads.py:382-383 -/
def RadsCfg.extractOne (cfg : RadsCfg) (w : RadsWorld) (fs : FS) (pv : ProjVer) (pfs : List PkgFile) (path : Str) : FS × Res Unit :=
  if w.cwd path then (fs, .ok ()) else (cfg.env w pv).extract fs pfs (some [path])

/-- The version is read from the file: cdtb/rads.py:391-392. `PatchVersion(None)` raises `ValueError`. -/
def RadsCfg.readVersion (cfg : RadsCfg) (fs : FS) (path : Str) (ext : Bytes → Res (Option Str)) : Res (Option Version) := do
  let b ← fs.readFile (storageFspath cfg.base path)
  match ← ext b with
  | none => throw .value
  | some s => do
    let v ← Cdtb.patchVersion (.str s)
    pure (some v)

/-- No file in the manifest: cdtb/rads.py:386-389 -/
def noVersionFile (pv : ProjVer) : Res (Option Version) :=
  if pv.name = "league_client".toList then do
    let old ← pv.version.cmp .le ⟨"0.0.0.43".toList, .nums [0, 0, 0, 43]⟩
    if old then pure none else throw .value
  else throw .value

/-- From the list of files: cdtb/rads.py:377-392 -/
def RadsCfg.versionFromEntries (cfg : RadsCfg) (w : RadsWorld) (fs : FS) (pv : ProjVer) (pfs : List PkgFile) (file : Str)
    (ext : Bytes → Res (Option Str)) : FS × Res (Option Version) :=
  match (packageFiles pfs).keys.find? fun p => endsWith p ('/' :: file) with
  | none => (fs, noVersionFile pv)
  | some path => match cfg.extractOne w fs pv pfs path with
    | (fs', .error e) => (fs', .error e)
    | (fs', .ok ()) => (fs', cfg.readVersion fs' path ext)

/-- A package manifest which is not available means that there is no version: cdtb/rads.py:368-375 -/
def notAvailable : Err → Res (Option Version)
  | .http 404 => .ok none
  | e => .error e

/-- From the project version: cdtb/rads.py:368-392 -/
def RadsCfg.versionFromProject (cfg : RadsCfg) (w : RadsWorld) (fs : FS) (pv : ProjVer) (file : Str) (ext : Bytes → Res (Option Str)) :
    FS × Res (Option Version) :=
  match cfg.entries w fs pv with
  | (fs', .error e) => (fs', notAvailable e)
  | (fs', .ok pfs) => cfg.versionFromEntries w fs' pv pfs file ext

/-- From the required projects: cdtb/rads.py:363-392 -/
def RadsCfg.versionFromProjects (cfg : RadsCfg) (w : RadsWorld) (fs : FS) (project file : Str) (ext : Bytes → Res (Option Str)) (pvs : List ProjVer) :
    FS × Res (Option Version) :=
  match pvs.find? fun pv => pv.name = project with
  | none => (fs, .error .value)
  | some pv => cfg.versionFromProject w fs pv file ext

/-- `RadsSolutionVersion._retrieve_patch_version`: cdtb/rads.py:334-392 -/
def RadsCfg.retrieveVersion (cfg : RadsCfg) (w : RadsWorld) (fs : FS) (sv : SolVer) : FS × Res (Option Version) :=
  match cfg.retriever sv.name with
  | .error e => (fs, .error e)
  | .ok (project, file, ext) => match cfg.projects w fs sv .none_ with
    | (fs', .error e) => (fs', .error e)
    | (fs', .ok pvs) => cfg.versionFromProjects w fs' project file ext pvs

/-- Path of the cache: cdtb/rads.py:319 -/
def SolVer.cache (sv : SolVer) : Str := sv.path ++ "/_patch_version".toList

/-- The cache is written when there is a version: cdtb/rads.py:327-331 -/
def RadsCfg.storeVersion (cfg : RadsCfg) (w : RadsWorld) (fs : FS) (sv : SolVer) : Option Version → FS × Res (Option Version)
  | none => (fs, .ok none)
  | some v => match openAndWrite fs (storageFspath cfg.base sv.cache) [.write (utf8Bytes (v.s ++ ['\n']))] (w.faults sv.cache) with
    | (fs', .error e) => (fs', .error e)
    | (fs', .ok ()) => (fs', .ok (some v))

/-- When there is no cache: cdtb/rads.py:326-332 -/
def RadsCfg.retrieveAndStore (cfg : RadsCfg) (w : RadsWorld) (fs : FS) (sv : SolVer) : FS × Res (Option Version) :=
  match cfg.retrieveVersion w fs sv with
  | (fs', .error e) => (fs', .error e)
  | (fs', .ok v) => cfg.storeVersion w fs' sv v

/-- `RadsSolutionVersion.patch_version`: cdtb/rads.py:309-332 -/
def RadsCfg.patchVersion (cfg : RadsCfg) (w : RadsWorld) (fs : FS) (sv : SolVer) : FS × Res (Option Version) :=
  if cfg.url = urlPbe then (fs, (Cdtb.patchVersion (.str "main".toList)).map some)
  else match fs (storageFspath cfg.base sv.cache) with
    | some (.file b) => (fs, readVersionCache b)
    | _ => cfg.retrieveAndStore w fs sv

/-! ## Patch elements -/

/-- `RadsPatchElement`: element name, patch version, solution version (cdtb/rads.py:536-550) -/
structure RadsElem where
  name : Str
  version : Version
  sv : SolVer
deriving DecidableEq, Repr

/-- The disk, and the number of calls of `patch_version` made so far -/
structure RadsState where
  fs : FS
  calls : Nat

/-- A call of `patch_version`; `ws i` is the world during the `i`-th one. -/
def RadsCfg.call (cfg : RadsCfg) (ws : Nat → RadsWorld) (st : RadsState) (sv : SolVer) : RadsState × Res (Option Version) :=
  let (fs', r) := cfg.patchVersion (ws st.calls) st.fs sv
  (⟨fs', st.calls + 1⟩, r)

/-- `solution_name_to_element_name`: cdtb/rads.py:539-542 -/
def elementName (solution : Str) : Res Str :=
  if solution = "league_client_sln".toList then .ok "client".toList
  else if solution = "lol_game_client_sln".toList then .ok "game".toList
  else .error .key

/-- `RadsPatchElement.__init__`: cdtb/rads.py:544-550 -/
def RadsCfg.element (cfg : RadsCfg) (ws : Nat → RadsWorld) (st : RadsState) (sv : SolVer) : RadsState × Res RadsElem :=
  match elementName sv.name with
  | .error e => (st, .error e)
  | .ok name => match cfg.call ws st sv with
    | (st', .error e) => (st', .error e)
    | (st', .ok none) => (st', .error .value)
    | (st', .ok (some v)) => (st', .ok ⟨name, v, sv⟩)

/-- Next element of `gen_solution_elements`, from the solution versions that remain: cdtb/rads.py:119-123. The ones that remain after it are
given too. -/
def RadsCfg.nextElem (cfg : RadsCfg) (ws : Nat → RadsWorld) : RadsState → List SolVer → RadsState × Res (Option RadsElem × List SolVer)
  | st, [] => (st, .ok (none, []))
  | st, sv :: svs => match cfg.call ws st sv with
    | (st', .error e) => (st', .error e)
    | (st', .ok none) => cfg.nextElem ws st' svs
    | (st', .ok (some _)) => match cfg.element ws st' sv with
      | (st'', .error e) => (st'', .error e)
      | (st'', .ok e) => (st'', .ok (some e, svs))

/-- A `Peeker` on a generator that has started: the current element, the solution versions that remain (cdtb/rads.py:98-114) -/
structure Peeker where
  cur : Option RadsElem
  rest : List SolVer

/-- A `StopIteration` raised in the body of a generator (by a truncated package, for instance) becomes a `RuntimeError` (PEP 479). -/
def genErr : Err → Err
  | .stopIteration => .runtime
  | e => e

/-- `Peeker.peek`: cdtb/rads.py:103-109 -/
def RadsCfg.peek (cfg : RadsCfg) (ws : Nat → RadsWorld) (st : RadsState) (p : Peeker) : RadsState × Res Peeker :=
  match p.cur with
  | some _ => (st, .ok p)
  | none => match cfg.nextElem ws st p.rest with
    | (st', .error e) => (st', .error (genErr e))
    | (st', .ok (cur, rest)) => (st', .ok ⟨cur, rest⟩)

/-- Elements not yielded yet, at most -/
def Peeker.size (p : Peeker) : Nat := p.cur.toList.length + p.rest.length

/-- The best of the elements peeked (`true`: the one of the game), if any: cdtb/rads.py:128-134 -/
def bestElem : Option RadsElem → Option RadsElem → Res (Option (Bool × RadsElem))
  | none, none => .ok none
  | some c, none => .ok (some (false, c))
  | none, some g => .ok (some (true, g))
  | some c, some g => (g.version.cmp .gt c.version).map fun b => if b then some (true, g) else some (false, c)

/-- The main loop: cdtb/rads.py:127-138; `n` bounds the number of iterations (see `RadsCfg.patchElements`). -/
def RadsCfg.mergeLoop (cfg : RadsCfg) (ws : Nat → RadsWorld) : Nat → RadsState → Peeker → Peeker → RadsState × List RadsElem × Res Unit
  | 0, st, _, _ => (st, [], .error .diverge)
  | n + 1, st, c, g => match cfg.peek ws st c with
    | (st1, .error e) => (st1, [], .error e)
    | (st1, .ok c) => match cfg.peek ws st1 g with
      | (st2, .error e) => (st2, [], .error e)
      | (st2, .ok g) => match bestElem c.cur g.cur with
        | .error e => (st2, [], .error e)
        | .ok none => (st2, [], .ok ())
        | .ok (some (true, e)) => match cfg.mergeLoop ws n st2 c { g with cur := none } with
          | (st3, l, r) => (st3, e :: l, r)
        | .ok (some (false, e)) => match cfg.mergeLoop ws n st2 { c with cur := none } g with
          | (st3, l, r) => (st3, e :: l, r)

/-- Start of a generator and its first element: cdtb/rads.py:117-123, 178-196. `listing` is the list of versions, from the CDN
or from the directories of the storage. -/
def RadsCfg.startGen (cfg : RadsCfg) (ws : Nat → RadsWorld) (st : RadsState) (solution : Str) (listing : Res (List Str)) : RadsState × Res Peeker :=
  match listing with
  | .error e => (st, .error e)
  | .ok names => match solutionVersions names with
    | .error e => (st, .error e)
    | .ok vs => cfg.peek ws st ⟨none, vs.map (SolVer.mk solution)⟩

/-- `RadsStorage.patch_elements`, until the end or an exception: cdtb/rads.py:94-138. `client` and `game` are the lists of versions of both
solutions. Every iteration but the last yields an element: the bound on iterations is never reached. -/
def RadsCfg.patchElements (cfg : RadsCfg) (ws : Nat → RadsWorld) (fs : FS) (client game : Res (List Str)) : FS × List RadsElem × Res Unit :=
  match cfg.startGen ws ⟨fs, 0⟩ "league_client_sln".toList client with
  | (st1, .error e) => (st1.fs, [], .error e)
  | (st1, .ok c) => match cfg.startGen ws st1 "lol_game_client_sln".toList game with
    | (st2, .error e) => (st2.fs, [], .error e)
    | (st2, .ok g) => match cfg.mergeLoop ws (c.size + g.size + 1) st2 c g with
      | (st3, l, r) => (st3.fs, l, r)

end Cdtb
