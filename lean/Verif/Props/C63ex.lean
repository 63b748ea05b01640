import Verif.Props.C63
/-!
# C63  A concrete server: three solution versions (one of the client, two of the game)

The package manifest of the oldest version of the game is not available anymore. Packages are compressed by reversing bytes.
-/
namespace Cdtb
set_option autoImplicit false
open Py Spec

def radsManifests : List SolManifest := [
  ⟨"league_client_sln".toList, "0.0.1.7".toList, [("league_client".toList, "0.0.1.7".toList, true), ("league_client_fr".toList, "0.0.1.2".toList, false)],
    [("fr_fr".toList, ["league_client".toList, "league_client_fr".toList]), ("en_gb".toList, ["league_client".toList])]⟩,
  ⟨"lol_game_client_sln".toList, "0.0.1.5".toList, [("lol_game_client".toList, "0.0.1.5".toList, true)], [("en_gb".toList, ["lol_game_client".toList])]⟩,
  ⟨"lol_game_client_sln".toList, "0.0.0.9".toList, [("lol_game_client".toList, "0.0.0.9".toList, true)], []⟩]

def radsYaml : Bytes := utf8Bytes "game-branch: 'Releases/8.1'\n".toList

def radsPackages : List ((Str × Str) × List PkgEntry) := [
  (("league_client".toList, "0.0.1.7".toList), [
    ⟨"projects/league_client/releases/0.0.1.7/files/system.yaml".toList, true, "BIN_0x00000001".toList, 3, 28, "0".toList⟩,
    ⟨"projects/league_client/releases/0.0.1.2/files/a.wad".toList, false, "BIN_0x00000001".toList, 0, 3, "0".toList⟩]),
  (("league_client_fr".toList, "0.0.1.2".toList), [
    ⟨"projects/league_client_fr/releases/0.0.1.2/files/fr.wad".toList, false, "BIN_0x00000002".toList, 1, 2, "6".toList⟩]),
  (("lol_game_client".toList, "0.0.1.5".toList), [
    ⟨"projects/lol_game_client/releases/0.0.1.5/files/League of Legends.exe".toList, false, "BIN_0x00000001".toList, 0, 4, "2".toList⟩])]

/-- URLs of the server -/
def radsUrls : List (Str × Bytes) :=
  radsManifests.map (fun m => (solutionFile m.name m.version "solutionmanifest".toList, utf8Bytes (textOf (m.lines.map fun l => (l, true))))) ++
  radsPackages.map (fun x => (projectFile x.1.1 x.1.2 "packages/files/packagemanifest".toList,
    utf8Bytes (textOf (("PKG1 x".toList :: x.2.map PkgEntry.line).map fun l => (l, false))))) ++
  [(projectFile "league_client".toList "0.0.1.7".toList "packages/files/BIN_0x00000001".toList, [1, 2, 3] ++ radsYaml.reverse),
   (projectFile "league_client_fr".toList "0.0.1.2".toList "packages/files/BIN_0x00000002".toList, [0, 4, 5]),
   (projectFile "lol_game_client".toList "0.0.1.5".toList "packages/files/BIN_0x00000001".toList, [77, 90, 8, 2]),
   (projectFile "league_client".toList "0.0.1.7".toList "releasemanifest".toList, [42]),
   (projectFile "league_client_fr".toList "0.0.1.2".toList "releasemanifest".toList, [43]),
   (projectFile "lol_game_client".toList "0.0.1.5".toList "releasemanifest".toList, [44])]

def radsServed (url : Str) : Option Bytes := (radsUrls.find? fun x => x.1 = url).map (·.2)

def radsSite : RadsSite where
  solution n v := radsManifests.find? fun m => m.name = n ∧ m.version = v
  entries n v := (radsPackages.find? fun x => x.1 = (n, v)).map (·.2)
  package n v p := (radsServed (projectFile n v ("packages/files/".toList ++ p))).getD []
  file p := (([("projects/league_client/releases/0.0.1.7/files/system.yaml".toList, radsYaml),
    ("projects/league_client/releases/0.0.1.2/files/a.wad".toList, [1, 2, 3]),
    ("projects/league_client_fr/releases/0.0.1.2/files/fr.wad".toList, [4, 5]),
    ("projects/lol_game_client/releases/0.0.1.5/files/League of Legends.exe".toList, [77, 90, 8, 2])] : List (Str × Bytes)).find? fun x => x.1 = p).map (·.2) |>.getD []

def radsCfg : RadsCfg where
  base := "/rads".toList
  url := "http://l3cdn.riotgames.com/releases/live/".toList
  z := exInflate
  exe b := if b = [77, 90, 8, 2] then .ok (some "8.2".toList) else .error .value

theorem radsSite_manifests {n v : Str} {m : SolManifest} (h : radsSite.solution n v = some m) : m ∈ radsManifests ∧ m.name = n ∧ m.version = v := by
  have h1 := List.mem_of_find?_eq_some h
  have h2 := List.find?_some h
  exact ⟨h1, by simpa using h2⟩

theorem radsSite_entries {n v : Str} {es : List PkgEntry} (h : radsSite.entries n v = some es) : ((n, v), es) ∈ radsPackages := by
  simp only [radsSite, Option.map_eq_some_iff] at h
  obtain ⟨⟨k, es'⟩, h1, rfl⟩ := h
  have h2 := List.mem_of_find?_eq_some h1
  have h3 := List.find?_some h1
  simp only [decide_eq_true_eq] at h3
  rw [← h3]
  exact h2

def PkgEntry.okTest (e : PkgEntry) : Bool :=
  !e.file.contains ',' && !e.package.contains ',' && !e.typ.contains ',' && (e.file ++ e.package ++ e.typ).all (fun c => c ≠ '\n' && c ≠ '\r') &&
  (e.compressed || !endsWith e.file ".compressed".toList)

theorem okTest_ok {e : PkgEntry} (h : PkgEntry.okTest e = true) : e.Ok := by
  simp only [PkgEntry.okTest, Bool.and_eq_true, Bool.not_eq_true', List.all_eq_true, Bool.or_eq_true, List.contains_eq_mem, decide_eq_false_iff_not, decide_eq_true_eq] at h
  obtain ⟨⟨⟨⟨h1, h2⟩, h3⟩, h4⟩, h5⟩ := h
  refine ⟨⟨h1, h2, h3⟩, h4, fun hc hp => ?_⟩
  rcases h5 with h5 | h5
  · rw [hc] at h5; simp at h5
  · rw [← endsWith_iff, h5] at hp; simp at hp

theorem radsServed_mem {url : Str} {b : Bytes} (h : radsServed url = some b) :
    (∃ m ∈ radsManifests, url = solutionFile m.name m.version "solutionmanifest".toList) ∨
    (∃ x ∈ radsPackages, url = projectFile x.1.1 x.1.2 "packages/files/packagemanifest".toList) ∨
    ∃ n v f, '/' ∉ n ∧ '/' ∉ v ∧ f ≠ "packages/files/packagemanifest".toList ∧ url = projectFile n v f := by
  simp only [radsServed, Option.map_eq_some_iff] at h
  obtain ⟨x, h1, -⟩ := h
  have h2 := List.mem_of_find?_eq_some h1
  have h3 := List.find?_some h1
  simp only [decide_eq_true_eq] at h3
  subst h3
  clear h1
  unfold radsUrls at h2
  rcases List.mem_append.1 h2 with h2 | h2
  · rcases List.mem_append.1 h2 with h2 | h2
    · obtain ⟨m, hm, rfl⟩ := List.mem_map.1 h2
      exact Or.inl ⟨m, hm, rfl⟩
    · obtain ⟨m, hm, rfl⟩ := List.mem_map.1 h2
      exact Or.inr (Or.inl ⟨m, hm, rfl⟩)
  · right; right
    simp only [List.mem_cons, List.not_mem_nil, or_false] at h2
    rcases h2 with rfl | rfl | rfl | rfl | rfl | rfl <;>
      exact ⟨_, _, _, by decide +kernel, by decide +kernel, by decide +kernel, rfl⟩

theorem radsOn : radsCfg.On radsSite radsServed (fun b => .ok b.reverse) where
  inflate := exInflate_decodes
  exe b t h := by
    simp only [radsCfg] at h
    split at h
    · simp only [Except.ok.injEq, Option.some.injEq] at h
      subst h
      decide +kernel
    · simp at h
  ok := {
    manifest := by
      intro n v m h
      obtain ⟨h1, h2, h3⟩ := radsSite_manifests h
      refine ⟨?_, h2, h3, ?_⟩
      · clear h h2 h3
        revert m
        have key : ∀ m ∈ radsManifests, (∀ p ∈ m.projects, (radsVersion (.str p.2.1)).toBool = true) ∧ ∀ l ∈ m.langs, l.1 ∈ languages := by decide +kernel
        intro m hm
        refine ⟨fun p hp => ?_, (key m hm).2⟩
        have := (key m hm).1 p hp
        cases hr : radsVersion (.str p.2.1) with
        | error e => rw [hr] at this; simp [Except.toBool] at this
        | ok v => exact ⟨v, rfl⟩
      · clear h h2 h3
        revert m
        decide +kernel
    projects := by
      intro n v m h
      have h1 := (radsSite_manifests h).1
      clear h
      revert m
      decide +kernel
    lines := by
      intro n v m h
      have h1 := (radsSite_manifests h).1
      clear h
      revert m
      decide +kernel
    entry := by
      intro n v es h e he
      have h1 := radsSite_entries h
      have key : ∀ x ∈ radsPackages, ∀ e ∈ x.2, PkgEntry.okTest e = true := by decide +kernel
      refine ⟨okTest_ok (key _ h1 e he), ?_⟩
      clear h key
      simp only [radsPackages, List.mem_cons, List.not_mem_nil, or_false, Prod.mk.injEq] at h1
      rcases h1 with ⟨-, rfl⟩ | ⟨-, rfl⟩ | ⟨-, rfl⟩
      · simp only [List.mem_cons, List.not_mem_nil, or_false] at he
        rcases he with rfl | rfl
        · exact ⟨"league_client".toList, "0.0.1.7".toList, "system.yaml".toList, by decide +kernel, by decide +kernel, by decide +kernel⟩
        · exact ⟨"league_client".toList, "0.0.1.2".toList, "a.wad".toList, by decide +kernel, by decide +kernel, by decide +kernel⟩
      · simp only [List.mem_cons, List.not_mem_nil, or_false] at he
        subst he
        exact ⟨"league_client_fr".toList, "0.0.1.2".toList, "fr.wad".toList, by decide +kernel, by decide +kernel, by decide +kernel⟩
      · simp only [List.mem_cons, List.not_mem_nil, or_false] at he
        subst he
        exact ⟨"lol_game_client".toList, "0.0.1.5".toList, "League of Legends.exe".toList, by decide +kernel, by decide +kernel, by decide +kernel⟩
    content := by
      intro n v es h e he
      have h1 := radsSite_entries h
      have hm : e ∈ es := by obtain ⟨a, b, rfl, -⟩ := he; simp
      have key : ∀ x ∈ radsPackages, ∀ e ∈ x.2, (if e.compressed then (radsSite.part x.1.1 x.1.2 e).reverse else radsSite.part x.1.1 x.1.2 e) = radsSite.file e.file := by
        decide +kernel
      have := key _ h1 e hm
      rw [← this]
      split <;> rfl }
  serves := {
    solution := by
      intro n v m h
      obtain ⟨h1, rfl, rfl⟩ := radsSite_manifests h
      have key : ∀ m ∈ radsManifests, radsServed (solutionFile m.name m.version "solutionmanifest".toList) = some (utf8Bytes (textOf (m.lines.map fun l => (l, true)))) ∧
        utf8 (utf8Bytes (textOf (m.lines.map fun l => (l, true)))) = .ok (textOf (m.lines.map fun l => (l, true))) := by decide +kernel
      refine ⟨_, (key m h1).1, _, (key m h1).2, ?_⟩
      simp [List.map_map, Function.comp_def]
    noSolution := by
      intro n v hn hv h
      by_contra hne
      obtain ⟨b, hb⟩ := Option.ne_none_iff_exists'.1 hne
      rcases radsServed_mem hb with ⟨m, hm, he⟩ | ⟨x, hx, he⟩ | ⟨n', v', f, h1, h2, -, he⟩
      · have hs : ∀ m ∈ radsManifests, '/' ∉ m.name ∧ '/' ∉ m.version := by decide +kernel
        obtain ⟨rfl, rfl, -⟩ := solutionFile_inj hn hv (hs m hm).1 (hs m hm).2 he
        simp only [radsSite, List.find?_eq_none] at h
        exact absurd (h m hm) (by simp)
      · exact solution_ne_project _ _ _ _ _ _ he
      · exact solution_ne_project _ _ _ _ _ _ he
    entries := by
      intro n v es h
      have h1 := radsSite_entries h
      have key : ∀ x ∈ radsPackages, radsServed (projectFile x.1.1 x.1.2 "packages/files/packagemanifest".toList) =
          some (utf8Bytes (textOf (("PKG1 x".toList :: x.2.map PkgEntry.line).map fun l => (l, false)))) ∧
        utf8 (utf8Bytes (textOf (("PKG1 x".toList :: x.2.map PkgEntry.line).map fun l => (l, false)))) =
          .ok (textOf (("PKG1 x".toList :: x.2.map PkgEntry.line).map fun l => (l, false))) := by decide +kernel
      refine ⟨_, " x".toList, (key _ h1).1, by decide +kernel, _, (key _ h1).2, ?_⟩
      simp only [List.map_map, Function.comp_def, List.map_id']
      rfl
    noEntries := by
      intro n v hn hv h
      by_contra hne
      obtain ⟨b, hb⟩ := Option.ne_none_iff_exists'.1 hne
      rcases radsServed_mem hb with ⟨m, hm, he⟩ | ⟨x, hx, he⟩ | ⟨n', v', f, h1, h2, hf, he⟩
      · exact solution_ne_project _ _ _ _ _ _ he.symm
      · have hs : ∀ x ∈ radsPackages, '/' ∉ x.1.1 ∧ '/' ∉ x.1.2 := by decide +kernel
        obtain ⟨rfl, rfl, -⟩ := projectFile_inj hn hv (hs x hx).1 (hs x hx).2 he
        simp only [radsSite, Option.map_eq_none_iff, List.find?_eq_none] at h
        exact absurd (h x hx) (by simp)
      · exact hf (projectFile_inj hn hv h1 h2 he).2.2.symm
    package := by
      intro n v p b h
      simp only [radsSite, h, Option.getD_some] }

/-- The server answers; streams come in two chunks. -/
def radsWorld : RadsWorld where
  get url := match radsServed url with
    | some b => .ok b
    | none => .error (.http 404)
  stream url := match radsServed url with
    | some b => .ok [b.take 4, b.drop 4]
    | none => .error (.http 404)
  order := List.reverse

theorem radsWorldOk : RadsWorldOk radsServed radsWorld where
  get p b h := by
    simp only [radsWorld] at h
    split at h
    · rename_i b' hb; simp only [Except.ok.injEq] at h; rw [← h]; exact hb
    · simp at h
  missing p h := by
    simp only [radsWorld] at h
    split at h
    · simp at h
    · assumption
  stream p chunks h := by
    simp only [radsWorld] at h
    split at h
    · rename_i b' hb; simp only [Except.ok.injEq] at h; rw [← h]; exact ⟨b', hb, by simp⟩
    · simp at h
  order := by simp [radsWorld]
  remove _ := rfl
  disk _ := by intro e; simp [radsWorld]
  cache := by simp [radsWorld]

/-- A new storage -/
def radsDisk : FS := fun _ => none
theorem radsDisk_good : GoodRads radsCfg.base radsSite radsServed radsCfg.exe radsDisk :=
  ⟨by simp [radsDisk], by simp [radsDisk], by simp [radsDisk], by simp [radsDisk], by simp [radsDisk]⟩

def radsClient : SolVer := ⟨"league_client_sln".toList, ⟨"0.0.1.7".toList, .nums [0, 0, 1, 7]⟩⟩
def radsGame : SolVer := ⟨"lol_game_client_sln".toList, ⟨"0.0.1.5".toList, .nums [0, 0, 1, 5]⟩⟩
def radsOldGame : SolVer := ⟨"lol_game_client_sln".toList, ⟨"0.0.0.9".toList, .nums [0, 0, 0, 9]⟩⟩
example : radsClient.Plain ∧ radsGame.Plain ∧ radsOldGame.Plain := by
  refine ⟨⟨?_, ?_⟩, ⟨?_, ?_⟩, ?_, ?_⟩ <;> decide +kernel

example : (radsCfg.patchVersion radsWorld radsDisk radsClient).2 = .ok (some ⟨"8.1".toList, .nums [8, 1]⟩) := by decide +kernel
example : (radsCfg.patchVersion radsWorld radsDisk radsGame).2 = .ok (some ⟨"8.2".toList, .nums [8, 2]⟩) := by decide +kernel
/-- the package manifest is not available -/
example : (radsCfg.patchVersion radsWorld radsDisk radsOldGame).2 = .ok none := by decide +kernel
/-- the file is in the current directory -/
example : (radsCfg.patchVersion { radsWorld with cwd := fun _ => true } radsDisk radsClient).2 = .error .fileNotFound := by decide +kernel
example : let fs := (radsCfg.patchVersion radsWorld radsDisk radsClient).1
    fs "/rads/solutions/league_client_sln/releases/0.0.1.7/_patch_version".toList = some (.file (utf8Bytes "8.1\n".toList)) ∧
    fs "/rads/projects/league_client/releases/0.0.1.7/files/system.yaml".toList = some (.file radsYaml) ∧
    fs "/rads/projects/league_client/releases/0.0.1.2/files/a.wad".toList = none := by decide +kernel
/-- A download for French, and one for English -/
example : let r := radsCfg.downloadSolution radsWorld radsDisk radsClient (.one "fr_fr".toList)
    r.2 = .ok () ∧ r.1 "/rads/projects/league_client/releases/0.0.1.2/files/a.wad".toList = some (.file [1, 2, 3]) ∧
    r.1 "/rads/projects/league_client_fr/releases/0.0.1.2/files/fr.wad".toList = some (.file [4, 5]) := by decide +kernel
example : let r := radsCfg.downloadSolution radsWorld radsDisk radsClient (.some_ ["en_gb".toList])
    r.2 = .ok () ∧ r.1 "/rads/projects/league_client_fr/releases/0.0.1.2/files/fr.wad".toList = none := by decide +kernel
example : (radsCfg.filepaths radsWorld radsDisk radsClient .all).2 = (["projects/league_client/releases/0.0.1.7/files/system.yaml".toList, "projects/league_client/releases/0.0.1.2/files/a.wad".toList,
    "projects/league_client_fr/releases/0.0.1.2/files/fr.wad".toList], .ok ()) := by decide +kernel

/-- The cache, cut after two bytes -/
example : let w := { radsWorld with faults := fun p => if p = radsClient.cache then { close := some (2, .os 28) } else {} }
    let fs := (radsCfg.patchVersion w radsDisk radsClient).1
    (radsCfg.patchVersion w radsDisk radsClient).2 = .error (.os 28) ∧ (radsCfg.patchVersion radsWorld fs radsClient).2 ≠ .ok (some ⟨"8.1".toList, .nums [8, 1]⟩) := by decide +kernel

end Cdtb
