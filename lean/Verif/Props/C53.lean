import Verif.Model.Cli
import Verif.Lemmas.Dict
import Verif.Lemmas.Str
/-!
# C53  Storage selection from command line and paths

`fs` is any state of the disk and `json` what parsing a configuration file gives, for any content.
-/
namespace Cdtb
set_option autoImplicit false
open Py

/-- A path that does not exist is read as `type:path`, cut at the first `:`, or as the path of a patcher storage. -/
theorem C53_missing_path (fs : FS) (json : ConfLib) (path : Str) (h : fs path = none) :
    (∀ t p, path = t ++ ':' :: p → ':' ∉ t →
      storageConfFromPath fs json path = .ok [("type".toList, .str t), ("path".toList, .str p)]) ∧
    (':' ∉ path → storageConfFromPath fs json path = .ok [("type".toList, .str "patcher".toList), ("path".toList, .str path)]) := by
  have hd : fs.isDir path = false := by simp [FS.isDir, h]
  have hf : fs.isFile path = false := by simp [FS.isFile, h]
  constructor
  · intro t p hp ht
    simp only [storageConfFromPath, hd, hf, Bool.false_eq_true, if_false]
    rw [(split1_eq_some).2 ⟨hp, ht⟩]
  · intro hc
    simp only [storageConfFromPath, hd, hf, Bool.false_eq_true, if_false]
    rw [(split1_eq_none).2 hc]

theorem loadStorageConf_ok {fs : FS} {json : ConfLib} {path : Str} {conf : Conf} (h : loadStorageConf fs json path = .ok conf) :
    ∃ b c p, fs path = some (.file b) ∧ json b = .ok c ∧ c.contains "type".toList = true ∧
      joinVal (dirname path) ((c.get? "path".toList).getD (.str ['.'])) = .ok p ∧ conf = c.set "path".toList (.str (normpath p)) := by
  unfold loadStorageConf at h
  cases hb : fs.readFile path with
  | error e => rw [hb] at h; simp [bind, Except.bind] at h
  | ok b =>
    rw [hb] at h
    simp only [bind, Except.bind] at h
    cases hc : json b with
    | error e => rw [hc] at h; simp at h
    | ok c =>
      rw [hc] at h
      simp only at h
      by_cases ht : c.contains "type".toList = true
      · rw [if_pos ht] at h
        cases hj : joinVal (dirname path) ((c.get? "path".toList).getD (.str ['.'])) with
        | error e => rw [hj] at h; simp at h
        | ok p =>
          rw [hj] at h
          simp only [Except.ok.injEq] at h
          refine ⟨b, c, p, ?_, hc, ht, hj, h.symm⟩
          unfold FS.readFile at hb
          split at hb <;> simp_all
      · rw [if_neg ht] at h; simp at h

/-- A configuration always has a type and a path. -/
theorem C53_type_path (fs : FS) (json : ConfLib) (path : Str) (conf : Conf) (h : storageConfFromPath fs json path = .ok conf) :
    (∃ t, conf.get? "type".toList = some t) ∧ ∃ p, conf.get? "path".toList = some (.str p) := by
  have hload : ∀ q, loadStorageConf fs json q = .ok conf →
      (∃ t, conf.get? "type".toList = some t) ∧ ∃ p, conf.get? "path".toList = some (.str p) := by
    intro q hq
    obtain ⟨b, c, p, -, -, ht, -, rfl⟩ := loadStorageConf_ok hq
    rw [Dict.get?_set, Dict.get?_set]
    refine ⟨?_, normpath p, by rw [if_pos rfl]⟩
    rw [if_neg (by decide)]
    exact Option.isSome_iff_exists.1 (by rwa [Dict.contains] at ht)
  have hpair : ∀ t p, conf = [("type".toList, CVal.str t), ("path".toList, CVal.str p)] →
      (∃ t, conf.get? "type".toList = some t) ∧ ∃ p, conf.get? "path".toList = some (.str p) := by
    rintro t p rfl
    exact ⟨⟨.str t, by rfl⟩, p, by rfl⟩
  unfold storageConfFromPath at h
  split at h
  · split at h
    · exact hload _ h
    · unfold guessStorageConf at h
      split at h
      · rename_i heq
        split at heq
        · simp only [Option.some.injEq] at heq
          simp only [Except.ok.injEq] at h
          exact hpair _ _ (by rw [← h, ← heq])
        · simp at heq
      · simp at h
  · split at h
    · exact hload _ h
    · split at h <;>
      · simp only [Except.ok.injEq] at h
        exact hpair _ _ h.symm

/-- A configuration file without a type, or a directory that is not known to be a storage, raise `ValueError`. -/
theorem C53_no_type (fs : FS) (json : ConfLib) (path : Str) :
    (∀ b c, fs path = some (.file b) → json b = .ok c → c.get? "type".toList = none → storageConfFromPath fs json path = .error .value) ∧
    (fs path = some .dir → fs (pjoin path "cdtb.storage.conf".toList) = none → fs (pjoin path "channels".toList) = none →
      storageConfFromPath fs json path = .error .value) := by
  constructor
  · intro b c hb hc ht
    have hd : fs.isDir path = false := by simp [FS.isDir, hb]
    have hf : fs.isFile path = true := by simp [FS.isFile, hb]
    have hn : c.contains "type".toList = false := by rw [Dict.contains, ht]; rfl
    simp only [storageConfFromPath, hd, hf, loadStorageConf, FS.readFile, hb, hc, bind, Except.bind, hn, Bool.false_eq_true, if_false,
      if_true]
  · intro hd hc hch
    have h1 : fs.isDir path = true := by simp [FS.isDir, hd]
    have h2 : fs.isFile (pjoin path "cdtb.storage.conf".toList) = false := by unfold FS.isFile; rw [hc]
    have h3 : fs.isDir (pjoin path "channels".toList) = false := by unfold FS.isDir; rw [hch]; rfl
    simp only [storageConfFromPath, h1, h2, guessStorageConf, h3]
    rfl

/-- The configuration of a file, or of a directory with a file named `cdtb.storage.conf`: what the file says, except for the path,
that is relative to the directory of the file (the directory itself by default). -/
theorem C53_conf_file (fs : FS) (json : ConfLib) (path file : Str) (b : Bytes) (c : Conf)
    (hp : (file = path ∧ fs path = some (.file b)) ∨
      (fs path = some .dir ∧ file = pjoin path "cdtb.storage.conf".toList ∧ fs file = some (.file b)))
    (hc : json b = .ok c) (t : CVal) (ht : c.get? "type".toList = some t) (rel : Str)
    (hr : c.get? "path".toList = some (.str rel) ∨ (c.get? "path".toList = none ∧ rel = ['.'])) :
    ∃ conf, storageConfFromPath fs json path = .ok conf ∧
      conf.get? "path".toList = some (.str (normpath (pjoin (dirname file) rel))) ∧
      ∀ k, k ≠ "path".toList → conf.get? k = c.get? k := by
  have hfile : fs file = some (.file b) := by
    rcases hp with ⟨rfl, h⟩ | ⟨-, -, h⟩ <;> exact h
  have hload : loadStorageConf fs json file = .ok (c.set "path".toList (.str (normpath (pjoin (dirname file) rel)))) := by
    have hg : (c.get? "path".toList).getD (.str ['.']) = .str rel := by
      rcases hr with h | ⟨h, rfl⟩ <;> rw [h] <;> rfl
    have hct : c.contains "type".toList = true := by rw [Dict.contains, ht]; rfl
    simp only [loadStorageConf, FS.readFile, hfile, hc, bind, Except.bind, hct, if_true, hg, joinVal]
  refine ⟨c.set "path".toList (.str (normpath (pjoin (dirname file) rel))), ?_, ?_, ?_⟩
  rotate_left
  · rw [Dict.get?_set, if_pos rfl]
  · intro k hk; rw [Dict.get?_set, if_neg hk]
  · rcases hp with ⟨rfl, h⟩ | ⟨hd, rfl, h⟩
    · have hd : fs.isDir file = false := by simp [FS.isDir, h]
      have hf : fs.isFile file = true := by simp [FS.isFile, h]
      simp only [storageConfFromPath, hd, hf, Bool.false_eq_true, if_false, if_true, hload]
    · have h1 : fs.isDir path = true := by simp [FS.isDir, hd]
      have h2 : fs.isFile (pjoin path "cdtb.storage.conf".toList) = true := by unfold FS.isFile; rw [h]
      simp only [storageConfFromPath, h1, h2, if_true, hload]

/-- A directory of a patcher storage is recognized by its `channels` subdirectory. -/
theorem C53_guess (fs : FS) (json : ConfLib) (path : Str) (hd : fs path = some .dir)
    (hc : fs (pjoin path "cdtb.storage.conf".toList) = none) (hch : fs (pjoin path "channels".toList) = some .dir) :
    storageFromPath fs json path = .ok (.patcher (.str path) (.str "live".toList) true .null) := by
  have h1 : fs.isDir path = true := by simp [FS.isDir, hd]
  have h2 : fs.isFile (pjoin path "cdtb.storage.conf".toList) = false := by unfold FS.isFile; rw [hc]
  have h3 : fs.isDir (pjoin path "channels".toList) = true := by unfold FS.isDir; rw [hch]; rfl
  simp only [storageFromPath, storageConfFromPath, h1, h2, guessStorageConf, h3]
  rfl

/-- Types: a configuration makes a patcher storage or a RADS storage; any other type raises `ValueError`. -/
theorem C53_types (conf : Conf) (t : Str) (ht : conf.get? "type".toList = some (.str t)) :
    (t ≠ "patcher".toList → t ≠ "rads".toList → storageFromConf conf = .error .value) ∧
    (t = "patcher".toList → ∀ p, conf.get? "path".toList = some p →
      storageFromConf conf = .ok (.patcher p ((conf.get? "patchline".toList).getD (.str "live".toList))
        (decide (conf.get? "use_extract_symlinks".toList ≠ some (.bool false))) ((conf.get? "clientconfig_data".toList).getD .null))) := by
  constructor
  · intro h1 h2
    simp only [storageFromConf, ht, if_neg h1, if_neg h2]
  · rintro rfl p hp
    simp only [storageFromConf, ht, if_true, patcherFromConf, confPath, Dict.get, hp, bind, Except.bind]

/-- RADS storages: the URL is the one given, that of a known CDN (in any case), or the default one; giving both, or an unknown CDN, fails. -/
theorem C53_rads (conf : Conf) (ht : conf.get? "type".toList = some (.str "rads".toList)) (p : CVal) (hp : conf.get? "path".toList = some p) :
    (conf.get? "cdn".toList = none → ∀ u, conf.get? "url".toList = some u → u ≠ .null → storageFromConf conf = .ok (.rads p u)) ∧
    (conf.get? "cdn".toList = none → conf.get? "url".toList = none →
      storageFromConf conf = .ok (.rads p (.str "http://l3cdn.riotgames.com/releases/live/".toList))) ∧
    (∀ c u, conf.get? "cdn".toList = some c → conf.get? "url".toList = some u → storageFromConf conf = .error .value) ∧
    (∀ c, conf.get? "cdn".toList = some (.str c) → conf.get? "url".toList = none →
      (c.map upperChar = "KR".toList → storageFromConf conf = .ok (.rads p (.str "http://l3cdn.riotgames.com/KR_CBT/".toList))) ∧
      (c.map upperChar = "PBE".toList → storageFromConf conf = .ok (.rads p (.str "http://l3cdn.riotgames.com/releases/pbe/".toList))) ∧
      (c.map upperChar ∉ ["DEFAULT".toList, "KR".toList, "PBE".toList] → storageFromConf conf = .error .attribute)) := by
  have he : storageFromConf conf = radsFromConf conf := by
    simp only [storageFromConf, ht]
    rw [if_neg (by decide), if_pos trivial]
  rw [he]
  refine ⟨fun hc u hu hn => ?_, fun hc hu => ?_, fun c u hc hu => ?_, fun c hc hu => ⟨fun h => ?_, fun h => ?_, fun h => ?_⟩⟩
  · simp only [radsFromConf, hc, hu, confPath, Dict.get, hp, bind, Except.bind, Option.getD_some, if_neg hn]
  · simp only [radsFromConf, hc, hu, confPath, Dict.get, hp, bind, Except.bind, Option.getD_none, if_true]
  · have : conf.contains "url".toList = true := by rw [Dict.contains, hu]; rfl
    simp only [radsFromConf, hc, this, if_true, bind, Except.bind]
  all_goals
    have hu' : conf.contains "url".toList = false := by rw [Dict.contains, hu]; rfl
  · have hr : radsUrl c = .ok "http://l3cdn.riotgames.com/KR_CBT/".toList := by
      simp only [radsUrl, h]; rw [if_neg (by decide), if_pos trivial]
    simp only [radsFromConf, hc, hu', Bool.false_eq_true, if_false, CVal.text, hr, confPath, Dict.get, hp, bind, Except.bind]
    rw [if_neg (by simp)]
  · have hr : radsUrl c = .ok "http://l3cdn.riotgames.com/releases/pbe/".toList := by
      simp only [radsUrl, h]; rw [if_neg (by decide), if_neg (by decide), if_pos trivial]
    simp only [radsFromConf, hc, hu', Bool.false_eq_true, if_false, CVal.text, hr, confPath, Dict.get, hp, bind, Except.bind]
    rw [if_neg (by simp)]
  · simp only [List.mem_cons, List.not_mem_nil, or_false, not_or] at h
    have hr : radsUrl c = .error .attribute := by
      simp only [radsUrl]; rw [if_neg h.1, if_neg h.2.1, if_neg h.2.2]
    simp only [radsFromConf, hc, hu', Bool.false_eq_true, if_false, CVal.text, hr, bind, Except.bind]

/-- `--patchline` with a storage given by argument or environment: it replaces the patchline of a patcher storage, and is refused for
others. -/
theorem C53_patchline (fs : FS) (json : ConfLib) (env storage : Option Str) (path : Str)
    (hs : storage = some path ∨ (storage = none ∧ env = some path)) (line : Str) (conf : Conf)
    (hc : storageConfFromPath fs json path = .ok conf) :
    (conf.get? "type".toList = some (.str "patcher".toList) → ∃ p,
      conf.get? "path".toList = some p ∧ parseStorageArgs fs json env storage (some line) = .ok (.patcher p (.str line)
        (decide (conf.get? "use_extract_symlinks".toList ≠ some (.bool false))) ((conf.get? "clientconfig_data".toList).getD .null))) ∧
    (conf.get? "type".toList ≠ some (.str "patcher".toList) → parseStorageArgs fs json env storage (some line) = .error .usage) := by
  have hpath : storage.or env = some path := by
    rcases hs with rfl | ⟨rfl, rfl⟩ <;> rfl
  constructor
  · intro ht
    obtain ⟨-, p, hp⟩ := C53_type_path fs json path conf hc
    have h1 : (conf.set "patchline".toList (.str line)).get? "type".toList = some (.str "patcher".toList) := by
      rw [Dict.get?_set, if_neg (by decide), ht]
    have h2 : (conf.set "patchline".toList (.str line)).get? "path".toList = some (.str p) := by
      rw [Dict.get?_set, if_neg (by decide), hp]
    have h3 := (C53_types _ _ h1).2 rfl _ h2
    rw [Dict.get?_set, if_pos rfl, Dict.get?_set, if_neg (by decide), Dict.get?_set, if_neg (by decide)] at h3
    refine ⟨.str p, hp, ?_⟩
    simp only [parseStorageArgs, hpath, hc, setPatchline, if_pos ht, bind, Except.bind]
    exact h3
  · intro ht
    simp only [parseStorageArgs, hpath, hc, setPatchline, if_neg ht, bind, Except.bind]

/-- Without `--patchline`, the storage is the one of the path; the argument has precedence over the environment. -/
theorem C53_path (fs : FS) (json : ConfLib) (env storage : Option Str) (path : Str)
    (hs : storage = some path ∨ (storage = none ∧ env = some path)) :
    parseStorageArgs fs json env storage none = storageFromPath fs json path := by
  rcases hs with rfl | ⟨rfl, rfl⟩ <;>
  · simp only [parseStorageArgs, storageFromPath, bind, Except.bind, Option.or]
    cases storageConfFromPath fs json path <;> rfl

/-- The default storage is the patcher storage `cdn` with the patchline `live`: `--patchline` is ignored. -/
theorem C53_default (fs : FS) (json : ConfLib) (patchline : Option Str) :
    parseStorageArgs fs json none none patchline = .ok (.patcher (.str "cdn".toList) (.str "live".toList) true .null) := rfl

/-- Sample disk -/
def exConfFs : FS := fun p =>
  if p = "store".toList then some .dir
  else if p = "store/cdtb.storage.conf".toList then some (.file [1])
  else if p = "cdn".toList then some .dir
  else if p = "cdn/channels".toList then some .dir
  else none

/-- Sample configuration -/
def exConfJson : ConfLib := fun b => if b = [1] then .ok [("type".toList, .str "patcher".toList), ("path".toList, .str "../data/".toList),
  ("patchline".toList, .str "pbe".toList)] else .error .value

/-- The hypotheses of the theorems are met. -/
example : storageFromPath exConfFs exConfJson "store".toList = .ok (.patcher (.str "data".toList) (.str "pbe".toList) true .null) ∧
    storageFromPath exConfFs exConfJson "cdn".toList = .ok (.patcher (.str "cdn".toList) (.str "live".toList) true .null) ∧
    storageFromPath exConfFs exConfJson "rads:a:b".toList =
      .ok (.rads (.str "a:b".toList) (.str "http://l3cdn.riotgames.com/releases/live/".toList)) ∧
    storageFromPath exConfFs exConfJson "zip:a".toList = .error .value ∧
    parseStorageArgs exConfFs exConfJson (some "store".toList) none (some "live".toList) =
      .ok (.patcher (.str "data".toList) (.str "live".toList) true .null) ∧
    parseStorageArgs exConfFs exConfJson none (some "rads:a".toList) (some "live".toList) = .error .usage := by
  refine ⟨by rfl, by rfl, by rfl, by rfl, by rfl, by rfl⟩

end Cdtb
