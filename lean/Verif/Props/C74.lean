import Verif.Lemmas.TftExport
/-!
# C74: the export of TFT data writes complete files, and which patches have exports of game data
-/
namespace Cdtb
set_option autoImplicit false
open Py Spec

/-- **C74 (export of TFT data).** Whatever fails, only the files of the requested languages and new directories change. When the export
succeeds, there is a complete file for each requested language (by default, each language with a string table). When it fails with a language,
files of previous languages are complete, and those of the next ones are untouched. -/
theorem C74_export (lib : TftOutLib) (version : Nat) (order : List Nat → List Nat) (hord : ∀ l, (order l).Perm l) (ls : Str → List Str) (input output : Str)
    (langs : Option (List Str)) (mk : Option (Nat × Err)) (f : Nat → WriteFaults) (fs : FS) (tables : Dict Str Str)
    (ht : stringTables fs ls input "tft".toList = .ok tables)
    (hnd : (langs.getD tables.keys).Nodup) (hs : ∀ l ∈ langs.getD tables.keys, '/' ∉ l)
    (hsep : ∀ l ∈ langs.getD tables.keys, ∀ l' path, tables.get? l' = some path → Spec.langFile output l ≠ path) :
    (∀ q, (∀ l ∈ langs.getD tables.keys, q ≠ Spec.langFile output l) → (tftExportFiles lib version order ls input output langs mk f fs).1 q = fs q ∨
        (fs q = none ∧ (tftExportFiles lib version order ls input output langs mk f fs).1 q = some .dir)) ∧
    (((tftExportFiles lib version order ls input output langs mk f fs).2 = .ok () ∧ ∃ t, Spec.TftData lib.tft fs input t ∧
        ∀ l ∈ langs.getD tables.keys, Spec.TftLangComplete lib version tables fs t output (tftExportFiles lib version order ls input output langs mk f fs).1 l) ∨
     (∃ e, (tftExportFiles lib version order ls input output langs mk f fs).2 = .error e ∧ ∀ l ∈ langs.getD tables.keys,
        ∀ b, (tftExportFiles lib version order ls input output langs mk f fs).1 (Spec.langFile output l) = some (.file b) →
          fs (Spec.langFile output l) = some (.file b)) ∨
     ∃ e t a l b, (tftExportFiles lib version order ls input output langs mk f fs).2 = .error e ∧ Spec.TftData lib.tft fs input t ∧
        langs.getD tables.keys = a ++ l :: b ∧
        (∀ x ∈ a, Spec.TftLangComplete lib version tables fs t output (tftExportFiles lib version order ls input output langs mk f fs).1 x) ∧
        ∀ x ∈ b, ∀ c, (tftExportFiles lib version order ls input output langs mk f fs).1 (Spec.langFile output x) = some (.file c) →
          fs (Spec.langFile output x) = some (.file c)) := by
  unfold tftExportFiles
  rw [ht]
  simp only
  have hd := makedirs_dirsAdded fs output mk
  rcases hm : fs.makedirs output mk with ⟨fs1, e | u⟩
  · rw [hm] at hd
    refine ⟨fun q _ => (hd q).imp id fun h => h.2, .inr (.inl ⟨e, rfl, fun l _ b hb => ?_⟩)⟩
    rcases hd (Spec.langFile output l) with h | ⟨-, -, h⟩
    · rw [← h]; exact hb
    · rw [hb] at h; cases h
  rw [hm] at hd
  cases u
  simp only at hd ⊢
  have hfile : ∀ q b, fs1 q = some (.file b) → fs q = some (.file b) := by
    intro q b hb
    rcases hd q with h | ⟨-, -, h⟩
    · rw [← h]; exact hb
    · rw [hb] at h; cases h
  rcases hte : tftTemplate lib.tft order fs1 input with e | t
  · exact ⟨fun q _ => (hd q).imp id fun h => h.2, .inr (.inl ⟨e, rfl, fun l _ b hb => hfile _ _ hb⟩)⟩
  simp only
  have hdata : Spec.TftData lib.tft fs input t := tftTemplate_ok hord (fun q => (hd q).imp id fun h => h.2) hte
  obtain ⟨h1, h2⟩ := tftLangs_spec (lib := lib) (version := version) (t := t) (f := f) (fs0 := fs) 0 fs1 hnd hs hsep (fun l path b _ hp => hfile _ _ hp)
  refine ⟨fun q hq => ?_, ?_⟩
  · rw [h1 q hq]
    exact (hd q).imp id fun h => h.2
  · rcases h2 with ⟨h2, h3⟩ | ⟨e, a, l, b, h2, h3, h4, h5⟩
    · exact .inl ⟨h2, t, hdata, h3⟩
    · refine .inr (.inr ⟨e, t, a, l, b, h2, hdata, h3, h4, fun x hx c hc => ?_⟩)
      rw [h5 x hx] at hc
      exact hfile _ _ hc

/-- Without string table, nothing is done. -/
theorem C74_no_table (lib : TftOutLib) (version : Nat) (order : List Nat → List Nat) (ls : Str → List Str) (input output : Str) (langs : Option (List Str))
    (mk : Option (Nat × Err)) (f : Nat → WriteFaults) (fs : FS) (h1 : input ≠ []) (h2 : endsWith input ['/'] = false)
    (hn : ∀ n ∈ ls input, Spec.CleanName n) (hm : ∀ n ∈ ls (input ++ "/data/menu".toList), Spec.CleanName n)
    (ht : ∀ k lang path, ¬ Spec.TableFile fs ls input "tft".toList k lang path) :
    tftExportFiles lib version order ls input output langs mk f fs = (fs, .error .runtime) := by
  unfold tftExportFiles
  rcases C72_tables (fs := fs) "tft".toList h1 h2 hn hm with ⟨d, k, -, ⟨l, p, h⟩, -⟩ | ⟨h, -⟩
  · exact absurd h (ht k l p)
  · rw [h]

/-! ## Patches -/

/-- What the text of a patch version can be -/
theorem patchVersion_cases {arg : VArg} {v : Version} (h : patchVersion arg = .ok v) :
    (v.t = .main ∧ v.s = "main".toList) ∨ ∃ a b, v.t = .nums [a, b] ∧ v.s ≠ "main".toList := by
  unfold patchVersion at h
  split at h
  · cases h; exact .inl ⟨rfl, rfl⟩
  rename_i harg
  right
  simp only [bind, Except.bind] at h
  split at h
  · cases h
  rename_i w hw
  have hj : ∀ a b : Int, join ['.'] ([a, b].map showInt) ≠ "main".toList := by
    intro a b e
    have : '.' ∈ join ['.'] ([a, b].map showInt) := by simp [join]
    rw [e] at this
    exact absurd this (by decide)
  have hmain : ∀ t, w.t = .nums t → t.length = 2 → w.s ≠ "main".toList := by
    intro t ht hl
    unfold baseVersion at hw
    split at hw
    · rename_i s
      split at hw
      · cases hw
      simp only [bind, Except.bind] at hw
      split at hw
      · cases hw
      cases hw
      intro e
      exact harg (congrArg VArg.str e)
    · split at hw
      · cases hw
      cases hw
      cases ht
      match t, hl with
      | [a, b], _ => exact hj a b
    · cases hw
  rcases hwt : w.t with t | _
  · rw [hwt] at h
    simp only at h
    by_cases hl : 2 < t.length
    · rw [if_pos hl] at h
      simp only at h
      split at h
      · cases h
        rename_i h2
        match t, hl with
        | a :: b :: c :: r, _ => exact ⟨a, b, rfl, hj a b⟩
      · cases h
    · rw [if_neg hl, hwt] at h
      simp only at h
      split at h
      · cases h
        rename_i h2
        match t, h2, hwt with
        | [a, b], _, hwt => exact ⟨a, b, hwt, hmain _ hwt rfl⟩
      · cases h
  · rw [hwt] at h; cases h

theorem tooOld_main {v : Version} (min : Str) (h : v.s = "main".toList) : tooOld v min = .ok false := by
  unfold tooOld Version.ne Version.eq
  simp only [h, decide_true]
  rfl

theorem tooOld_nums {v : Version} {a b : Int} (h : v.t = .nums [a, b]) (hs : v.s ≠ "main".toList) (min : Str) (m : Version) (x y : Int)
    (hm : patchVersion (.str min) = .ok m) (hmt : m.t = .nums [x, y]) : tooOld v min = .ok (decide (a < x ∨ (a = x ∧ b < y))) := by
  unfold tooOld Version.ne Version.eq
  simp only [hs, decide_false, Bool.not_false, if_true, hm, bind, Except.bind, Version.cmp, h, hmt, tupleCmp, CmpOp.eval]
  congr 1
  by_cases h1 : a = x
  · subst h1
    by_cases h2 : b = y
    · subst h2; simp
    · simp [h2]
  · simp [h1]

/-- TFT data is exported for patches from 9.14 and for `main`, from the directory of the game to `cdragon/tft`, in all languages. -/
theorem C74_tft_versions (lib : TftOutLib) (order : List Nat → List Nat) (ls : Str → List Str) (arg : VArg) (v : Version) (hv : patchVersion arg = .ok v)
    (output : Str) (mk : Option (Nat × Err)) (f : Nat → WriteFaults) (fs : FS) :
    (v.t = .main ∧ exportTftData lib order ls v output mk f fs =
      tftExportFiles lib 9999 order ls (pjoin output "game".toList) (pjoin output "cdragon/tft".toList) none mk f fs) ∨
    ∃ a b : Int, v.t = .nums [a, b] ∧ exportTftData lib order ls v output mk f fs = if a < 9 ∨ (a = 9 ∧ b < 14) then (fs, .ok ()) else
      tftExportFiles lib (100 * a + b).toNat order ls (pjoin output "game".toList) (pjoin output "cdragon/tft".toList) none mk f fs := by
  unfold exportTftData
  rcases patchVersion_cases hv with ⟨ht, hs⟩ | ⟨a, b, ht, hs⟩
  · refine .inl ⟨ht, ?_⟩
    rw [tooOld_main _ hs]
    simp only [Version.asInt, ht]
    rfl
  · refine .inr ⟨a, b, ht, ?_⟩
    rw [tooOld_nums ht hs "9.14".toList ⟨"9.14".toList, .nums [9, 14]⟩ 9 14 (by decide +kernel) rfl]
    by_cases h : a < 9 ∨ (a = 9 ∧ b < 14)
    · rw [if_pos h, decide_eq_true h]
    · rw [if_neg h, decide_eq_false h]
      simp only [Version.asInt, ht, Int.mul_comm a 100]

/-- Arena data is exported for patches from 13.14 and for `main`; string tables are always read as those of 15.2. -/
theorem C74_arena_versions (lib : ArenaLib) (ls : Str → List Str) (arg : VArg) (v : Version) (hv : patchVersion arg = .ok v)
    (output : Str) (mk : Option (Nat × Err)) (f : Nat → WriteFaults) (fs : FS) :
    (v.t = .main ∧ exportArenaData lib ls v output mk f fs =
      arenaExport lib 1502 ls (pjoin output "game".toList) (pjoin output "cdragon/arena".toList) none mk f fs) ∨
    ∃ a b : Int, v.t = .nums [a, b] ∧ exportArenaData lib ls v output mk f fs = if a < 13 ∨ (a = 13 ∧ b < 14) then (fs, .ok ()) else
      arenaExport lib 1502 ls (pjoin output "game".toList) (pjoin output "cdragon/arena".toList) none mk f fs := by
  unfold exportArenaData
  rcases patchVersion_cases hv with ⟨ht, hs⟩ | ⟨a, b, ht, hs⟩
  · refine .inl ⟨ht, ?_⟩
    rw [tooOld_main _ hs]
  · refine .inr ⟨a, b, ht, ?_⟩
    rw [tooOld_nums ht hs "13.14".toList ⟨"13.14".toList, .nums [13, 14]⟩ 13 14 (by decide +kernel) rfl]
    by_cases h : a < 13 ∨ (a = 13 ∧ b < 14)
    · rw [if_pos h, decide_eq_true h]
    · rw [if_neg h, decide_eq_false h]

/-! ## Examples -/

/-- The environment of the example; the output has the names of traits and champions of sets, and of items. -/
def tftOutLib : TftOutLib where
  tft := tftExLib
  rst := arenaExLib.rst
  json t := (t.setData.flatMap fun s => (s.traits.filterMap fun r => t.traits[r]?.map (·.name)) ++ (s.champions.filterMap fun r => t.champs[r]?.map (·.name)) ++
    (s.champions.flatMap fun r => ((t.champs[r]?.map (·.traits)).getD []))).append (t.items.map (·.name)) |>.map fun n =>
      .write (((n.getD "-".toList) ++ [' ']).map fun c => UInt8.ofNat c.toNat)

/-- A map with the set 7, with the trait `trait_a` and the champion `champ_a` of C73, and the item `item_a` -/
def tftOutMap : Bytes := [80, 82, 79, 80, 3, 0, 0, 0, 0, 0, 0, 0, 7, 0, 0, 0, 71, 2, 135, 111, 196, 242, 180, 102, 172, 107, 221, 11, 167, 232, 188, 91, 255, 80, 136, 67, 93, 143, 43, 229, 26, 195, 134, 209, 28, 0, 0, 0, 50, 0, 0, 0, 2, 0, 219, 191, 239, 25, 16, 1, 0, 84, 102, 61, 20, 195, 16, 7, 0, 116, 114, 97, 105, 116, 95, 97, 18, 0, 0, 0, 10, 0, 0, 0, 1, 0, 230, 189, 57, 141, 16, 5, 0, 84, 70, 84, 95, 65, 28, 0, 0, 0, 20, 0, 0, 0, 1, 0, 217, 128, 85, 144, 128, 132, 12, 0, 0, 0, 2, 0, 0, 0, 10, 0, 0, 0, 11, 0, 0, 0, 24, 0, 0, 0, 21, 0, 0, 0, 1, 0, 237, 85, 137, 81, 128, 132, 8, 0, 0, 0, 1, 0, 0, 0, 50, 0, 0, 0, 97, 0, 0, 0, 40, 0, 0, 0, 4, 0, 160, 112, 214, 27, 6, 7, 0, 0, 0, 241, 250, 47, 8, 128, 132, 8, 0, 0, 0, 1, 0, 0, 0, 20, 0, 0, 0, 192, 4, 69, 247, 128, 132, 8, 0, 0, 0, 1, 0, 0, 0, 21, 0, 0, 0, 90, 142, 83, 210, 134, 16, 131, 35, 0, 0, 0, 1, 0, 0, 0, 7, 0, 83, 101, 116, 78, 97, 109, 101, 135, 80, 12, 253, 14, 0, 0, 0, 1, 0, 137, 236, 242, 36, 16, 5, 0, 83, 101, 118, 101, 110, 32, 0, 0, 0, 60, 0, 0, 0, 2, 0, 219, 191, 239, 25, 16, 5, 0, 84, 70, 84, 95, 65, 102, 61, 20, 195, 16, 7, 0, 99, 104, 97, 109, 112, 95, 97, 27, 0, 0, 0, 30, 0, 0, 0, 2, 0, 219, 191, 239, 25, 16, 1, 0, 73, 102, 61, 20, 195, 16, 6, 0, 105, 116, 101, 109, 95, 97]

/-- A text table: `trait_a` is `Trait`, `champ_a` is `Champ` -/
def tftOutTable : Bytes := "...tr \"trait_a\" = \"Trait\"\ntr \"champ_a\" = \"Champ\"\n".toList.map fun c => UInt8.ofNat c.toNat

def tftOutFS : FS := fun p =>
  if p = "d/game/data/maps/shipping/map22/map22.bin".toList then some (.file tftOutMap)
  else if p = "d/game/data/menu/fontconfig_fr_fr.txt".toList then some (.file tftOutTable)
  else if p = "d/game/data/characters/tft_a/tft_a.bin".toList then some (.file tftExFile)
  else if p ∈ ["d".toList, "d/game".toList] then some .dir else none

def tftOutLs (p : Str) : List Str := if p = "d/game/data/menu".toList then ["fontconfig_fr_fr.txt".toList] else []

example : stringTables tftOutFS tftOutLs "d/game".toList "tft".toList = .ok [("fr_fr".toList, "d/game/data/menu/fontconfig_fr_fr.txt".toList)] := by decide +kernel

/-- The whole export, with the names of the example -/
theorem C74_export_met :
    let r := exportTftData tftOutLib id tftOutLs ⟨"14.2".toList, .nums [14, 2]⟩ "d".toList none (fun _ => {}) tftOutFS
    r.2 = .ok () ∧ r.1 "d/cdragon/tft/fr_fr.json".toList = some (.file ("Trait Champ Trait item_a ".toList.map fun c => UInt8.ofNat c.toNat)) := by decide +kernel

theorem C74_old_met : (exportTftData tftOutLib id tftOutLs ⟨"9.13".toList, .nums [9, 13]⟩ "d".toList none (fun _ => {}) tftOutFS).2 = .ok () ∧
    (exportTftData tftOutLib id tftOutLs ⟨"9.13".toList, .nums [9, 13]⟩ "d".toList none (fun _ => {}) tftOutFS).1 "d/cdragon".toList = none := by decide +kernel

end Cdtb
