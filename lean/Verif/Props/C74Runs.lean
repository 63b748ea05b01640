import Verif.Props.C74
import Verif.Props.C72Runs
/-! # C74: the export of TFT data succeeds when nothing fails -/
namespace Cdtb
set_option autoImplicit false
open Py Spec

/-- The two paths where the file of a champion is looked for -/
def Spec.champPaths (input name : Str) : List Str :=
  [pjoin (pjoin input "characters".toList) (name ++ ".cdtb.bin".toList), pjoin (pjoin (pjoin input "data/characters".toList) name) (name ++ ".bin".toList)]

theorem champEntry_congr {lib : TftLib} {fs fs1 : FS} {input : Str} {traits : Dict Nat TraitData} {roles : Dict Nat BinEntry} {champ : List BinField}
    (hd : ∀ name, ∀ q ∈ Spec.champPaths input name, fs1 q = fs q) : champEntry lib fs1 input traits roles champ = champEntry lib fs input traits roles champ := by
  unfold champEntry
  congr 1
  funext name
  have h1 := hd name _ (List.mem_cons_self ..)
  have h2 := hd name _ (List.mem_cons_of_mem _ (List.mem_cons_self ..))
  have hf : champFile fs1 input name = champFile fs input name := by
    unfold champFile
    simp only [h1, h2]
  have hm : ∀ p, champFile fs input name = some p → fs1 p = fs p := by
    intro p hp
    unfold champFile at hp
    simp only at hp
    split at hp
    · cases hp; exact h1
    · split at hp
      · cases hp; exact h2
      · cases hp
  rw [hf]
  split
  · rfl
  · cases hc : champFile fs input name with
    | none => rfl
    | some p =>
      simp only [FS.readFile, hm p hc]

theorem parseChamps_congr {lib : TftLib} {fs fs1 : FS} {input : Str} {traits : Dict Nat TraitData} {entries : List BinEntry}
    (hd : ∀ name, ∀ q ∈ Spec.champPaths input name, fs1 q = fs q) : parseChamps lib fs1 input entries traits = parseChamps lib fs input entries traits := by
  unfold parseChamps
  generalize (entries.filter fun e => isType lib.bin e "TftShopData".toList) = es
  generalize ([] : Dict Str ChampData) = d0
  induction es generalizing d0 with
  | nil => rfl
  | cons e es ih =>
    unfold champsGo
    rw [champEntry_congr hd]
    congr 1
    funext c
    exact ih _

/-- The loop on languages, when nothing fails -/
theorem tftLangs_succeeds {lib : TftOutLib} {version : Nat} {tables : Dict Str Str} {t : TftTemplate TftPart} {output : Str}
    (hjson : ∀ u, bodyErr (lib.json u) = none) (hn : Spec.Named output) {langs : List Str} (i : Nat) (fs : FS) (hs : ∀ l ∈ langs, '/' ∉ l)
    (hsep : ∀ l ∈ langs, ∀ l' path, tables.get? l' = some path → Spec.langFile output l ≠ path)
    (htab : ∀ l ∈ langs, ∃ path data r, tables.get? l = some path ∧ fs path = some (.file data) ∧ loadTranslations lib.rst version data = .ok r)
    (hd : fs output = some .dir) (hfile : ∀ l ∈ langs, fs (Spec.langFile output l) ≠ some .dir) :
    (tftLangs lib version tables t output (fun _ => {}) i fs langs).2 = .ok () := by
  induction langs generalizing i fs with
  | nil => rfl
  | cons lang langs ih =>
    obtain ⟨path, data, r, t1, t2, t3⟩ := htab lang (by simp)
    have ht : tftTable lib version tables fs lang = .ok r := by
      unfold tftTable
      rw [t1]
      simp only
      rw [readFile_iff.2 t2]
      exact t3
    unfold tftLangs
    rw [ht]
    simp only
    generalize hb : lib.json (t.translate (r.tr lib.rst)) = body
    have he : bodyErr body = none := by rw [← hb]; exact hjson _
    have hl : '/' ∉ lang ++ ".json".toList := noSlash_json (hs lang (by simp))
    have hp : pjoin output (lang ++ ".json".toList) = output ++ '/' :: (lang ++ ".json".toList) := hn.pjoin_dir hl
    have hq := openAndWrite_quiet (fs := fs) (p := pjoin output (lang ++ ".json".toList)) (body := body) (f := {})
      ⟨rfl, rfl, fun _ => rfl, rfl⟩ (by rw [hp, dirname_child hn hl]; exact hd) (hfile lang (by simp))
    have ho := fun q => openAndWrite_other fs (p := pjoin output (lang ++ ".json".toList)) (q := q) body {}
    have hw := openAndWrite_ok (fs := fs) (p := pjoin output (lang ++ ".json".toList)) (body := body) (f := {})
    rw [he] at hq
    simp only at hq
    have hw := (hw hq).2
    rcases hr : openAndWrite fs (pjoin output (lang ++ ".json".toList)) body {} with ⟨fs', x⟩
    rw [hr] at hq ho hw
    simp only at hq ho hw
    subst hq
    simp only
    refine ih (i + 1) fs' (fun l hl => hs l (by simp [hl])) (fun l hl => hsep l (by simp [hl])) ?_ ?_ ?_
    · intro l hl
      obtain ⟨path, data, r, t1, t2, t3⟩ := htab l (by simp [hl])
      exact ⟨path, data, r, t1, by rw [ho path (hsep lang (by simp) l path t1).symm]; exact t2, t3⟩
    · rw [ho output (by rw [hp]; intro h; have := congrArg List.length h; simp at this)]; exact hd
    · intro l hl
      by_cases c : Spec.langFile output l = pjoin output (lang ++ ".json".toList)
      · rw [c, hw]; simp
      · rw [ho _ c]; exact hfile l (by simp [hl])

/-- **C74 (success).** When the data of the directory is read (see C73 for when it is), the string table of each requested language too, files can be written
in the output directory, which is not in the place of a file of a champion, and nothing fails, the export succeeds, and there is a complete file for each
requested language. -/
theorem C74_succeeds (lib : TftOutLib) (version : Nat) (order : List Nat → List Nat) (hord : ∀ l, (order l).Perm l) (ls : Str → List Str) (input output : Str)
    (langs : Option (List Str)) (fs : FS) (tables : Dict Str Str) (ht : stringTables fs ls input "tft".toList = .ok tables)
    (hdata : ∃ t, tftTemplate lib.tft order fs input = .ok t)
    (hnd : (langs.getD tables.keys).Nodup) (hs : ∀ l ∈ langs.getD tables.keys, '/' ∉ l)
    (hsep : ∀ l ∈ langs.getD tables.keys, ∀ l' path, tables.get? l' = some path → Spec.langFile output l ≠ path)
    (htab : ∀ l ∈ langs.getD tables.keys, ∃ path data r, tables.get? l = some path ∧ fs path = some (.file data) ∧ loadTranslations lib.rst version data = .ok r)
    (hjson : ∀ u, bodyErr (lib.json u) = none) (hroom : Spec.OutputRoom fs output (langs.getD tables.keys))
    (hclear : ∀ name, ∀ q ∈ Spec.champPaths input name, q ≠ output ∧ ∀ r, output ≠ q ++ '/' :: r) :
    (tftExportFiles lib version order ls input output langs none (fun _ => {}) fs).2 = .ok () ∧ ∃ t, Spec.TftData lib.tft fs input t ∧
    ∀ l ∈ langs.getD tables.keys, Spec.TftLangComplete lib version tables fs t output (tftExportFiles lib version order ls input output langs none (fun _ => {}) fs).1 l := by
  have hok : (tftExportFiles lib version order ls input output langs none (fun _ => {}) fs).2 = .ok () := by
    obtain ⟨fs1, h1, h2, h3, h4⟩ := hroom.made hs
    have hfile : ∀ q b, fs q = some (.file b) → fs1 q = some (.file b) := by
      intro q b hb
      rcases h4 q with h | ⟨-, h, -⟩
      · rw [h]; exact hb
      · rw [hb] at h; cases h
    obtain ⟨t, hte⟩ := hdata
    have hte1 : tftTemplate lib.tft order fs1 input = .ok t := by
      have hch : ∀ name, ∀ q ∈ Spec.champPaths input name, fs1 q = fs q := by
        intro name q hq
        rcases h4 q with h | ⟨h, -, -⟩
        · exact h
        · obtain ⟨c1, c2⟩ := hclear name q hq
          rcases (mem_dirPrefixes h).2 with h | ⟨r, h⟩
          · exact absurd h c1
          · exact absurd h (c2 r)
      unfold tftTemplate at hte ⊢
      rcases hr : fs.readFile (map22Path input) with e | b
      · rw [hr] at hte; cases hte
      · rw [readFile_iff.2 (hfile _ _ (readFile_iff.1 hr))]
        rw [hr] at hte
        simp only [parseChamps_congr hch]
        exact hte
    unfold tftExportFiles
    rw [ht]
    simp only [h1, hte1]
    refine tftLangs_succeeds hjson hroom.named 0 fs1 hs hsep (fun l hl => ?_) h2 h3
    obtain ⟨path, data, r, t1, t2, t3⟩ := htab l hl
    exact ⟨path, data, r, t1, hfile _ _ t2, t3⟩
  refine ⟨hok, ?_⟩
  rcases (C74_export lib version order hord ls input output langs none (fun _ => {}) fs tables ht hnd hs hsep).2 with ⟨-, h⟩ | ⟨e, he, -⟩ | ⟨e, _, _, _, _, he, -⟩
  · exact h
  · rw [hok] at he; cases he
  · rw [hok] at he; cases he

/-- The files of `C74_export_met` meet the hypotheses. -/
theorem C74_succeeds_case : (∃ t, tftTemplate tftOutLib.tft id tftOutFS "d/game".toList = .ok t) ∧
    (∀ l ∈ ["fr_fr".toList], ∃ path data r, Dict.get? [("fr_fr".toList, "d/game/data/menu/fontconfig_fr_fr.txt".toList)] l = some path ∧
      tftOutFS path = some (.file data) ∧ loadTranslations tftOutLib.rst 1402 data = .ok r) ∧
    (∀ u, bodyErr (tftOutLib.json u) = none) ∧ Spec.OutputRoom tftOutFS "d/cdragon/tft".toList ["fr_fr".toList] ∧
    ∀ name, ∀ q ∈ Spec.champPaths "d/game".toList name, q ≠ "d/cdragon/tft".toList ∧ ∀ r, "d/cdragon/tft".toList ≠ q ++ '/' :: r := by
  have h2 : ∃ r, loadTranslations tftOutLib.rst 1402 tftOutTable = .ok r := Succeeds.of_check (by decide +kernel)
  obtain ⟨r, h2⟩ := h2
  refine ⟨Succeeds.of_check (by decide +kernel), fun l hl => ?_, fun u => ?_, ⟨?_, ?_, ?_⟩, ?_⟩
  · rw [List.mem_singleton.1 hl]
    exact ⟨"d/game/data/menu/fontconfig_fr_fr.txt".toList, tftOutTable, r, by decide +kernel, by decide +kernel, h2⟩
  · rw [bodyErr_none]
    intro s hs
    simp only [tftOutLib, List.mem_map] at hs
    obtain ⟨a, -, hs⟩ := hs
    rw [← hs]; simp
  · exact ⟨"d/cdragon/tf".toList, 't', by decide +kernel, by decide⟩
  · intro q c hq
    unfold tftOutFS at hq
    split at hq
    · rename_i h; subst h
      exact ⟨by decide +kernel, fun r hr => by have := congrArg List.length hr; simp at this⟩
    · split at hq
      · rename_i h; subst h
        exact ⟨by decide +kernel, fun r hr => by have := congrArg List.length hr; simp at this⟩
      · split at hq
        · rename_i h; subst h
          exact ⟨by decide +kernel, fun r hr => by have := congrArg List.length hr; simp at this⟩
        · split at hq <;> simp at hq
  · intro l hl
    rw [List.mem_singleton.1 hl]
    decide +kernel
  · have key : ∀ q : Str, q[0]? = some '/' ∨ q[2]? = some 'g' → q ≠ "d/cdragon/tft".toList ∧ ∀ r, "d/cdragon/tft".toList ≠ q ++ '/' :: r := by
      intro q hq
      have hqs : ∀ (x : Str) (i : Nat) (c : Char), q[i]? = some c → (q ++ x)[i]? = some c := by
        intro x i c h
        rw [List.getElem?_append_left]
        · exact h
        · by_contra hc
          rw [List.getElem?_eq_none (by omega)] at h
          cases h
      refine ⟨fun h => ?_, fun r h => ?_⟩
      · rw [h] at hq; revert hq; decide +kernel
      · have := hq.imp (hqs ('/' :: r) 0 _) (hqs ('/' :: r) 2 _)
        rw [← h] at this
        revert this; decide +kernel
    have hj : ∀ a b : Str, (a[0]? = some '/' ∨ a[2]? = some 'g') → ((pjoin a b)[0]? = some '/' ∨ (pjoin a b)[2]? = some 'g') := by
      intro a b ha
      have hqs : ∀ (x : Str) (i : Nat) (c : Char), a[i]? = some c → (a ++ x)[i]? = some c := by
        intro x i c h
        rw [List.getElem?_append_left]
        · exact h
        · by_contra hc
          rw [List.getElem?_eq_none (by omega)] at h
          cases h
      unfold pjoin
      split
      · rename_i hb
        left
        cases b with
        | nil => revert hb; decide
        | cons c b =>
          have : '/' = c := by simpa [startsWith] using hb
          rw [← this]; rfl
      · split
        · exact ha.imp (hqs _ 0 _) (hqs _ 2 _)
        · rw [List.append_assoc]; exact ha.imp (hqs _ 0 _) (hqs _ 2 _)
    have h0 : ("d/game".toList : Str)[0]? = some '/' ∨ ("d/game".toList : Str)[2]? = some 'g' := .inr (by decide +kernel)
    intro name q hq
    refine key q ?_
    unfold Spec.champPaths at hq
    rcases List.mem_cons.1 hq with h | h
    · rw [h]; exact hj _ _ (hj _ _ h0)
    · rw [List.mem_singleton.1 h]; exact hj _ _ (hj _ _ (hj _ _ h0))

end Cdtb
