import Verif.Props.C72total
import Verif.Props.C73total
/-! # C72: the export of Arena data succeeds when nothing fails -/
namespace Cdtb
set_option autoImplicit false
open Py Spec

theorem noSlash_json {l : Str} (h : '/' ∉ l) : '/' ∉ l ++ ".json".toList := by
  rw [List.mem_append, not_or]
  exact ⟨h, by decide +kernel⟩

/-- Files of languages can be written in a directory: no file is in place of it or of its parents, and no directory is in place of a file. -/
structure Spec.OutputRoom (fs : FS) (output : Str) (langs : List Str) : Prop where
  named : Spec.Named output
  dirs : ∀ q c, fs q = some (.file c) → q ≠ output ∧ ∀ r, output ≠ q ++ '/' :: r
  files : ∀ l ∈ langs, fs (Spec.langFile output l) ≠ some .dir

/-- The output directory is created. -/
theorem Spec.OutputRoom.made {fs : FS} {output : Str} {langs : List Str} (h : Spec.OutputRoom fs output langs) (hs : ∀ l ∈ langs, '/' ∉ l) :
    ∃ fs1, fs.makedirs output none = (fs1, .ok ()) ∧ fs1 output = some .dir ∧ (∀ l ∈ langs, fs1 (Spec.langFile output l) ≠ some .dir) ∧
      DirsAdded (dirPrefixes output) fs fs1 := by
  have hemp : output.isEmpty = false := by
    have := h.named.ne_nil
    cases output <;> simp_all
  have hpre : ∀ d ∈ dirPrefixes output, ∀ c, fs d ≠ some (.file c) := by
    intro d hd c hc
    obtain ⟨h1, h2⟩ := h.dirs d c hc
    rcases (mem_dirPrefixes hd).2 with h | ⟨r, h⟩
    · exact h1 h
    · exact h2 r h
  have hmk : (fs.makedirs output none).2 = .ok () := by
    unfold FS.makedirs; rw [hemp]; exact makedirsGo_succeeds fs _ hpre
  have hself : output ∈ dirPrefixes output := by
    unfold dirPrefixes
    simp only [List.mem_filter, List.mem_map, List.mem_range]
    refine ⟨⟨(splitChar '/' output).length - 1, ?_, ?_⟩, by rw [hemp]; rfl⟩
    · have := splitChar_ne_nil '/' output
      cases hsp : splitChar '/' output with
      | nil => exact absurd hsp this
      | cons a l => simp
    · rw [List.take_of_length_le (by omega), join_splitChar]
  have hisdir : (fs.makedirs output none).1 output = some .dir := by
    unfold FS.makedirs at hmk ⊢
    rw [hemp] at hmk ⊢
    exact (makedirsGo_ok fs none _ hmk).1 output hself
  have hadd := makedirs_dirsAdded fs output none
  rcases hm : fs.makedirs output none with ⟨fs1, r⟩
  rw [hm] at hmk hisdir hadd
  simp only at hmk hisdir hadd
  subst hmk
  refine ⟨fs1, rfl, hisdir, fun l hl hd => ?_, hadd⟩
  rcases hadd (Spec.langFile output l) with g | ⟨g1, g2, g3⟩
  · rw [g] at hd; exact h.files l hl hd
  · have := mem_dirPrefixes_length g1
    unfold Spec.langFile at this
    rw [h.named.pjoin_dir (noSlash_json (hs l hl))] at this
    simp at this

/-- The loop on languages, when nothing fails -/
theorem arenaLangs_succeeds {lib : ArenaLib} {version : Nat} {tables : Dict Str Str} {as : List Augment} {output : Str}
    (hjson : ∀ bs, bodyErr (lib.json bs) = none) (hn : Spec.Named output) {langs : List Str} (i : Nat) (fs : FS) (hs : ∀ l ∈ langs, '/' ∉ l)
    (hsep : ∀ l ∈ langs, ∀ l' path, tables.get? l' = some path → Spec.langFile output l ≠ path)
    (htab : ∀ l ∈ langs, ∃ path data r, tables.get? l = some path ∧ fs path = some (.file data) ∧ (parseRst lib.rst version).run data = .ok r)
    (hd : fs output = some .dir) (hfile : ∀ l ∈ langs, fs (Spec.langFile output l) ≠ some .dir) :
    (arenaLangs lib version tables as output (fun _ => {}) i fs langs).2 = .ok () := by
  induction langs generalizing i fs with
  | nil => rfl
  | cons lang langs ih =>
    obtain ⟨path, data, r, t1, t2, t3⟩ := htab lang (by simp)
    have ht : arenaTable lib version tables fs lang = .ok r := by
      unfold arenaTable
      rw [t1]
      simp only
      rw [readFile_iff.2 t2]
      exact t3
    unfold arenaLangs
    rw [ht]
    simp only
    generalize hb : lib.json (as.map (Augment.translate lib.rst r)) = body
    have he : bodyErr body = none := by rw [← hb]; exact hjson _
    have hl : '/' ∉ lang ++ ".json".toList := noSlash_json (hs lang (by simp))
    have hp : pjoin output (lang ++ ".json".toList) = output ++ '/' :: (lang ++ ".json".toList) := hn.pjoin_dir hl
    have hq := openAndWrite_quiet (fs := fs) (p := pjoin output (lang ++ ".json".toList)) (body := body) (f := {})
      ⟨rfl, rfl, fun _ => rfl, rfl⟩ (by rw [hp, dirname_child hn hl]; exact hd) (hfile lang (by simp))
    have ho := fun q => openAndWrite_other fs (p := pjoin output (lang ++ ".json".toList)) (q := q) body {}
    have hw := openAndWrite_ok (fs := fs) (p := pjoin output (lang ++ ".json".toList)) (body := body) (f := {})
    rw [he] at hq
    simp only at hq
    have hw := (hw hq).2
    rcases hr : openAndWrite fs (pjoin output (lang ++ ".json".toList)) body {} with ⟨fs', x⟩
    rw [hr] at hq ho hw
    simp only at hq ho hw
    subst hq
    simp only
    refine ih (i + 1) fs' (fun l hl => hs l (by simp [hl])) (fun l hl => hsep l (by simp [hl])) ?_ ?_ ?_
    · intro l hl
      obtain ⟨path, data, r, t1, t2, t3⟩ := htab l (by simp [hl])
      exact ⟨path, data, r, t1, by rw [ho path (hsep lang (by simp) l path t1).symm]; exact t2, t3⟩
    · rw [ho output (by rw [hp]; intro h; have := congrArg List.length h; simp at this)]; exact hd
    · intro l hl
      by_cases c : Spec.langFile output l = pjoin output (lang ++ ".json".toList)
      · rw [c, hw]; simp
      · rw [ho _ c]; exact hfile l (by simp [hl])

/-- **C72 (success).** When the map is readable, the string table of each requested language too, files can be written in the output directory and nothing
fails, the export succeeds, and there is a complete file for each requested language. -/
theorem C72_succeeds (lib : ArenaLib) (version : Nat) (ls : Str → List Str) (input output : Str) (langs : Option (List Str)) (fs : FS) (tables : Dict Str Str)
    (as : List Augment) (ht : stringTables fs ls input "lol".toList = .ok tables) (hdata : Spec.ArenaData lib fs input as)
    (hnd : (langs.getD tables.keys).Nodup) (hs : ∀ l ∈ langs.getD tables.keys, '/' ∉ l)
    (hsep : ∀ l ∈ langs.getD tables.keys, ∀ l' path, tables.get? l' = some path → Spec.langFile output l ≠ path)
    (htab : ∀ l ∈ langs.getD tables.keys, ∃ path data r, tables.get? l = some path ∧ fs path = some (.file data) ∧ (parseRst lib.rst version).run data = .ok r)
    (hjson : ∀ bs, bodyErr (lib.json bs) = none) (hroom : Spec.OutputRoom fs output (langs.getD tables.keys)) :
    (arenaExport lib version ls input output langs none (fun _ => {}) fs).2 = .ok () ∧
    ∀ l ∈ langs.getD tables.keys, Spec.LangComplete lib version tables fs as output (arenaExport lib version ls input output langs none (fun _ => {}) fs).1 l := by
  have hok : (arenaExport lib version ls input output langs none (fun _ => {}) fs).2 = .ok () := by
    obtain ⟨fs1, h1, h2, h3, h4⟩ := hroom.made hs
    have hfile : ∀ q b, fs q = some (.file b) → fs1 q = some (.file b) := by
      intro q b hb
      rcases h4 q with h | ⟨-, h, -⟩
      · rw [h]; exact hb
      · rw [hb] at h; cases h
    have hte : arenaTemplate lib fs1 input = .ok as := by
      obtain ⟨data, bin, d1, d2, d3⟩ := hdata
      exact arenaTemplate_iff.2 ⟨data, bin, hfile _ _ d1, d2, d3⟩
    unfold arenaExport
    rw [ht]
    simp only [h1, hte]
    refine arenaLangs_succeeds hjson hroom.named 0 fs1 hs hsep (fun l hl => ?_) h2 h3
    obtain ⟨path, data, r, t1, t2, t3⟩ := htab l hl
    exact ⟨path, data, r, t1, hfile _ _ t2, t3⟩
  refine ⟨hok, ?_⟩
  rcases (C72_export lib version ls input output langs none (fun _ => {}) fs tables ht hnd hs hsep).2 with ⟨-, as', ha, h⟩ | ⟨e, he, -⟩ | ⟨e, _, _, _, _, he, -⟩
  · have : as' = as := by
      have h1 := arenaTemplate_iff.2 ha
      rw [arenaTemplate_iff.2 hdata] at h1
      exact (Except.ok.inj h1).symm
    rw [← this]; exact h
  · rw [hok] at he; cases he
  · rw [hok] at he; cases he

/-- The files of `C72_export_met` meet the hypotheses. -/
theorem C72_succeeds_case : ∃ as, Spec.ArenaData arenaExLib arenaExFS "in".toList as ∧
    (∀ l ∈ ["fr_fr".toList], ∃ path data r, Dict.get? [("fr_fr".toList, "in/fr_fr/data/menu/en_us/lol.stringtable".toList)] l = some path ∧
      arenaExFS path = some (.file data) ∧ (parseRst arenaExLib.rst 1502).run data = .ok r) ∧
    (∀ bs, bodyErr (arenaExLib.json bs) = none) ∧ Spec.OutputRoom arenaExFS "out".toList ["fr_fr".toList] := by
  have h1 : ∃ as, arenaTemplate arenaExLib arenaExFS "in".toList = .ok as :=
    Succeeds.of_check (by decide +kernel)
  obtain ⟨as, h1⟩ := h1
  have h2 : ∃ r, (parseRst arenaExLib.rst 1502).run arenaExTable = .ok r := Succeeds.of_check (by decide +kernel)
  obtain ⟨r, h2⟩ := h2
  refine ⟨as, arenaTemplate_iff.1 h1, fun l hl => ?_, fun bs => ?_, ?_, ?_, ?_⟩
  · rw [List.mem_singleton.1 hl]
    exact ⟨"in/fr_fr/data/menu/en_us/lol.stringtable".toList, arenaExTable, r, by decide +kernel, by decide +kernel, h2⟩
  · rw [bodyErr_none]
    intro s hs
    simp only [arenaExLib, List.mem_flatMap] at hs
    obtain ⟨a, -, hs⟩ := hs
    split at hs
    · rw [List.mem_singleton.1 hs]; simp
    · rw [List.mem_singleton.1 hs]; simp
  · exact ⟨"ou".toList, 't', by decide +kernel, by decide⟩
  · intro q c hq
    unfold arenaExFS at hq
    split at hq
    · rename_i h; subst h
      exact ⟨by decide +kernel, fun r hr => by have := congrArg List.length hr; simp at this⟩
    · split at hq
      · rename_i h; subst h
        exact ⟨by decide +kernel, fun r hr => by have := congrArg List.length hr; simp at this⟩
      · split at hq <;> simp at hq
  · intro l hl
    rw [List.mem_singleton.1 hl]
    decide +kernel

end Cdtb
