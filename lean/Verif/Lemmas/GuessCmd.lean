import Verif.Props.C46
import Verif.Lemmas.Guess
import Verif.Model.GuessCmd
/-! Each guessing method is a sequence of calls to the methods of C45. -/
namespace Cdtb
set_option autoImplicit false
open Py

/-- `g'` is obtained from `g` by some calls -/
def Checks (H : Str → Int) (g g' : Guesser) : Prop := ∃ ops : List GuessOp, g' = g.run H ops

theorem Checks.refl (H : Str → Int) (g : Guesser) : Checks H g g := ⟨[], rfl⟩

theorem Checks.trans {H : Str → Int} {a b c : Guesser} (h : Checks H a b) (h' : Checks H b c) : Checks H a c := by
  obtain ⟨o, rfl⟩ := h
  obtain ⟨o', rfl⟩ := h'
  exact ⟨o ++ o', by simp [Guesser.run]⟩

theorem Checks.iter (H : Str → Int) (g : Guesser) (ps : List Str) : Checks H g (g.checkIter H ps) := ⟨[.checkIter ps], rfl⟩

theorem Checks.check (H : Str → Int) (g : Guesser) (p : Str) : Checks H g (g.check H p) := ⟨[.check p], rfl⟩

theorem Checks.dirs (H : Str → Int) (g : Guesser) (c : Bool) : Checks H g (g.directoryList c).1 := ⟨[.directoryList c], rfl⟩

theorem Checks.fold {H : Str → Int} {α : Type} (f : Guesser → α → Guesser) (hf : ∀ g a, Checks H g (f g a)) (l : List α) (g : Guesser) :
    Checks H g (l.foldl f g) := by
  induction l generalizing g with
  | nil => exact Checks.refl H g
  | cons a l ih => exact (hf g a).trans (ih _)

theorem Checks.gen (H : Str → Int) (l : List (Res Str)) (g : Guesser) : Checks H g (g.checkGen H l).1 := by
  induction l generalizing g with
  | nil => exact Checks.refl H g
  | cons a l ih => cases a with
    | error e => exact Checks.refl H g
    | ok p => exact (Checks.check H g p).trans (ih _)

theorem Checks.formats (H : Str → Int) (args : List (List FArg)) (l : List Str) (g : Guesser) : Checks H g (g.checkFormats H args l).1 := by
  induction l generalizing g with
  | nil => exact Checks.refl H g
  | cons a l ih =>
    have hg := Checks.gen H (args.map (pyFormat a)) g
    rw [Guesser.checkFormats]
    split
    · rename_i g' he
      rw [he] at hg
      exact hg.trans (ih g')
    · rename_i g' e he
      rw [he] at hg
      exact hg

theorem Checks.names (H : Str → Int) (dirs l : List Str) (g : Guesser) : Checks H g (g.checkNames H dirs l) :=
  Checks.fold _ (fun g _ => Checks.iter H g _) l g

theorem Checks.basenames (H : Str → Int) (g : Guesser) : Checks H g (g.substituteBasenames H) :=
  (Checks.dirs H g true).trans (Checks.names H _ _ _)

theorem Checks.checkBasenames (H : Str → Int) (g : Guesser) (l : List Str) : Checks H g (g.checkBasenames H l) :=
  (Checks.dirs H g true).trans (Checks.names H _ _ _)

theorem Checks.words (H : Str → Int) (g : Guesser) (paths words : List Str) (a b : Nat) : Checks H g (g.substituteWords H paths words a b).1 := by
  unfold Guesser.substituteWords
  split
  · exact Checks.refl H g
  · exact Checks.formats H _ _ g

theorem Checks.skinFormats (H : Str → Int) (skins : List Str) (l : List (Str × Nat)) (g : Guesser) : Checks H g (g.checkSkinFormats H skins l).1 := by
  induction l generalizing g with
  | nil => exact Checks.refl H g
  | cons a l ih =>
    obtain ⟨fmt, n⟩ := a
    have hg := Checks.gen H ((combinations skins n).map fun c => pyFormat fmt (c.map .str)) g
    rw [Guesser.checkSkinFormats]
    split
    · rename_i g' he
      rw [he] at hg
      exact hg.trans (ih g')
    · rename_i g' e he
      rw [he] at hg
      exact hg

theorem Checks.skinChars (H : Str → Int) (ps : List (Str × Str × Str)) (l : List Str) (g : Guesser) : Checks H g (g.checkSkinChars H ps l).1 := by
  induction l generalizing g with
  | nil => exact Checks.refl H g
  | cons a l ih =>
    have hg := Checks.skinFormats H ((ps.filter fun x => x.2.1 = a).map (·.2.2)).dedup
      (((ps.filter fun x => x.2.1 = a).map fun x => subn matchSkin "%s".toList 0 x.1).dedup) g
    rw [Guesser.checkSkinChars]
    split
    · rename_i g' he
      rw [he] at hg
      exact hg.trans (ih g')
    · rename_i g' e he
      rw [he] at hg
      exact hg

theorem Checks.lcuNumbers (H : Str → Int) (g : Guesser) (n : Nat) (d : DigitsArg) : Checks H g (g.lcuSubstituteNumbers H n d).1 :=
  Checks.formats H _ _ g

theorem Checks.gameNumbers (H : Str → Int) (g : Guesser) (n : Nat) (d : DigitsArg) : Checks H g (g.gameSubstituteNumbers H n d).1 :=
  Checks.formats H _ _ g

theorem Checks.regionLang (H : Str → Int) (g : Guesser) : Checks H g (g.substituteRegionLang H) := by
  unfold Guesser.substituteRegionLang
  generalize regionNames ++ _ = a
  generalize languageNames ++ _ = b
  exact Checks.fold _ (fun g _ => Checks.iter H g _) _ g

/-- All the methods of a list check candidates -/
def AllCheck (H : Str → Int) (l : List (Str × (Guesser → Guesser × Res Unit))) : Prop := ∀ m ∈ l, ∀ g, Checks H g (m.2 g).1

theorem lcuMethods_check (H : Str → Int) : AllCheck H (lcuMethods H) := by
  intro m hm g
  simp only [lcuMethods, List.mem_cons, List.not_mem_nil, or_false] at hm
  rcases hm with rfl | rfl | rfl | rfl | rfl | rfl
  · exact Checks.lcuNumbers H g 10000 .none
  · exact Checks.basenames H g
  · exact Checks.words H g _ _ _ _
  · exact Checks.fold _ (fun g _ => Checks.iter H g _) _ g
  · dsimp only
    exact Checks.regionLang H g
  · exact Checks.formats H _ _ g

theorem gameMethods_check (H : Str → Int) : AllCheck H (gameMethods H) := by
  intro m hm g
  simp only [gameMethods, List.mem_cons, List.not_mem_nil, or_false] at hm
  rcases hm with rfl | rfl | rfl | rfl | rfl | rfl | rfl
  · exact Checks.gameNumbers H g 100 .none
  · exact Checks.basenames H g
  · exact Checks.words H g _ _ _ _
  · exact Checks.fold _ (fun g _ => Checks.iter H g _) _ g
  · exact Checks.skinChars H _ _ g
  · exact Checks.fold _ (fun g _ => Checks.iter H g _) _ g
  · exact Checks.iter H g _

theorem runMethods_check {H : Str → Int} {l : List (Str × (Guesser → Guesser × Res Unit))} (hl : AllCheck H l) (names : List Str) (g : Guesser) :
    Checks H g (runMethods names l g).1 := by
  induction l generalizing g with
  | nil => exact Checks.refl H g
  | cons m l ih =>
    obtain ⟨n, f⟩ := m
    have ih := ih fun m hm => hl m (List.mem_cons_of_mem _ hm)
    have hg : Checks H g (f g).1 := hl (n, f) List.mem_cons_self g
    rw [runMethods]
    split
    · split
      · rename_i g' he
        rw [he] at hg
        exact hg.trans (ih g')
      · rename_i g' e he
        rw [he] at hg
        exact hg
    · exact ih g

/-! ## `grep` -/

theorem Checks.preload (H : Str → Int) (path : Option Str) (l : List Str) (g : Guesser) : Checks H g (g.grepPreload H path l).1 := by
  induction l generalizing g with
  | nil => exact Checks.refl H g
  | cons a l ih =>
    have hg : Checks H g (g.checkPreload H path a).1 := by
      unfold Guesser.checkPreload
      split
      · exact Checks.refl H g
      · simp only
        split
        · exact Checks.iter H g _
        · split
          · exact Checks.iter H g _
          · split
            · exact Checks.refl H g
            · exact Checks.refl H g
            · split
              · exact Checks.refl H g
              · exact Checks.iter H g _
    rw [Guesser.grepPreload]
    split
    · rename_i g' he
      rw [he] at hg
      exact hg.trans (ih g')
    · rename_i g' e he
      rw [he] at hg
      exact hg

theorem Checks.shader (H : Str → Int) (dir : Str) (l : List Str) (g : Guesser) : Checks H g (g.grepShader H dir l).1 := by
  induction l generalizing g with
  | nil => exact Checks.refl H g
  | cons a l ih =>
    rw [Guesser.grepShader]
    split
    · exact Checks.refl H g
    · exact (Checks.iter H g _).trans (ih _)

theorem Checks.bin (H : Str → Int) (data : Bytes) (g : Guesser) : Checks H g (g.grepBin H data) :=
  Checks.fold _ (fun g m => by
    show Checks H g (match binPathAt (latin1 data) m.1.length with
      | none => g
      | some p => g.checkIter H (binVariants p))
    split
    · exact Checks.refl H g
    · exact Checks.iter H g _) _ g

theorem Checks.file (H : Str → Int) (data : Bytes) (g : Guesser) : Checks H g (g.grepFile H data) :=
  Checks.fold _ (fun g _ => Checks.iter H g _) _ g

theorem Checks.entry (H : Str → Int) (f : GrepEntry) (g : Guesser) : Checks H g (g.grepEntry H f).1 := by
  unfold Guesser.grepEntry
  split
  · exact Checks.refl H g
  split
  · exact Checks.refl H g
  split
  · exact Checks.refl H g
  · unfold Guesser.grepContent
    split
    · exact Checks.file H _ g
    · split
      · exact Checks.bin H _ g
      split
      · exact Checks.preload H _ _ g
      split
      · split
        · exact Checks.refl H g
        · exact Checks.shader H _ _ g
      split
      · split
        · exact Checks.refl H g
        · exact Checks.iter H g _
      · exact Checks.file H _ g

theorem Checks.gameGrep (H : Str → Int) (cx : Codecs) (file : Bytes) (toc : Option Bytes) (l : List WadEntry) (g : Guesser) :
    Checks H g (g.gameGrepWad H cx file toc l).1 := by
  induction l generalizing g with
  | nil => exact Checks.refl H g
  | cons w l ih =>
    rw [Guesser.gameGrepWad]
    split
    · exact Checks.refl H g
    · rename_i f _
      have hg := Checks.entry H f g
      split
      · rename_i g' he
        rw [he] at hg
        exact hg.trans (ih g')
      · rename_i g' e he
        rw [he] at hg
        exact hg

theorem Checks.defaults (H : Str → Int) (l : List Json) (g : Guesser) : Checks H g (g.checkDefaults H l).1 := by
  induction l generalizing g with
  | nil => exact Checks.refl H g
  | cons a l ih =>
    rw [Guesser.checkDefaults]
    split
    · exact Checks.refl H g
    · exact (Checks.iter H g _).trans (ih _)

theorem Checks.res (H : Str → Int) (b : Bool) (r : Res (List Str)) (g : Guesser) : Checks H g (g.checkRes H b r).1 := by
  cases r with
  | error e => exact Checks.refl H g
  | ok l => exact Checks.iter H g l

theorem Checks.json (H : Str → Int) (lib : TextLib) (path : Option Str) (v : Json) (g : Guesser) : Checks H g (g.grepJson H lib path v).1 := by
  unfold Guesser.grepJson
  split
  · exact Checks.res H _ _ g
  split
  · exact Checks.refl H g
  · exact Checks.res H _ _ g
  split
  · exact Checks.refl H g
  · exact Checks.res H _ _ g
  split
  · exact Checks.res H _ _ g
  · unfold Guesser.grepDefaults
    split
    · exact Checks.refl H g
    · exact Checks.refl H g
    split
    · exact Checks.refl H g
    · rename_i l _
      have hg := Checks.defaults H l g
      split
      · rename_i g' e he
        rw [he] at hg
        exact hg
      · rename_i g' he
        rw [he] at hg
        exact hg

theorem Checks.text (H : Str → Int) (lib : TextLib) (w : WadEntry) (data : Str) (g : Guesser) : Checks H g (g.grepText H lib w data).1 := by
  have hg : Checks H g (g.grepValue H lib w.path (parseJson lib w.ext data)).1 := by
    generalize parseJson lib w.ext data = v
    cases v with
    | none => exact Checks.refl H g
    | some v => exact Checks.json H lib _ v g
  unfold Guesser.grepText
  split
  · rename_i g' e he
    rw [he] at hg
    exact hg
  · rename_i g' he
    rw [he] at hg
    exact hg
  · rename_i g' he
    rw [he] at hg
    exact hg.trans (Checks.iter H g' _)

theorem Checks.texts (H : Str → Int) (lib : TextLib) (cx : Codecs) (file : Bytes) (l : List WadEntry) (rels : List Str) (g : Guesser) :
    Checks H g (g.grepTexts H lib cx file rels l).1 := by
  induction l generalizing g rels with
  | nil => exact Checks.refl H g
  | cons w l ih =>
    rw [Guesser.grepTexts]
    split
    · exact Checks.refl H g
    · exact ih _ _
    · rename_i data _
      have hg := Checks.text H lib w data g
      split
      · rename_i g' e he
        rw [he] at hg
        exact hg
      · rename_i g' r he
        rw [he] at hg
        exact hg.trans (ih _ g')

theorem Checks.lcuGrep (H : Str → Int) (lib : TextLib) (cx : Codecs) (file : Bytes) (l : List WadEntry) (g : Guesser) :
    Checks H g (g.lcuGrepWad H lib cx file l).1 := by
  have hg := Checks.texts H lib cx file l [] g
  unfold Guesser.lcuGrepWad
  split
  · rename_i g' e he
    rw [he] at hg
    exact hg
  · rename_i g' r he
    rw [he] at hg
    exact hg.trans (Checks.checkBasenames H g' _)

theorem Checks.grepWads {H : Str → Int} {cx : Codecs} {grep : WadFile → Guesser → Guesser × Res Unit} (hc : ∀ w g, Checks H g (grep w g).1)
    (l : List WadFile) (cache : ExtCache) (g : Guesser) : Checks H g (Cdtb.grepWads cx grep cache g l).2.1 := by
  induction l generalizing g cache with
  | nil => exact Checks.refl H g
  | cons w l ih =>
    rw [Cdtb.grepWads]
    split
    · exact Checks.refl H g
    · rename_i cache' files _
      have hg := hc { w with files := files } g
      split
      · rename_i g' e he
        rw [he] at hg
        exact hg
      · rename_i g' he
        rw [he] at hg
        exact hg.trans (ih _ g')

theorem Checks.runGuesser {H : Str → Int} {cx : Codecs} {grep : WadFile → Guesser → Guesser × Res Unit} (hc : ∀ w g, Checks H g (grep w g).1)
    {methods : List (Str × (Guesser → Guesser × Res Unit))} (hm : AllCheck H methods) (names : List Str) (cache : ExtCache) (g : Guesser)
    (wads : List WadFile) : Checks H g (Cdtb.runGuesser cx names grep methods cache g wads).2.1 := by
  have hg : Checks H g (if "grep".toList ∈ names then Cdtb.grepWads cx grep cache g wads else (cache, g, .ok ())).2.1 := by
    split
    · exact Checks.grepWads hc wads cache g
    · exact Checks.refl H g
  unfold Cdtb.runGuesser
  split
  · rename_i c g' e he
    rw [he] at hg
    exact hg
  · rename_i c g' he
    rw [he] at hg
    exact hg.trans (runMethods_check hm names g')

end Cdtb
