import Verif.Model.Wad
import Verif.Lemmas.Dict
import Mathlib.Data.List.Forall2
/-!
# C16 The cache of guessed extensions
-/
namespace Cdtb
set_option autoImplicit false
open Py

/-- A WAD being processed: content of the file, table of subchunks, entries. -/
structure WadState where
  file : Bytes
  toc : Option Bytes
  files : List WadEntry

/-- The entry has no extension. -/
def UnknownExt (w : WadEntry) : Prop := w.ext = none ∨ w.ext = some []

theorem noExt_iff {e : Option Str} : noExt e = true ↔ e = none ∨ e = some [] := by
  rcases e with _ | _ | _ <;> simp [noExt]

/-- Guessing without any cache: the extension guessed from the data, none if there is no data. -/
def plainGuess (cx : Codecs) (s : WadState) (w : WadEntry) : Option Str :=
  match readFileData cx w s.file s.toc with
  | .ok (some d) => if d = [] then none else guessExtension cx d
  | _ => none

/-- The entries when each one is guessed on its own. -/
def plainFiles (cx : Codecs) (s : WadState) : List WadEntry :=
  s.files.map fun w => if noExt w.ext then { w with ext := plainGuess cx s w } else w

/-- A path hash always designates data with the extension `E hash` (in this WAD), and data can be read. -/
def Consistent (cx : Codecs) (E : Nat → Option Str) (s : WadState) : Prop :=
  ∀ w ∈ s.files, UnknownExt w →
    (∃ r, readFileData cx w s.file s.toc = .ok r) ∧ plainGuess cx s w = E w.pathHash

/-- The cache only holds right extensions. -/
def CacheOk (E : Nat → Option Str) (cache : Dict Nat (Option Str)) : Prop :=
  ∀ h e, cache.get? h = some e → e = E h

theorem readFileData_ext (cx : Codecs) (w : WadEntry) (e : Option Str) (file : Bytes) (toc : Option Bytes) :
    readFileData cx { w with ext := e } file toc = readFileData cx w file toc := rfl

theorem guessExtension_ne_nil (cx : Codecs) (d : Bytes) : guessExtension cx d ≠ some [] := by
  unfold guessExtension
  have key : ∀ t : List (Matcher × Str), (∀ me ∈ t, me.2 ≠ []) → firstMatch d t ≠ some [] := by
    intro t
    induction t with
    | nil => intro _ h; cases h
    | cons me t ih =>
      intro h
      obtain ⟨m, e⟩ := me
      unfold firstMatch
      split
      · intro h'; cases h'; exact h (m, []) (List.mem_cons_self ..) rfl
      · exact ih fun me hme => h me (List.mem_cons_of_mem _ hme)
  have := key magicTable (by decide +kernel)
  split
  · rename_i e he; rw [← he]; exact this
  · split
    · decide
    · intro h; cases h

/-- The second loop, on entries prepared by the first one. -/
theorem guessLoop_spec (cx : Codecs) (E : Nat → Option Str) (s : WadState) :
    ∀ (ws : List WadEntry) (cache : Dict Nat (Option Str)), CacheOk E cache →
    (∀ w ∈ ws, w.ext = none ∨ noExt w.ext = false) →
    (∀ w ∈ ws, w.ext = none → (∃ r, readFileData cx w s.file s.toc = .ok r) ∧ plainGuess cx s w = E w.pathHash) →
    ∃ c, guessLoop cx s.file s.toc cache ws =
      (c, ws.map (fun w => if noExt w.ext then { w with ext := E w.pathHash } else w), .ok ()) ∧ CacheOk E c
  | [], cache, hc, _, _ => ⟨cache, rfl, hc⟩
  | w :: ws, cache, hc, hprep, hcons => by
    have hp' := fun x hx => hprep x (List.mem_cons_of_mem w hx)
    have hc' := fun x hx => hcons x (List.mem_cons_of_mem w hx)
    unfold guessLoop
    rcases hprep w (List.mem_cons_self ..) with hw | hw
    · have hn : noExt w.ext = true := by rw [hw]; rfl
      obtain ⟨⟨r, hr⟩, hg⟩ := hcons w (List.mem_cons_self ..) hw
      simp only [hn, if_true, List.map_cons, hr]
      unfold plainGuess at hg
      rw [hr] at hg
      have keep : (∃ c, ((guessLoop cx s.file s.toc cache ws).1, w :: (guessLoop cx s.file s.toc cache ws).2.1,
          (guessLoop cx s.file s.toc cache ws).2.2) = (c, { w with ext := E w.pathHash } ::
            ws.map (fun w => if noExt w.ext then { w with ext := E w.pathHash } else w), .ok ()) ∧ CacheOk E c) ∨
          E w.pathHash ≠ none := by
        by_cases hE : E w.pathHash = none
        · left
          obtain ⟨c, h1, h2⟩ := guessLoop_spec cx E s ws cache hc hp' hc'
          refine ⟨c, ?_, h2⟩
          rw [h1, hE]
          simp only [Prod.mk.injEq, List.cons.injEq, true_and, and_true]
          cases w; simp_all
        · right; exact hE
      rcases r with _ | d
      · simp only at hg ⊢
        rcases keep with h | h
        · exact h
        · exact absurd hg.symm h
      · by_cases hd : d = []
        · subst hd
          simp only [if_true, List.isEmpty_nil] at hg ⊢
          rcases keep with h | h
          · exact h
          · exact absurd hg.symm h
        · simp only [if_neg hd] at hg
          have hde : d.isEmpty = false := by simpa [List.isEmpty_iff] using hd
          simp only [hde, Bool.false_eq_true, if_false, hg]
          have hc2 : CacheOk E (cache.set w.pathHash (E w.pathHash)) := by
            intro h e he
            rw [Dict.get?_set] at he
            split at he
            · rename_i hh; cases he; rw [hh]
            · exact hc h e he
          obtain ⟨c, h1, h2⟩ := guessLoop_spec cx E s ws _ hc2 hp' hc'
          exact ⟨c, by rw [h1], h2⟩
    · simp only [hw, Bool.false_eq_true, if_false, List.map_cons]
      obtain ⟨c, h1, h2⟩ := guessLoop_spec cx E s ws cache hc hp' hc'
      exact ⟨c, by rw [h1], h2⟩

/-- One WAD: starting from a cache with right extensions, the entries get the same extensions as without
cache, no error is raised, and the cache only holds right extensions afterwards. -/
theorem C16_wad (cx : Codecs) (E : Nat → Option Str) (s : WadState) (cache : Dict Nat (Option Str))
    (hc : CacheOk E cache) (hs : Consistent cx E s) :
    ∃ c, guessExtensions cx s.file s.toc cache s.files = (c, plainFiles cx s, .ok ()) ∧ CacheOk E c := by
  have hplain : plainFiles cx s = s.files.map fun w => if noExt w.ext then { w with ext := E w.pathHash } else w := by
    unfold plainFiles
    apply List.map_congr_left
    intro w hw
    by_cases h : noExt w.ext = true
    · rw [if_pos h, if_pos h, (hs w hw (noExt_iff.1 h)).2]
    · rw [if_neg h, if_neg h]
  have hE : ∀ w ∈ s.files, UnknownExt w → E w.pathHash ≠ some [] := by
    intro w hw hu
    rw [← (hs w hw hu).2]
    unfold plainGuess
    split
    · split
      · intro h; cases h
      · exact guessExtension_ne_nil cx _
    · intro h; cases h
  -- an entry after the first loop
  have hfirst : ∀ w ∈ s.files, (extsFromCache cache w = w ∧ noExt w.ext = false) ∨
      (noExt w.ext = true ∧ extsFromCache cache w = { w with ext := E w.pathHash } ∧ noExt (E w.pathHash) = false) ∨
      (noExt w.ext = true ∧ extsFromCache cache w = { w with ext := none }) := by
    intro w hw
    unfold extsFromCache
    by_cases h : noExt w.ext = true
    · right
      rw [if_pos h]
      rcases hg : cache.get? w.pathHash with _ | e
      · right; exact ⟨h, rfl⟩
      · have he := hc _ _ hg
        subst he
        have := hE w hw (noExt_iff.1 h)
        rcases hEw : E w.pathHash with _ | x
        · right; exact ⟨h, by simp [Option.join]⟩
        · left
          refine ⟨h, by simp [Option.join], ?_⟩
          rw [hEw] at this
          rcases x with _ | ⟨a, b⟩
          · exact absurd rfl this
          · rfl
    · left; rw [if_neg h]; exact ⟨rfl, by simpa using h⟩
  unfold guessExtensions
  simp only
  split
  · rename_i hall
    refine ⟨cache, ?_, hc⟩
    simp only [Prod.mk.injEq, and_true, true_and]
    rw [hplain]
    apply List.map_congr_left
    intro w hw
    rw [List.all_eq_true] at hall
    have := hall _ (List.mem_map.2 ⟨w, hw, rfl⟩)
    rcases hfirst w hw with ⟨h1, h2⟩ | ⟨h1, h2, h3⟩ | ⟨h1, h2⟩
    · rw [h1, if_neg (by simp [h2])]
    · rw [h2, if_pos h1]
    · rw [h2] at this; simp [noExt] at this
  · obtain ⟨c, h1, h2⟩ := guessLoop_spec cx E s (s.files.map (extsFromCache cache)) cache hc
      (by
        intro w' hw'
        obtain ⟨w, hw, rfl⟩ := List.mem_map.1 hw'
        rcases hfirst w hw with ⟨h1, h2⟩ | ⟨h1, h2, h3⟩ | ⟨h1, h2⟩
        · right; rw [h1]; exact h2
        · right; rw [h2]; exact h3
        · left; rw [h2])
      (by
        intro w' hw' hn
        obtain ⟨w, hw, rfl⟩ := List.mem_map.1 hw'
        rcases hfirst w hw with ⟨h1, h2⟩ | ⟨h1, h2, h3⟩ | ⟨h1, h2⟩
        · rw [h1] at hn; rw [hn] at h2; cases h2
        · rw [h2] at hn; simp only at hn; rw [hn] at h3; cases h3
        · rw [h2]; exact hs w hw (noExt_iff.1 h1))
    refine ⟨c, ?_, h2⟩
    rw [h1, hplain, List.map_map]
    simp only [Prod.mk.injEq, and_true, true_and]
    apply List.map_congr_left
    intro w hw
    simp only [Function.comp]
    rcases hfirst w hw with ⟨h1, h2⟩ | ⟨h1, h2, h3⟩ | ⟨h1, h2⟩
    · rw [h1]
    · rw [h2, if_pos h1]; simp [h3]
    · rw [h2, if_pos h1]; rfl

/-- Processing WADs one after the other, sharing the cache. -/
def guessAll (cx : Codecs) : Dict Nat (Option Str) → List WadState → List (List WadEntry × Res Unit)
  | _, [] => []
  | cache, s :: ss =>
    let (c, files, r) := guessExtensions cx s.file s.toc cache s.files
    (files, r) :: guessAll cx c ss

/-- Any sequence of WADs: the extensions are the same as without cache, for each WAD. -/
theorem C16_sequence (cx : Codecs) (E : Nat → Option Str) (wads : List WadState)
    (h : ∀ s ∈ wads, Consistent cx E s) (cache : Dict Nat (Option Str)) (hc : CacheOk E cache) :
    guessAll cx cache wads = wads.map fun s => (plainFiles cx s, .ok ()) := by
  induction wads generalizing cache with
  | nil => rfl
  | cons s ss ih =>
    obtain ⟨c, h1, h2⟩ := C16_wad cx E s cache hc (h s (List.mem_cons_self ..))
    unfold guessAll
    rw [h1]
    simp only [List.map_cons]
    rw [ih (fun s hs => h s (List.mem_cons_of_mem _ hs)) c h2]

/-- In a process, the cache starts empty. -/
theorem C16_process (cx : Codecs) (E : Nat → Option Str) (wads : List WadState)
    (h : ∀ s ∈ wads, Consistent cx E s) :
    guessAll cx [] wads = wads.map fun s => (plainFiles cx s, .ok ()) :=
  C16_sequence cx E wads h [] (fun _ _ h => by cases h)

/-- Known extensions are never changed, whatever the cache, even when an error is raised; entries stay in
order and only extensions change. -/
theorem C16_known (cx : Codecs) (s : WadState) (cache : Dict Nat (Option Str)) :
    List.Forall₂ (fun w w' => (¬ UnknownExt w → w' = w) ∧ ∃ e, w' = { w with ext := e })
      s.files (guessExtensions cx s.file s.toc cache s.files).2.1 := by
  have keep : ∀ w : WadEntry, ∃ e, w = { w with ext := e } := fun w => ⟨w.ext, rfl⟩
  have hloop : ∀ (ws : List WadEntry) (cache : Dict Nat (Option Str)),
      List.Forall₂ (fun w w' => (¬ UnknownExt w → w' = w) ∧ ∃ e, w' = { w with ext := e })
        ws (guessLoop cx s.file s.toc cache ws).2.1 := by
    intro ws
    induction ws with
    | nil => intro _; exact .nil
    | cons w ws ih =>
      intro cache
      have hrefl : ∀ ws : List WadEntry, List.Forall₂ (fun w w' => (¬ UnknownExt w → w' = w) ∧
          ∃ e, w' = { w with ext := e }) ws ws := by
        intro ws
        induction ws with
        | nil => exact .nil
        | cons w ws ih => exact .cons ⟨fun _ => rfl, keep w⟩ ih
      unfold guessLoop
      split
      · rename_i hn
        rcases readFileData cx w s.file s.toc with e | _ | d
        · exact hrefl _
        · exact .cons ⟨fun _ => rfl, keep w⟩ (ih cache)
        · simp only
          split
          · exact .cons ⟨fun _ => rfl, keep w⟩ (ih cache)
          · exact .cons ⟨fun h => absurd (noExt_iff.1 hn) h, ⟨_, rfl⟩⟩ (ih _)
      · exact .cons ⟨fun _ => rfl, keep w⟩ (ih cache)
  have hmap : List.Forall₂ (fun w w' => (¬ UnknownExt w → w' = w ∧ ¬ UnknownExt w') ∧ ∃ e, w' = { w with ext := e })
      s.files (s.files.map (extsFromCache cache)) := by
    induction s.files with
    | nil => exact .nil
    | cons w ws ih =>
      refine .cons ⟨fun h => ?_, ?_⟩ ih
      · unfold extsFromCache
        rw [if_neg (fun h' => h (noExt_iff.1 h'))]
        exact ⟨rfl, h⟩
      · unfold extsFromCache
        split
        · exact ⟨_, rfl⟩
        · exact keep w
  unfold guessExtensions
  simp only
  split
  · exact hmap.imp fun w w' h => ⟨fun hu => (h.1 hu).1, h.2⟩
  · have h2 := hloop (s.files.map (extsFromCache cache)) cache
    revert h2 hmap
    generalize (guessLoop cx s.file s.toc cache (s.files.map (extsFromCache cache))).2.1 = out
    generalize s.files.map (extsFromCache cache) = mid
    generalize s.files = files
    intro h1 h2
    induction h1 generalizing out with
    | nil => cases h2; exact .nil
    | cons hab _ ih =>
      cases h2 with
      | cons hbc h2 =>
        refine .cons ⟨fun hu => ?_, ?_⟩ (ih _ h2)
        · rw [hbc.1 (hab.1 hu).2, (hab.1 hu).1]
        · obtain ⟨e, rfl⟩ := hab.2
          obtain ⟨e', rfl⟩ := hbc.2
          exact ⟨e', rfl⟩

/-- Boundary: when the same hash has different data in two WADs, the first WAD seen decides. -/
theorem C16_first_wins (cx : Codecs) (s : WadState) (cache : Dict Nat (Option Str)) (w : WadEntry) (e : Str)
    (he : cache.get? w.pathHash = some (some e)) (hne : e ≠ []) (hw : UnknownExt w) (hs : s.files = [w]) :
    (guessExtensions cx s.file s.toc cache s.files).2 = ([{ w with ext := some e }], .ok ()) := by
  unfold guessExtensions
  rw [hs]
  have : extsFromCache cache w = { w with ext := some e } := by
    unfold extsFromCache
    rw [if_pos (noExt_iff.2 hw), he]; rfl
  simp only [List.map_cons, List.map_nil, this, List.all_cons, List.all_nil]
  have : noExt (some e) = false := by simpa [noExt] using hne
  simp [this]

/-- Non-vacuity: two WADs sharing a hash. -/
example :
    let cx : Codecs := { gunzip := .ok, unzstd := .ok, xxh3 := leNat, isJson := fun _ => false }
    let w (h off : Nat) : WadEntry := wadEntry h off 4 4 0 false none none
    let s1 : WadState := ⟨asc "PROPDDS xxxx", none, [w 1 0, w 2 4]⟩
    let s2 : WadState := ⟨asc "OggSPTCHxxxx", none, [w 3 0, w 1 4, w 4 8]⟩
    let E (h : Nat) : Option Str := if h = 1 then some "bin".toList else if h = 2 then some "dds".toList
      else if h = 3 then some "ogg".toList else none
    (∀ s ∈ [s1, s2], ∀ w ∈ s.files, plainGuess cx s w = E w.pathHash) ∧
    (guessAll cx [] [s1, s2]).map (fun fr => fr.1.map (·.ext)) =
      [[some "bin".toList, some "dds".toList], [some "ogg".toList, some "bin".toList, none]] := by decide +kernel

/-! ## Cases that meet the hypotheses -/

/-- `C16_first_wins`: the extension found for another WAD is used, whatever the data -/
example :
    let cx : Codecs := { gunzip := .ok, unzstd := .ok, xxh3 := leNat, isJson := fun _ => false }
    (guessExtensions cx (asc "OggS") none [(7, some "bin".toList)] [wadEntry 7 0 4 4 0 false none none]).2.1.map (·.ext) = [some "bin".toList] ∧
    (guessExtensions cx (asc "OggS") none [] [wadEntry 7 0 4 4 0 false none none]).2.1.map (·.ext) = [some "ogg".toList] := by decide +kernel

end Cdtb
