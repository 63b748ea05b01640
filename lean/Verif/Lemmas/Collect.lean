import Verif.Model.Collect
import Verif.Spec.Collect
import Verif.Lemmas.WadCmd
import Verif.Lemmas.ExportEntry
/-!
# Lemmas on the collection of files to export
-/
namespace Cdtb
set_option autoImplicit false
open Py Spec

theorem isWadFile_iff {src : Str} : (endsWith src ".wad".toList || endsWith src ".wad.client".toList) = true ↔ IsWadFile src := by
  rw [Bool.or_eq_true, endsWith_iff, endsWith_iff]
  rfl

theorem guessFor_ne_nil (cx : Codecs) (d : Bytes) : guessFor cx d ≠ some [] := by
  unfold guessFor
  split
  · intro h; cases h
  · exact guessExtension_ne_nil cx d

theorem dotGuess_dotted (cx : Codecs) (d : Bytes) : dotGuess cx d = dotted (guessFor cx d) := by
  rw [dotGuess_eq]
  rcases hg : guessFor cx d with _ | _ | _
  · rfl
  · exact absurd hg (guessFor_ne_nil cx d)
  · rfl

theorem dotted_inj {a b : Option Str} (h : dotted a = dotted b) : a = b := by
  rcases a with _ | a <;> rcases b with _ | b
  · rfl
  · cases h
  · cases h
  · cases h; rfl

theorem plainGuess_any {cx : Codecs} {file : Bytes} {toc : Option Bytes} {f : WadFormat} {r : WadRecord} {c : Option Bytes} {w : WadEntry}
    {files : List WadEntry} (h : Contains cx file toc f r c) (hw : IsEntry f r w) : plainGuess cx ⟨file, toc, files⟩ w = guessFor cx (c.getD []) := by
  unfold plainGuess guessFor
  rw [contains_readFile h hw]
  cases c <;> rfl

theorem withoutExt_iff {hashes : Dict Int Str} {f : WadFormat} {r : WadRecord} :
    noExt (resolvedEntry hashes f r).ext = true ↔ WithoutExt hashes r := by
  unfold WithoutExt
  cases hg : hashes.get? (r.hash : Int) with
  | none =>
    rw [resolvedEntry_unknown f (fun p h => by rw [KnownAs, hg] at h; cases h)]
    simp only [KnownAs, hg, reduceCtorEq, false_implies, implies_true, iff_true]
    rfl
  | some p =>
    rw [resolvedEntry_known f hg]
    show noExt (some ((splitext p).2.drop 1)) = true ↔ _
    rw [noExt_iff]
    constructor
    · rintro (h | h) p' hp' e he
      · cases h
      · rw [KnownAs, hg] at hp'
        cases hp'
        rw [hasExt_iff] at he
        rw [he] at h
        simpa using h
    · intro h
      right
      by_cases hx : ∃ e, HasExt p e
      · obtain ⟨e, he⟩ := hx
        have := h p hg e he
        rw [hasExt_iff] at he
        rw [he, this]; rfl
      · rw [not_exists, not_hasExt_iff] at hx
        rw [hx]; rfl

/-- The entry of a record, once collected -/
def collectedEntry (cx : Codecs) (hashes : Dict Int Str) (file : Bytes) (toc : Option Bytes) (f : WadFormat) (r : WadRecord) : WadEntry :=
  sanitizePath (guessedEntry cx file toc (resolvedEntry hashes f r))

theorem guessedEntry_isEntry {cx : Codecs} {file : Bytes} {toc : Option Bytes} {f : WadFormat} {r : WadRecord} {w : WadEntry}
    (h : IsEntry f r w) : IsEntry f r (guessedEntry cx file toc w) := by
  obtain ⟨p, e, rfl⟩ := h
  unfold guessedEntry
  split
  · exact ⟨p, _, rfl⟩
  · exact ⟨p, e, rfl⟩

theorem sanitizePath_isEntry {f : WadFormat} {r : WadRecord} {w : WadEntry} (h : IsEntry f r w) : IsEntry f r (sanitizePath w) := by
  obtain ⟨p, e, rfl⟩ := h
  rcases p with _ | p
  · exact ⟨_, _, rfl⟩
  · by_cases hp : p = []
    · subst hp; exact ⟨_, _, rfl⟩
    · rw [sanitizePath_eq _ p rfl hp]
      split
      · exact ⟨_, _, rfl⟩
      · exact ⟨_, _, rfl⟩

theorem collectedEntry_isEntry (cx : Codecs) (hashes : Dict Int Str) (file : Bytes) (toc : Option Bytes) (f : WadFormat) (r : WadRecord) :
    IsEntry f r (collectedEntry cx hashes file toc f r) := sanitizePath_isEntry (guessedEntry_isEntry (resolvedEntry_isEntry hashes f r))

theorem isEntry_hash {f : WadFormat} {r : WadRecord} {w : WadEntry} (h : IsEntry f r w) : w.pathHash = r.hash := by
  obtain ⟨p, e, rfl⟩ := h; rfl

theorem isEntry_type {f : WadFormat} {r : WadRecord} {w : WadEntry} (h : IsEntry f r w) : w.type = r.type := by
  obtain ⟨p, e, rfl⟩ := h; rfl

theorem completed_spec {p g q x : Str} {ge : Option Str} (h : Completed p g q x) (hg : (∀ e, ¬ HasExt p e) → dotted ge = g)
    (hne : (∀ e, ¬ HasExt p e) → ge ≠ some []) : withExt p ge = q ∧ wantedExt p ge = x := by
  rcases h with ⟨rfl, e, he, rfl⟩ | ⟨hn, rfl, rfl⟩
  · rw [hasExt_iff] at he
    unfold withExt wantedExt
    rw [he]
    simp
  · have hg := hg hn
    have hne := hne hn
    rw [not_hasExt_iff] at hn
    have hw : wantedExt p ge = ".cdtb".toList ++ g := by
      unfold wantedExt
      rw [hn, if_neg (by simp), ← hg]
      rcases ge with _ | _ | _
      · rfl
      · exact absurd rfl hne
      · rfl
    refine ⟨?_, hw⟩
    unfold withExt
    rw [hn, if_neg (by simp), hw]

theorem completed_exists (p g : Str) : ∃ q x, Completed p g q x := by
  by_cases h : ∃ e, HasExt p e
  · obtain ⟨e, he⟩ := h
    exact ⟨p, _, Or.inl ⟨rfl, e, he, rfl⟩⟩
  · rw [not_exists] at h
    exact ⟨_, _, Or.inr ⟨h, rfl, rfl⟩⟩

/-- The guessed extension of an entry -/
theorem guessed_ext {cx : Codecs} {hashes : Dict Int Str} {file : Bytes} {toc : Option Bytes} {f : WadFormat} {r : WadRecord} {g : Str}
    (hg : GuessOf cx hashes file toc f r g) (hw : WithoutExt hashes r) :
    dotted (guessedEntry cx file toc (resolvedEntry hashes f r)).ext = g ∧
      (guessedEntry cx file toc (resolvedEntry hashes f r)).ext ≠ some [] := by
  obtain ⟨c, hc, rfl⟩ := hg hw
  unfold guessedEntry
  rw [if_pos (withoutExt_iff.2 hw)]
  show dotted (plainGuess cx ⟨file, toc, []⟩ _) = _ ∧ plainGuess cx ⟨file, toc, []⟩ _ ≠ _
  rw [plainGuess_any hc (resolvedEntry_isEntry hashes f r), dotGuess_dotted]
  exact ⟨rfl, guessFor_ne_nil cx _⟩

theorem guessedEntry_path (cx : Codecs) (file : Bytes) (toc : Option Bytes) (w : WadEntry) : (guessedEntry cx file toc w).path = w.path := by
  unfold guessedEntry
  split <;> rfl

theorem withoutExt_of_no {hashes : Dict Int Str} {r : WadRecord} {p : Str} (hp : KnownAs hashes r p) (h : ∀ e, ¬ HasExt p e) : WithoutExt hashes r := by
  intro p' hp' e he
  rw [KnownAs, show hashes.get? (r.hash : Int) = some p from hp] at hp'
  cases hp'
  exact absurd he (h e)

theorem not_hasExt_nil (e : Str) : ¬ HasExt [] e := by
  rintro ⟨dir, stem, h, -⟩
  have := congrArg List.length h
  simp at this

theorem unresolved_withoutExt {hashes : Dict Int Str} {r : WadRecord} (h : ∀ p, KnownAs hashes r p → p = []) : WithoutExt hashes r := by
  intro p hp e he
  rw [h p hp] at he
  exact absurd he (not_hasExt_nil e)

/-- A file whose path is unknown -/
theorem collectedEntry_unknown {cx : Codecs} {hashes : Dict Int Str} {file : Bytes} {toc : Option Bytes} {f : WadFormat} {r : WadRecord}
    (h : ∀ p, KnownAs hashes r p → p = []) : ((collectedEntry cx hashes file toc f r).path = none ∨ (collectedEntry cx hashes file toc f r).path = some []) ∧
      collectedEntry cx hashes file toc f r = guessedEntry cx file toc (resolvedEntry hashes f r) := by
  have hu : Unresolved (guessedEntry cx file toc (resolvedEntry hashes f r)) := by
    unfold Unresolved
    rw [guessedEntry_path, resolvedEntry_path]
    cases hg : hashes.get? (r.hash : Int) with
    | none => exact Or.inl rfl
    | some p => exact Or.inr (by rw [h p hg])
  have he : collectedEntry cx hashes file toc f r = guessedEntry cx file toc (resolvedEntry hashes f r) := (C13_only_path _).1 hu
  exact ⟨he ▸ hu, he⟩

/-- The names of collected files are those of the specification. -/
theorem exportName_entryName {cx : Codecs} {hashes : Dict Int Str} {file : Bytes} {toc : Option Bytes} {f : WadFormat} {r : WadRecord} {g wp name : Str}
    (hfit : r.hash < 256 ^ 8) (hg : GuessOf cx hashes file toc f r g) (hn : ExportName hashes wp r g name) :
    EntryName wp (collectedEntry cx hashes file toc f r) name := by
  have hfit : r.hash < 2 ^ 64 := by omega
  have hkn : ∀ p, KnownAs hashes r p → p ≠ [] → ∀ q x, Completed p g q x →
      ∃ w : WadEntry, guessedEntry cx file toc (resolvedEntry hashes f r) = w ∧ w.path = some p ∧ w.pathHash = r.hash ∧
        withExt p w.ext = q ∧ wantedExt p w.ext = x := by
    intro p hp hne q x hq
    refine ⟨_, rfl, ?_, ?_, ?_⟩
    · rw [guessedEntry_path, resolvedEntry_path]; exact hp
    · exact isEntry_hash (guessedEntry_isEntry (resolvedEntry_isEntry hashes f r))
    · exact completed_spec hq (fun h => (guessed_ext hg (withoutExt_of_no hp h)).1) (fun h => (guessed_ext hg (withoutExt_of_no hp h)).2)
  unfold collectedEntry
  cases hn with
  | short p q x hp hne hq hlen =>
    obtain ⟨w, hw, h1, h2, h3, h4⟩ := hkn p hp hne _ _ hq
    rw [hw]
    have hs : sanitizePath w = { w with path := some name } := by
      rw [sanitizePath_eq w p h1 hne, h3, if_neg (by omega)]
    rw [hs]
    refine EntryName.known rfl ?_
    rcases hq with ⟨rfl, -⟩ | ⟨-, rfl, rfl⟩
    · exact hne
    · simp [hne]
  | long p q x hex hp hne hq hlen hx hhex =>
    obtain ⟨w, hw, h1, h2, h3, h4⟩ := hkn p hp hne _ _ hq
    rw [hw]
    have hhex' : hexW 16 w.pathHash = hex := by
      rw [h2]; exact (hex16_hexW hfit).unique hhex
    have hs := sanitizePath_eq w p h1 hne
    rw [h3, h4, if_pos hlen, hhex'] at hs
    have hsl : sliceTo (basename q) (250 - 17 - (x.length : Int)) = (basename q).take (233 - x.length) := by
      unfold sliceTo
      rw [if_pos (by omega)]
      congr 1
      omega
    rw [hsl] at hs
    rw [hs]
    refine EntryName.known ?_ ?_
    · simp
    · unfold pjoin
      split
      · simp
      · split <;> simp
  | unknown dir hex hp hd hhex =>
    obtain ⟨h1, h2⟩ := collectedEntry_unknown (cx := cx) (file := file) (toc := toc) (f := f) hp
    obtain ⟨h3, h4⟩ := guessed_ext hg (unresolved_withoutExt hp)
    show EntryName wp (collectedEntry cx hashes file toc f r) _
    refine EntryName.unknown h1 hd ?_ ?_
    · rw [isEntry_hash (collectedEntry_isEntry cx hashes file toc f r)]; exact hhex
    · rw [h2]
      rcases hx : (guessedEntry cx file toc (resolvedEntry hashes f r)).ext with _ | e
      · rw [hx] at h3
        exact Or.inl ⟨Or.inl rfl, h3.symm⟩
      · rw [hx] at h3 h4
        refine Or.inr ⟨e, rfl, ?_, h3.symm⟩
        rintro rfl
        exact h4 rfl

/-- A file whose path is known -/
theorem collectedEntry_known {cx : Codecs} {hashes : Dict Int Str} {file : Bytes} {toc : Option Bytes} {f : WadFormat} {r : WadRecord} {p : Str}
    (hp : KnownAs hashes r p) (hne : p ≠ []) : ∃ s, (collectedEntry cx hashes file toc f r).path = some s ∧ s ≠ [] := by
  unfold collectedEntry
  rw [sanitizePath_eq _ p (by rw [guessedEntry_path, resolvedEntry_path]; exact hp) hne]
  split
  · refine ⟨_, rfl, ?_⟩
    unfold pjoin
    split
    · simp
    · split <;> simp
  · refine ⟨_, rfl, ?_⟩
    unfold withExt
    split <;> simp [hne]

theorem collectedEntry_noPath {cx : Codecs} {hashes : Dict Int Str} {file : Bytes} {toc : Option Bytes} {f : WadFormat} {r : WadRecord} :
    ((collectedEntry cx hashes file toc f r).path = none ∨ (collectedEntry cx hashes file toc f r).path = some []) ↔
      ∀ p, KnownAs hashes r p → p = [] := by
  constructor
  · intro h p hp
    by_contra hne
    obtain ⟨s, hs, hsne⟩ := collectedEntry_known (cx := cx) (file := file) (toc := toc) (f := f) hp hne
    rw [hs] at h
    rcases h with h | h
    · cases h
    · cases h; exact hsne rfl
  · intro h
    exact (collectedEntry_unknown h).1

theorem entryName_exportName {cx : Codecs} {hashes : Dict Int Str} {file : Bytes} {toc : Option Bytes} {f : WadFormat} {r : WadRecord} {g wp name : Str}
    (hfit : r.hash < 256 ^ 8) (hext : ∀ p e, KnownAs hashes r p → HasExt p e → e.length ≤ 232) (hg : GuessOf cx hashes file toc f r g)
    (hn : EntryName wp (collectedEntry cx hashes file toc f r) name) (hgl : g.length ≤ 228) : ExportName hashes wp r g name := by
  have hfit' : r.hash < 2 ^ 64 := by omega
  by_cases hk : ∃ p, KnownAs hashes r p ∧ p ≠ []
  · obtain ⟨p, hp, hne⟩ := hk
    obtain ⟨q, x, hq⟩ := completed_exists p g
    have hex : ∃ name', ExportName hashes wp r g name' := by
      by_cases hl : (basename q).length < 250
      · exact ⟨q, .short p q x hp hne hq hl⟩
      · refine ⟨_, .long p q x (hexW 16 r.hash) hp hne hq (by omega) ?_ (hex16_hexW hfit')⟩
        rcases hq with ⟨-, e, he, rfl⟩ | ⟨-, rfl, -⟩
        · have := hext p e hp he
          simp only [List.length_cons]; omega
        · rw [List.length_append]
          have : ".cdtb".toList.length = 5 := by decide
          omega
    obtain ⟨name', hn'⟩ := hex
    have h1 := exportName_entryName hfit hg hn'
    have hk1 := collectedEntry_known (cx := cx) (file := file) (toc := toc) (f := f) hp hne
    obtain ⟨s, hs, hsne⟩ := hk1
    have key : ∀ n, EntryName wp (collectedEntry cx hashes file toc f r) n → n = s := by
      intro n h
      cases h with
      | known h _ => rw [hs] at h; cases h; rfl
      | unknown h =>
        rw [hs] at h
        rcases h with h | h
        · cases h
        · cases h; exact absurd rfl hsne
    rw [key _ hn, ← key _ h1]
    exact hn'
  · have hp : ∀ p, KnownAs hashes r p → p = [] := by
      intro p hp
      by_contra hne
      exact hk ⟨p, hp, hne⟩
    obtain ⟨h1, h2⟩ := collectedEntry_unknown (cx := cx) (file := file) (toc := toc) (f := f) hp
    obtain ⟨h3, h4⟩ := guessed_ext hg (unresolved_withoutExt hp)
    cases hn with
    | known h hne =>
      rcases h1 with h1 | h1 <;> rw [h1] at h <;> cases h
      exact absurd rfl hne
    | @unknown dir hex ext h hd hhex he =>
      rw [isEntry_hash (collectedEntry_isEntry cx hashes file toc f r)] at hhex
      have : ext = g := by
        rw [h2] at he
        rcases he with ⟨h5 | h5, rfl⟩ | ⟨e, h5, -, rfl⟩
        · rw [h5] at h3; exact h3
        · exact absurd h5 h4
        · rw [h5] at h3; exact h3
      rw [this]
      exact .unknown dir hex hp hd hhex

/-- Guessing and naming the files of an archive -/
theorem guessExtensions_collected {cx : Codecs} {hashes : Dict Int Str} {file : Bytes} {toc : Option Bytes} {f : WadFormat}
    {ext : Nat → Option Str} {cache : Dict Nat (Option Str)} (hc : RightCache ext cache) (rs : List WadRecord)
    (h : ∀ r ∈ rs, WithoutExt hashes r → ∃ c, Contains cx file toc f r c ∧ dotGuess cx (c.getD []) = dotted (ext r.hash)) :
    ∃ c, guessExtensions cx file toc cache (rs.map (resolvedEntry hashes f)) =
      (c, rs.map (fun r => guessedEntry cx file toc (resolvedEntry hashes f r)), .ok ()) ∧ RightCache ext c := by
  obtain ⟨c, h1, h2⟩ := C16_wad cx ext ⟨file, toc, rs.map (resolvedEntry hashes f)⟩ cache hc (by
    intro w hw hu
    obtain ⟨r, hr, rfl⟩ := List.mem_map.1 hw
    obtain ⟨c, hc, hd⟩ := h r hr (withoutExt_iff.1 (noExt_iff.2 hu))
    refine ⟨⟨c, contains_readFile hc (resolvedEntry_isEntry hashes f r)⟩, ?_⟩
    rw [plainGuess_any hc (resolvedEntry_isEntry hashes f r), resolvedEntry_hash]
    rw [dotGuess_dotted] at hd
    exact dotted_inj hd)
  refine ⟨c, ?_, h2⟩
  rw [h1]
  unfold plainFiles
  simp only [List.map_map]
  rfl

/-- The archive collected from a file on disk -/
def collectedWad (cx : Codecs) (dir : Str) (fs : FS) (src : Str) : ExpWad :=
  match commandOpen cx dir fs src none with
  | .ok wad => ⟨src, (wad.files.filter fun f => decide (f.type ≠ 2)).map fun w => sanitizePath (guessedEntry cx wad.file wad.toc w)⟩
  | .error _ => ⟨src, []⟩

theorem filter_resolved (hashes : Dict Int Str) (f : WadFormat) (rs : List WadRecord) :
    (rs.map (resolvedEntry hashes f)).filter (fun w => decide (w.type ≠ 2)) = (rs.filter fun r => decide (r.type ≠ 2)).map (resolvedEntry hashes f) := by
  rw [List.filter_map]
  congr 1
  apply List.filter_congr
  intro r _
  simp only [Function.comp_apply, isEntry_type (resolvedEntry_isEntry hashes f r)]

theorem collectedWad_opens {cx : Codecs} {dir : Str} {fs : FS} {src : Str} {hashes : Dict Int Str} {file : Bytes} {f : WadFormat}
    {version : Nat × Nat} {rs : List WadRecord} {toc : Option Bytes} (h : Opens cx dir fs src none hashes file f version rs toc) :
    collectedWad cx dir fs src = ⟨src, (rs.filter fun r => decide (r.type ≠ 2)).map (collectedEntry cx hashes file toc f)⟩ := by
  unfold collectedWad
  rw [commandOpen_opens h]
  simp only
  rw [filter_resolved, List.map_map]
  rfl

theorem addPath_wad {cx : Codecs} {dir : Str} {fs : FS} {ext : Nat → Option Str} {cache : Dict Nat (Option Str)} (hc : RightCache ext cache)
    {src : Str} (dst : Str) (e : Exporter) (hw : IsWadFile src) (h : ReadableWad cx dir fs ext src) :
    ∃ c, e.addPath cx dir fs cache src dst = .ok (c, { e with wads := e.wads.set dst (collectedWad cx dir fs src) }) ∧ RightCache ext c := by
  obtain ⟨hashes, file, f, version, rs, toc, ho, hr, -⟩ := h
  obtain ⟨c, h1, h2⟩ := guessExtensions_collected (hashes := hashes) (f := f) (file := file) (toc := toc) (cx := cx) hc (rs.filter fun r => decide (r.type ≠ 2)) (by
    intro r hm hn
    obtain ⟨hm, ht⟩ := List.mem_filter.1 hm
    exact hr r hm (by simpa using ht) hn)
  refine ⟨c, ?_, h2⟩
  unfold Exporter.addPath
  rw [if_pos (isWadFile_iff.2 hw), commandOpen_opens ho, collectedWad_opens ho]
  simp only
  rw [filter_resolved, h1]
  simp only [List.map_map]
  rfl

theorem addPath_plain (cx : Codecs) (dir : Str) (fs : FS) (cache : Dict Nat (Option Str)) {src : Str} (dst : Str) (e : Exporter) (hw : ¬ IsWadFile src) :
    e.addPath cx dir fs cache src dst = .ok (cache, { e with plain := e.plain.set dst src }) := by
  unfold Exporter.addPath
  rw [if_neg (fun h => hw (isWadFile_iff.1 h))]

open Classical in
/-- `d[dst] = g(src)` for the pairs of a list whose source satisfies a condition -/
noncomputable def setAll {V : Type} (P : Str → Prop) (g : Str → V) (l : List (Str × Str)) (d : Dict Str V) : Dict Str V :=
  l.foldl (fun d x => if P x.1 then d.set x.2 (g x.1) else d) d

theorem setAll_get {V : Type} (P : Str → Prop) (g : Str → V) (dst : Str) (v : V) : ∀ (l : List (Str × Str)) (d : Dict Str V),
    (setAll P g l d).get? dst = some v ↔
      (∃ src before after, l = before ++ (src, dst) :: after ∧ P src ∧ (∀ x ∈ after, x.2 = dst → ¬ P x.1) ∧ v = g src) ∨
      ((∀ x ∈ l, x.2 = dst → ¬ P x.1) ∧ d.get? dst = some v)
  | [], d => by simp [setAll]
  | x :: l, d => by
    classical
    have ih := setAll_get P g dst v l (if P x.1 then d.set x.2 (g x.1) else d)
    have hu : setAll P g (x :: l) d = setAll P g l (if P x.1 then d.set x.2 (g x.1) else d) := by
      unfold setAll
      rw [List.foldl_cons]
    rw [hu, ih]
    constructor
    · rintro (⟨src, a, b, rfl, h⟩ | ⟨h1, h2⟩)
      · exact Or.inl ⟨src, x :: a, b, rfl, h⟩
      · by_cases hx : P x.1 ∧ x.2 = dst
        · rw [if_pos hx.1, ← hx.2, Dict.get?_set_self] at h2
          cases h2
          exact Or.inl ⟨x.1, [], l, by rw [← hx.2]; rfl, hx.1, h1, rfl⟩
        · right
          refine ⟨?_, ?_⟩
          · intro y hy hd hp
            rcases List.mem_cons.1 hy with rfl | hy
            · exact hx ⟨hp, hd⟩
            · exact h1 y hy hd hp
          · by_cases hp : P x.1
            · rw [if_pos hp, Dict.get?_set_ne _ _ (fun e => hx ⟨hp, e.symm⟩)] at h2
              exact h2
            · rwa [if_neg hp] at h2
    · rintro (⟨src, a, b, h, hp, ha, rfl⟩ | ⟨h1, h2⟩)
      · cases a with
        | nil =>
          cases h
          right
          exact ⟨ha, by rw [if_pos hp, Dict.get?_set_self]⟩
        | cons y a =>
          cases h
          exact Or.inl ⟨src, a, b, rfl, hp, ha, rfl⟩
      · right
        refine ⟨fun y hy => h1 y (List.mem_cons_of_mem _ hy), ?_⟩
        by_cases hp : P x.1
        · rw [if_pos hp, Dict.get?_set_ne _ _ (fun e => h1 x (by simp) e.symm hp)]
          exact h2
        · rwa [if_neg hp]

theorem setAll_WF {V : Type} (P : Str → Prop) (g : Str → V) : ∀ (l : List (Str × Str)) (d : Dict Str V), d.WF → (setAll P g l d).WF
  | [], _, h => h
  | x :: l, d, h => by
    classical
    have hu : setAll P g (x :: l) d = setAll P g l (if P x.1 then d.set x.2 (g x.1) else d) := by
      unfold setAll
      rw [List.foldl_cons]
    rw [hu]
    apply setAll_WF P g l
    split
    · exact h.set _ _
    · exact h

/-- The exporter after the collection of a list of paths -/
theorem addPaths_spec {cx : Codecs} {dir : Str} {fs : FS} {ext : Nat → Option Str} : ∀ (l : List (Str × Str)) (cache : Dict Nat (Option Str)) (e : Exporter),
    RightCache ext cache → (∀ x ∈ l, IsWadFile x.1 → ReadableWad cx dir fs ext x.1) →
    ∃ c, e.addPaths cx dir fs cache l = .ok (c, { e with
        plain := setAll (fun s => ¬ IsWadFile s) id l e.plain
        wads := setAll IsWadFile (collectedWad cx dir fs) l e.wads }) ∧ RightCache ext c
  | [], cache, e, hc, _ => ⟨cache, rfl, hc⟩
  | (src, dst) :: l, cache, e, hc, h => by
    have hl := fun x hx => h x (List.mem_cons_of_mem (src, dst) hx)
    unfold Exporter.addPaths
    by_cases hw : IsWadFile src
    · obtain ⟨c, h1, h2⟩ := addPath_wad hc dst e hw (h (src, dst) (by simp) hw)
      obtain ⟨c', h3, h4⟩ := addPaths_spec l c { e with wads := e.wads.set dst (collectedWad cx dir fs src) } h2 hl
      refine ⟨c', ?_, h4⟩
      rw [h1]
      simp only
      rw [h3]
      simp [setAll, hw]
    · obtain ⟨c', h3, h4⟩ := addPaths_spec l cache { e with plain := e.plain.set dst src } hc hl
      refine ⟨c', ?_, h4⟩
      rw [addPath_plain cx dir fs cache dst e hw]
      simp only
      rw [h3]
      simp [setAll, hw]

end Cdtb
