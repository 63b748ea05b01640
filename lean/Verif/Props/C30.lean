import Verif.Model.Export
import Mathlib.Data.List.Nodup
import Mathlib.Data.List.TakeWhile
/-!
# C30 Updating an export directory pairs each patch with the next older one
-/
namespace Cdtb
set_option autoImplicit false
open Py

/-! ## Specification -/

/-- Patches are read from the newest, until one is older than `first`. -/
def notOlder (first : Option Version) (p : Patch) : Bool :=
  match first with
  | none => true
  | some f => decide (p.version.cmp .lt f = .ok false)

/-- Patches that are read -/
def scanned (first : Option Version) (stored : List Patch) : List Patch := stored.takeWhile (notOlder first)

/-- The versions of the subdirectories -/
def IsDirVersion (dirs : List Str) (s : Str) : Prop := ∃ name ∈ dirs, ∃ v, patchVersion (.str name) = .ok v ∧ v.s = s

/-- A directory name that is read as a version, or ignored -/
def CleanName (name : Str) : Prop :=
  (∃ v, patchVersion (.str name) = .ok v) ∨ patchVersion (.str name) = .error .value ∨ patchVersion (.str name) = .error .type

theorem dirVersions_spec (dirs : List Str) (h : ∀ n ∈ dirs, CleanName n) :
    ∃ vs, dirVersions dirs = .ok vs ∧ vs.Nodup ∧ ∀ s, s ∈ vs ↔ IsDirVersion dirs s := by
  induction dirs with
  | nil => exact ⟨[], rfl, by simp, by simp [IsDirVersion]⟩
  | cons n dirs ih =>
    obtain ⟨vs, h1, h2, h3⟩ := ih (fun m hm => h m (by simp [hm]))
    have hiff : ∀ s, IsDirVersion (n :: dirs) s ↔ (∃ v, patchVersion (.str n) = .ok v ∧ v.s = s) ∨ IsDirVersion dirs s := by
      intro s; unfold IsDirVersion; simp
    rcases h n (by simp) with ⟨v, hv⟩ | hv | hv
    · refine ⟨v.s :: vs.filter (fun s => decide (s ≠ v.s)), ?_, ?_, ?_⟩
      · rw [dirVersions, hv]; simp only [h1, bind, Except.bind, pure, Except.pure]
      · rw [List.nodup_cons]
        exact ⟨by simp, h2.filter _⟩
      · intro s
        rw [hiff, ← h3, List.mem_cons, List.mem_filter, decide_eq_true_eq]
        constructor
        · rintro (rfl | ⟨h, _⟩)
          · exact .inl ⟨v, hv, rfl⟩
          · exact .inr h
        · rintro (⟨v', hv', rfl⟩ | h)
          · rw [hv] at hv'; cases hv'; exact .inl rfl
          · by_cases e : s = v.s
            · exact .inl e
            · exact .inr ⟨h, e⟩
    · refine ⟨vs, ?_, h2, ?_⟩
      · rw [dirVersions, hv]; simp only [h1]
      · intro s
        rw [hiff, ← h3]
        constructor
        · exact .inr
        · rintro (⟨v', hv', rfl⟩ | h)
          · rw [hv] at hv'; cases hv'
          · exact h
    · refine ⟨vs, ?_, h2, ?_⟩
      · rw [dirVersions, hv]; simp only [h1]
      · intro s
        rw [hiff, ← h3]
        constructor
        · exact .inr
        · rintro (⟨v', hv', rfl⟩ | h)
          · rw [hv] at hv'; cases hv'
          · exact h

theorem selectPatches_spec (first : Option Version) (stored : List Patch)
    (hcmp : ∀ f ∈ first, ∀ p ∈ stored, ∃ b, p.version.cmp .lt f = .ok b) (hn : (stored.map (·.version.s)).Nodup) (vs : List Str)
    (hvs : vs ≠ []) (hnv : vs.Nodup) :
    ((∀ v ∈ vs, ∃ p ∈ scanned first stored, p.version.s = v) ∨ scanned first stored ≠ stored →
      selectPatches first stored vs = .ok ((scanned first stored).filter (fun p => decide (p.version.s ∈ vs)))) ∧
    (¬ (∀ v ∈ vs, ∃ p ∈ scanned first stored, p.version.s = v) → scanned first stored = stored →
      selectPatches first stored vs = .error .value) := by
  induction stored generalizing vs with
  | nil =>
    constructor
    · rintro (h | h)
      · obtain ⟨v, hv⟩ := List.exists_mem_of_ne_nil vs hvs
        obtain ⟨p, hp, _⟩ := h v hv
        simp [scanned] at hp
      · exact absurd rfl h
    · intro _ _; rfl
  | cons p ps ih =>
    rw [List.map_cons, List.nodup_cons] at hn
    have ih' := ih (fun f hf q hq => hcmp f hf q (by simp [hq])) hn.2
    have hstop : ∃ b, stopScan first p = .ok b ∧ notOlder first p = !b := by
      rcases first with _ | f
      · exact ⟨false, rfl, rfl⟩
      · obtain ⟨b, hb⟩ := hcmp f rfl p (by simp)
        refine ⟨b, hb, ?_⟩
        simp only [notOlder, hb]
        cases b <;> decide
    obtain ⟨b, hb, hno⟩ := hstop
    rw [selectPatches]
    simp only [hb, bind, Except.bind]
    cases b with
    | true =>
      have hs : scanned first (p :: ps) = [] := by
        unfold scanned; rw [List.takeWhile_cons, hno]; rfl
      rw [hs]
      constructor
      · intro _; rfl
      · intro _ h; cases h
    | false =>
      have hs : scanned first (p :: ps) = p :: scanned first ps := by
        unfold scanned; rw [List.takeWhile_cons, hno]; rfl
      have hsub : ∀ q ∈ scanned first ps, q ∈ ps := fun q hq => (List.takeWhile_prefix _).subset hq
      rw [hs]
      simp only [Bool.false_eq_true, if_false]
      by_cases hm : p.version.s ∈ vs
      · rw [if_pos hm]
        have hne : ∀ q ∈ scanned first ps, q.version.s ≠ p.version.s := by
          intro q hq e
          exact hn.1 (List.mem_map.2 ⟨q, hsub q hq, e⟩)
        have hfilter : (scanned first ps).filter (fun q => decide (q.version.s ∈ vs)) =
            (scanned first ps).filter (fun q => decide (q.version.s ∈ vs.erase p.version.s)) := by
          apply List.filter_congr
          intro q hq
          rw [decide_eq_decide, hnv.mem_erase_iff]
          exact ⟨fun h => ⟨hne q hq, h⟩, fun h => h.2⟩
        rw [List.filter_cons, if_pos (decide_eq_true hm), hfilter]
        by_cases he : (vs.erase p.version.s).isEmpty = true
        · rw [if_pos he]
          rw [List.isEmpty_iff.1 he]
          have hall : ∀ v ∈ vs, v = p.version.s := by
            intro v hv
            by_contra hv'
            have := (hnv.mem_erase_iff (b := p.version.s)).2 ⟨hv', hv⟩
            rw [List.isEmpty_iff.1 he] at this; cases this
          constructor
          · intro _
            simp [pure, Except.pure]
          · intro h _
            exact absurd (fun v hv => ⟨p, by simp, (hall v hv).symm⟩) h
        · rw [if_neg he]
          have hne' : vs.erase p.version.s ≠ [] := fun h => he (by rw [h]; rfl)
          obtain ⟨i1, i2⟩ := ih' (vs.erase p.version.s) hne' (hnv.erase _)
          have hcond : (∀ v ∈ vs, ∃ q ∈ p :: scanned first ps, q.version.s = v) ↔
              ∀ v ∈ vs.erase p.version.s, ∃ q ∈ scanned first ps, q.version.s = v := by
            constructor
            · intro h v hv
              obtain ⟨h1, h2⟩ := hnv.mem_erase_iff.1 hv
              obtain ⟨q, hq, e⟩ := h v h2
              rcases List.mem_cons.1 hq with rfl | hq
              · exact absurd e.symm h1
              · exact ⟨q, hq, e⟩
            · intro h v hv
              by_cases e : v = p.version.s
              · exact ⟨p, by simp, e.symm⟩
              · obtain ⟨q, hq, e'⟩ := h v (hnv.mem_erase_iff.2 ⟨e, hv⟩)
                exact ⟨q, by simp [hq], e'⟩
          rw [hcond]
          constructor
          · intro h
            rw [i1 (h.imp id (fun h' e => h' (by rw [e])))]
            rfl
          · intro h1 h2
            rw [i2 h1 (List.cons.inj h2).2]
      · rw [if_neg hm, List.filter_cons, if_neg (fun h => hm (of_decide_eq_true h))]
        obtain ⟨i1, i2⟩ := ih' vs hvs hnv
        have hcond : (∀ v ∈ vs, ∃ q ∈ p :: scanned first ps, q.version.s = v) ↔
            ∀ v ∈ vs, ∃ q ∈ scanned first ps, q.version.s = v := by
          constructor
          · intro h v hv
            obtain ⟨q, hq, e⟩ := h v hv
            rcases List.mem_cons.1 hq with rfl | hq
            · exact absurd (e ▸ hv) hm
            · exact ⟨q, hq, e⟩
          · intro h v hv
            obtain ⟨q, hq, e'⟩ := h v hv
            exact ⟨q, by simp [hq], e'⟩
        rw [hcond]
        exact ⟨fun h => i1 (h.imp id (fun h' e => h' (by rw [e]))), fun h1 h2 => i2 h1 (List.cons.inj h2).2⟩

theorem withPrevious_fst (l : List Patch) : (withPrevious l).map (·.1) = l := by
  induction l with
  | nil => rfl
  | cons p l ih => rw [withPrevious, List.map_cons, ih]

theorem withPrevious_snd (l : List Patch) : ((withPrevious l).map (·.2)).reverse = (none :: (l.map some).reverse).dropLast := by
  have : ∀ p l, (withPrevious (p :: l)).map (·.2) = (l.map some) ++ [none] := by
    intro p l
    induction l generalizing p with
    | nil => rfl
    | cons q l ih =>
      rw [withPrevious, List.map_cons, ih]; rfl
  rcases l with _ | ⟨p, l⟩
  · rfl
  · rw [this, List.reverse_append, List.map_cons, List.reverse_cons (a := some p)]
    rw [show none :: ((l.map some).reverse ++ [some p]) = (none :: (l.map some).reverse) ++ [some p] from rfl,
      List.dropLast_concat]
    rfl

/-- The exporter of one patch -/
def mkExp (output : Str) (symlinks : Option Bool) (pp : Patch × Option Patch) : PatchExporter :=
  ⟨pjoin output pp.1.version.s, pp.1, pp.2, pp.2.isSome && symlinks.getD true⟩

theorem mapM_mkExp (output : Str) (symlinks : Option Bool) (l : List (Patch × Option Patch)) :
    l.mapM (fun pp => mkPatchExporter (pjoin output pp.1.version.s) pp.1 pp.2 (if pp.2.isSome then symlinks else some false)) =
      .ok (l.map (mkExp output symlinks)) := by
  induction l with
  | nil => rfl
  | cons pp l ih =>
    rw [List.mapM_cons, ih]
    have : mkPatchExporter (pjoin output pp.1.version.s) pp.1 pp.2 (if pp.2.isSome then symlinks else some false) = .ok (mkExp output symlinks pp) := by
      obtain ⟨p, q⟩ := pp
      rcases q with _ | q
      · rfl
      · rcases symlinks with _ | s
        · rfl
        · cases s <;> rfl
    rw [this]
    rfl

/-- Exporters are returned from the oldest, for the patches of the storage that have a directory and were read, each one with
the one before; it fails when all patches were read and some version was not found.
(Patches of the storage have distinct versions, C07_unique.) -/
theorem C30_directory (dirs : List Str) (stored : List Patch) (output : Str) (first : Option Version) (symlinks : Option Bool)
    (hd : ∀ n ∈ dirs, CleanName n) (hn : (stored.map (·.version.s)).Nodup)
    (hcmp : ∀ f ∈ first, ∀ p ∈ stored, ∃ b, p.version.cmp .lt f = .ok b) :
    ((∀ s, IsDirVersion dirs s → ∃ p ∈ scanned first stored, p.version.s = s) ∨ scanned first stored ≠ stored →
      ∃ es, fromDirectory dirs stored output first symlinks = .ok es ∧
        (∃ sel, sel = es.reverse.map (·.patch) ∧ sel.Sublist stored ∧
          ∀ p, p ∈ sel ↔ p ∈ scanned first stored ∧ IsDirVersion dirs p.version.s) ∧
        es.map (·.prev) = (none :: es.map (fun x => some x.patch)).dropLast ∧
        ∀ x ∈ es, x.output = pjoin output x.patch.version.s ∧ x.symlinks = (x.prev.isSome && symlinks.getD true)) ∧
    (¬ (∀ s, IsDirVersion dirs s → ∃ p ∈ scanned first stored, p.version.s = s) → scanned first stored = stored →
      fromDirectory dirs stored output first symlinks = .error .value) := by
  obtain ⟨vs, hvs, hnd, hmem⟩ := dirVersions_spec dirs hd
  have hcond : (∀ s, IsDirVersion dirs s → ∃ p ∈ scanned first stored, p.version.s = s) ↔
      ∀ v ∈ vs, ∃ p ∈ scanned first stored, p.version.s = v :=
    ⟨fun h v hv => h v ((hmem v).1 hv), fun h v hv => h v ((hmem v).2 hv)⟩
  rw [hcond]
  by_cases he : vs.isEmpty = true
  · have hfd : fromDirectory dirs stored output first symlinks = .ok [] := by
      unfold fromDirectory
      simp only [hvs, bind, Except.bind, he, if_true]
      rfl
    rw [List.isEmpty_iff] at he
    constructor
    · intro _
      refine ⟨[], hfd, ⟨[], rfl, List.nil_sublist _, ?_⟩, rfl, by simp⟩
      intro p
      rw [← hmem, he]; simp
    · intro h
      rw [he] at h
      exact absurd (by simp) h
  · have hne : vs ≠ [] := fun h => he (by rw [h]; rfl)
    obtain ⟨s1, s2⟩ := selectPatches_spec first stored hcmp hn vs hne hnd
    constructor
    · intro h
      have hs := s1 h
      generalize hsel : (scanned first stored).filter (fun p => decide (p.version.s ∈ vs)) = sel at hs
      refine ⟨((withPrevious sel).map (mkExp output symlinks)).reverse, ?_, ⟨sel, ?_, ?_, ?_⟩, ?_, ?_⟩
      · unfold fromDirectory
        simp only [hvs, bind, Except.bind, he, hs, mapM_mkExp]
        rfl
      · rw [List.reverse_reverse, List.map_map]
        exact (withPrevious_fst sel).symm
      · rw [← hsel]
        exact List.filter_sublist.trans (List.takeWhile_prefix _).sublist
      · intro p
        rw [← hsel, List.mem_filter, decide_eq_true_eq, hmem]
      · rw [List.map_reverse, List.map_reverse, List.map_map, List.map_map]
        have h1 := withPrevious_snd sel
        have h2 := withPrevious_fst sel
        show ((withPrevious sel).map (·.2)).reverse = (none :: ((withPrevious sel).map (fun x => some x.1)).reverse).dropLast
        rw [h1]
        congr 3
        conv => lhs; rw [← h2, List.map_map]
        rfl
      · intro x hx
        rw [List.mem_reverse, List.mem_map] at hx
        obtain ⟨pp, _, rfl⟩ := hx
        exact ⟨rfl, rfl⟩
    · intro h1 h2
      unfold fromDirectory
      simp only [hvs, bind, Except.bind, he, s2 h1 h2]
      rfl

/-- A directory whose name is a single number, such as "9", makes it fail: the assertion is not caught. -/
theorem C30_bad_directory (dirs : List Str) (stored : List Patch) (output : Str) (first : Option Version) (symlinks : Option Bool)
    (name : Str) (x : Int) (hname : baseVersion (.str name) = .ok ⟨name, .nums [x]⟩) (hne : name ≠ "main".toList) (hm : name ∈ dirs) :
    fromDirectory dirs stored output first symlinks = .error .assertion := by
  have hp : ∀ n, (∃ e, patchVersion (.str n) = .error e ∧ e ≠ .value ∧ e ≠ .type) → patchVersion (.str n) = .error .assertion := by
    rintro n ⟨e, he, h1, h2⟩
    unfold patchVersion at he ⊢
    split at he
    · cases he
    · next hmain =>
      rw [if_neg hmain]
      rcases hb : baseVersion (.str n) with e' | b
      · rw [hb] at he
        simp only [bind, Except.bind] at he
        cases he
        have : e = .value := by
          unfold baseVersion at hb
          simp only at hb
          split at hb
          · cases hb; rfl
          · rcases hmm : (splitChar '.' n).mapM intOrErr with e2 | t
            · rw [hmm] at hb
              simp only [bind, Except.bind] at hb
              cases hb
              have : ∀ l : List Str, l.mapM intOrErr = .error e → e = .value := by
                intro l
                induction l with
                | nil => intro h; cases h
                | cons a l ih =>
                  intro h
                  rw [List.mapM_cons] at h
                  unfold intOrErr at h
                  rcases hi : int10 a with _ | i
                  · rw [hi] at h; simp only [bind, Except.bind] at h; cases h; rfl
                  · rw [hi] at h; simp only [bind, Except.bind] at h
                    rcases hl : l.mapM intOrErr with e3 | t
                    · exact ih (by
                        unfold intOrErr at hl
                        rw [hl] at h; cases h
                        unfold intOrErr; exact hl)
                    · unfold intOrErr at hl
                      rw [hl] at h; cases h
              exact this _ hmm
            · rw [hmm] at hb
              cases hb
        exact absurd this h1
      · rw [hb] at he
        simp only [bind, Except.bind] at he ⊢
        split at he
        · rfl
        · split at he
          · next h' =>
            split at he
            · cases he
            · next h'' => rw [if_neg h'']
          · rfl
  have hpn : patchVersion (.str name) = .error .assertion := by
    unfold patchVersion
    rw [if_neg (by intro h; cases h; exact hne rfl), hname]
    rfl
  have hdv : dirVersions dirs = .error .assertion := by
    induction dirs with
    | nil => simp at hm
    | cons n dirs ih =>
      by_cases hn : patchVersion (.str n) = .error .assertion
      · rw [dirVersions, hn]
      · have hm' : name ∈ dirs := by
          rcases List.mem_cons.1 hm with rfl | h
          · exact absurd hpn hn
          · exact h
        rw [dirVersions]
        rcases hv : patchVersion (.str n) with e | v
        · by_cases h1 : e = .value
          · subst h1; exact ih hm'
          · by_cases h2 : e = .type
            · subst h2; exact ih hm'
            · exact absurd (hp n ⟨e, hv, h1, h2⟩) hn
        · simp only [ih hm', bind, Except.bind]
  unfold fromDirectory
  simp only [hdv, bind, Except.bind]

/-- With `first` and a "main" patch in the storage, comparing versions fails. -/
theorem C30_main (dirs : List Str) (main : Patch) (stored : List Patch) (output : Str) (f : Version) (symlinks : Option Bool)
    (hd : ∀ n ∈ dirs, CleanName n) (hex : ∃ s, IsDirVersion dirs s) (hm : main.version.t = .main) (t : List Int) (hf : f.t = .nums t) :
    fromDirectory dirs (main :: stored) output (some f) symlinks = .error .type := by
  obtain ⟨vs, hvs, _, hmem⟩ := dirVersions_spec dirs hd
  obtain ⟨s, hs⟩ := hex
  have hne : ¬ vs.isEmpty = true := by
    intro h
    have := (hmem s).2 hs
    rw [List.isEmpty_iff.1 h] at this; cases this
  unfold fromDirectory
  simp only [hvs, bind, Except.bind, hne]
  rw [if_neg (by simp), selectPatches]
  simp only [stopScan, Version.cmp, hm, hf, bind, Except.bind]

/-! Non-vacuity -/
/-- a patch -/
def exPatch (a b : Nat) : Patch := ⟨⟨(toString a ++ "." ++ toString b).toList, .nums [a, b]⟩, []⟩
example : fromDirectory ["9.1".toList, "latest".toList, "9.3".toList] [exPatch 9 3, exPatch 9 2, exPatch 9 1] "out".toList none none =
    .ok [⟨"out/9.1".toList, exPatch 9 1, none, false⟩, ⟨"out/9.3".toList, exPatch 9 3, some (exPatch 9 1), true⟩] := by decide +kernel
example : baseVersion (.str "9".toList) = .ok ⟨"9".toList, .nums [9]⟩ := by decide +kernel
example : CleanName "latest".toList ∧ CleanName "9.1".toList :=
  ⟨.inr (.inl (by decide +kernel)), .inl ⟨⟨"9.1".toList, .nums [9, 1]⟩, by decide +kernel⟩⟩

/-! ## Cases that meet the hypotheses -/

/-- `C30_main`, and the case of directories that are not in the storage -/
example : fromDirectory ["9.1".toList] [⟨⟨"main".toList, .main⟩, []⟩, exPatch 9 1] "out".toList (some ⟨"9.1".toList, .nums [9, 1]⟩) none = .error .type ∧
    fromDirectory ["9.1".toList, "9.2".toList] [exPatch 9 3, exPatch 9 1] "out".toList none none = .error .value := by decide +kernel

end Cdtb
