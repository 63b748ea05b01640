import Verif.Lemmas.ExportFiles
/-! Lemmas on exported files: conversions, and sequences of conversions. -/
namespace Cdtb
set_option autoImplicit false
open Py

/-- The paths of the step have not changed. -/
def OutStep.Same (fs fs' : FS) (s : OutStep) : Prop := ∀ q, s.Own q → fs' q = fs q

theorem OutStep.Same.pre {fs fs' : FS} {s : OutStep} (h : s.Same fs fs') (hp : s.Pre fs) : s.Pre fs' := by
  cases s with
  | file p err body => simp only [OutStep.Pre] at hp ⊢; rw [h p rfl]; exact hp
  | fail e => trivial
  | dir p files =>
    refine ⟨fun b => by rw [h p (Or.inl rfl)]; exact hp.1 b, fun hn n => ?_⟩
    rw [h p (Or.inl rfl)] at hn
    rw [h _ (Or.inr ⟨n, rfl⟩)]; exact hp.2 hn n

theorem OutStep.Same.has {lib : ConvLib} {fs fs' : FS} {s : OutStep} (h : s.Same fs fs') (hp : s.Has lib fs) : s.Has lib fs' := by
  cases s with
  | file p err body => exact ⟨hp.1, by rw [h p rfl]; exact hp.2⟩
  | fail e => exact hp
  | dir p files =>
    obtain ⟨fl, l, h1, h2, h3, h4⟩ := hp
    exact ⟨fl, l, h1, h2, by rw [h p (Or.inl rfl)]; exact h3, fun n => by rw [h _ (Or.inr ⟨n, rfl⟩)]; exact h4 n⟩

theorem OutStep.Same.gone {fs fs' : FS} {s : OutStep} (h : s.Same fs fs') (hp : s.Gone fs) : s.Gone fs' := by
  cases s with
  | file p err body => exact (h p rfl).trans hp
  | fail e => trivial
  | dir p files => exact ⟨(h p (Or.inl rfl)).trans hp.1, fun n => (h _ (Or.inr ⟨n, rfl⟩)).trans (hp.2 n)⟩

theorem OutStep.Same.trans {a b c : FS} {s : OutStep} (h1 : s.Same a b) (h2 : s.Same b c) : s.Same a c := fun q hq => (h2 q hq).trans (h1 q hq)

/-- The paths of a conversion -/
def OwnAll (steps : List OutStep) (q : Str) : Prop := ∃ s ∈ steps, s.Own q

theorem runSteps_touches (lib : ConvLib) (f : Nat → WriteFaults) (steps : List OutStep) (i : Nat) (fs : FS) (hl : ∀ s ∈ steps, s.Local) :
    TouchesOnly (OwnAll steps) fs (runSteps lib f i fs steps).1 := by
  induction steps generalizing i fs with
  | nil => exact TouchesOnly.refl _ _
  | cons s rest ih =>
    have h1 := (s.run_touches lib fs f i (hl s (by simp))).mono (own' := OwnAll (s :: rest)) (fun q hq => ⟨s, by simp, hq⟩)
    simp only [runSteps]
    rcases hr : s.run lib fs f i with ⟨fs', r⟩
    rw [hr] at h1
    cases r with
    | error e => exact h1
    | ok u =>
      refine h1.trans ((ih (i + 1) fs' (fun s hs => hl s (by simp [hs]))).mono ?_)
      rintro q ⟨s, hs, hq⟩
      exact ⟨s, by simp [hs], hq⟩

theorem runSteps_clean (lib : ConvLib) (f : Nat → WriteFaults) (hf : ∀ i, (f i).remove = false) (steps : List OutStep) (i : Nat) (fs : FS)
    (hl : ∀ s ∈ steps, s.Local) (hp : ∀ s ∈ steps, s.Pre fs) (ha : steps.Pairwise fun s t => ApartSets s.Own t.Own) :
    (∀ s ∈ steps, s.Has lib (runSteps lib f i fs steps).1 ∨ s.Gone (runSteps lib f i fs steps).1 ∨ s.Same fs (runSteps lib f i fs steps).1) ∧
    ((runSteps lib f i fs steps).2 = .ok () → ∀ s ∈ steps, s.Has lib (runSteps lib f i fs steps).1) := by
  induction steps generalizing i fs with
  | nil => simp
  | cons s rest ih =>
    have hc := s.run_clean lib fs f hf i (hl s (by simp)) (hp s (by simp))
    have ht := s.run_touches lib fs f i (hl s (by simp))
    rw [List.pairwise_cons] at ha
    simp only [runSteps]
    rcases hr : s.run lib fs f i with ⟨fs', r⟩
    rw [hr] at hc ht
    simp only at ht
    have hsame : ∀ t ∈ rest, t.Same fs fs' := fun t ht' q hq => ht.apart (ha.1 t ht') hq
    cases r with
    | error e =>
      refine ⟨fun t ht' => ?_, by simp⟩
      rcases List.mem_cons.1 ht' with rfl | ht'
      · exact Or.inr (Or.inl hc)
      · exact Or.inr (Or.inr (hsame t ht'))
    | ok u =>
      have hl' : ∀ s ∈ rest, s.Local := fun s hs => hl s (by simp [hs])
      have ih' := ih (i + 1) fs' hl' (fun t ht' => (hsame t ht').pre (hp t (by simp [ht']))) ha.2
      have ht2 := runSteps_touches lib f rest (i + 1) fs' hl'
      have hs2 : s.Same fs' (runSteps lib f (i + 1) fs' rest).1 := by
        intro q hq
        refine ht2.apart (own' := s.Own) ?_ hq
        rintro x y ⟨t, ht', hx⟩ hy
        exact (ha.1 t ht').symm x y hx hy
      have hhas := hs2.has hc
      refine ⟨fun t ht' => ?_, fun hok t ht' => ?_⟩
      · rcases List.mem_cons.1 ht' with rfl | ht'
        · exact Or.inl hhas
        · rcases ih'.1 t ht' with h | h | h
          · exact Or.inl h
          · exact Or.inr (Or.inl h)
          · exact Or.inr (Or.inr ((hsame t ht').trans h))
      · rcases List.mem_cons.1 ht' with rfl | ht'
        · exact hhas
        · exact ih'.2 hok t ht'

theorem runSteps_quiet (lib : ConvLib) (f : Nat → WriteFaults) (hf : ∀ i, (f i).Quiet) (hf' : ∀ i, (f i).remove = false) (steps : List OutStep)
    (i : Nat) (fs : FS) (hl : ∀ s ∈ steps, s.Local) (hp : ∀ s ∈ steps, s.Pre fs) (ho : ∀ s ∈ steps, Open s.Own fs)
    (ha : steps.Pairwise fun s t => ApartSets s.Own t.Own) (he : ∀ s ∈ steps.dropLast, s.err lib = none) :
    (runSteps lib f i fs steps).2 = (match steps.findSome? (·.err lib) with
      | none => .ok ()
      | some e => .error e) ∧
    ∀ s ∈ steps, (s.err lib = none → s.Has lib (runSteps lib f i fs steps).1) ∧ (s.err lib ≠ none → s.Gone (runSteps lib f i fs steps).1) := by
  induction steps generalizing i fs with
  | nil => simp [runSteps]
  | cons s rest ih =>
    have hc := s.run_clean lib fs f hf' i (hl s (by simp)) (hp s (by simp))
    have hq := s.run_quiet lib fs f hf i (hl s (by simp)) (hp s (by simp)) (ho s (by simp))
    have ht := s.run_touches lib fs f i (hl s (by simp))
    rw [List.pairwise_cons] at ha
    simp only [runSteps]
    rcases hr : s.run lib fs f i with ⟨fs', r⟩
    rw [hr] at hc ht hq
    simp only at ht hq
    have hsame : ∀ t ∈ rest, t.Same fs fs' := fun t ht' q hq => ht.apart (ha.1 t ht') hq
    cases hse : s.err lib with
    | some e =>
      rw [hse] at hq
      subst hq
      have hrest : rest = [] := by
        cases rest with
        | nil => rfl
        | cons t rest => have := he s (by simp); rw [hse] at this; simp at this
      subst hrest
      simp only [List.findSome?_cons, hse, List.mem_singleton, forall_eq, true_and]
      exact ⟨by simp, fun _ => hc⟩
    | none =>
      rw [hse] at hq
      subst hq
      have hl' : ∀ s ∈ rest, s.Local := fun s hs => hl s (by simp [hs])
      have hrest : ∀ t ∈ rest.dropLast, t.err lib = none := by
        intro t ht'
        apply he
        cases rest with
        | nil => simp at ht'
        | cons => simp [ht']
      have ih' := ih (i + 1) fs' hl' (fun t ht' => (hsame t ht').pre (hp t (by simp [ht'])))
        (fun t ht' => ht.open_ (ha.1 t ht') (ho t (by simp [ht']))) ha.2 hrest
      have ht2 := runSteps_touches lib f rest (i + 1) fs' hl'
      have hs2 : s.Same fs' (runSteps lib f (i + 1) fs' rest).1 := by
        intro q hq
        refine ht2.apart (own' := s.Own) ?_ hq
        rintro x y ⟨t, ht', hx⟩ hy
        exact (ha.1 t ht').symm x y hx hy
      refine ⟨by simp only [List.findSome?_cons, hse]; exact ih'.1, fun t ht' => ?_⟩
      rcases List.mem_cons.1 ht' with rfl | ht'
      · exact ⟨fun _ => hs2.has hc, fun h => absurd hse h⟩
      · exact ih'.2 t ht'

/-! ### Converted paths -/

theorem pjoin_append (output p x : Str) : pjoin output p ++ x = pjoin output (p ++ x) ∨ p = [] := by
  by_cases hp : p = []
  · exact Or.inr hp
  · left
    obtain ⟨c, p', rfl⟩ := List.exists_cons_of_ne_nil hp
    have hs : startsWith (c :: p' ++ x) ['/'] = startsWith (c :: p') ['/'] := by
      rw [Bool.eq_iff_iff, startsWith_iff, startsWith_iff]
      simp
    unfold Py.pjoin
    rw [hs]
    split
    · rfl
    · split <;> simp

theorem pjoin_slash {output x : Str} (ho : output ≠ []) : '/' ∈ pjoin output x := by
  unfold Py.pjoin
  split
  · rename_i h
    obtain ⟨t, rfl⟩ := startsWith_iff.1 h
    simp
  · split
    · rename_i h
      simp only [Bool.or_eq_true, List.isEmpty_iff, ho, false_or] at h
      obtain ⟨t, rfl⟩ := endsWith_iff.1 h
      simp
    · simp

theorem dirname_nonempty {x : Str} (h : '/' ∈ x) : dirname x ≠ [] := by
  unfold dirname psplit
  cases hs : rsplit1 '/' x with
  | none => exact absurd h (rsplit1_eq_none.1 hs)
  | some db =>
    obtain ⟨d, b⟩ := db
    simp only
    split
    · simp
    · rename_i hc
      intro he
      obtain ⟨k, hk⟩ := rstripChar_split '/' (d ++ ['/'])
      simp only at he
      rw [he] at hk
      apply hc
      rw [hk]
      simp

theorem Spec.Named.stem {p : Str} (h : Spec.Named p) : Spec.Named (splitext p).1 := by
  rcases splitext_cases p with hs | ⟨dir, stem, ext, rfl, hd, hs, -, -, ⟨c, hc, -⟩, he⟩
  · rw [hs]; exact h
  · rw [he]
    refine Spec.Named.append ?_
    rcases List.eq_nil_or_concat stem with rfl | ⟨q, c, rfl⟩
    · simp at hc
    · refine ⟨q, c, by simp, ?_⟩
      rintro rfl
      simp at hs

theorem apart_ext {x t : Str} {c : Char} (h : Spec.Named x) (hc : c ≠ '/') (ht : Spec.Named (c :: t)) :
    ApartSets (· = x ++ c :: t) (fun q => q = x ∨ ∃ n, q = x ++ '/' :: n) := by
  have key : ∀ r s : Str, x ++ c :: r ≠ x ++ '/' :: s := by
    intro r s he
    rw [List.append_cancel_left_eq] at he
    exact hc (List.cons.inj he).1
  rintro _ y rfl (rfl | ⟨n, rfl⟩)
  · refine ⟨?_, ?_, ?_⟩
    · intro he; have := congrArg List.length he; simp at this
    · rintro (hr | ⟨r, hr⟩)
      · exact ht.append.not_root hr
      · have := congrArg List.length hr; simp at this
    · rintro (hr | ⟨r, hr⟩)
      · exact h.not_root hr
      · exact key _ _ hr
  · refine ⟨key _ _, ?_, ?_⟩
    · rintro (hr | ⟨r, hr⟩)
      · exact ht.append.not_root hr
      · simp only [List.append_assoc, List.cons_append] at hr
        exact key _ _ hr.symm
    · rintro (hr | ⟨r, hr⟩)
      · exact h.not_root (fun c hc => hr c (by simp [hc]))
      · simp only [List.append_assoc, List.cons_append] at hr
        exact key _ _ hr

end Cdtb
