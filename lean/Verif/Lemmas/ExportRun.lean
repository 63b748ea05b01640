import Verif.Lemmas.ExportConvert
/-! Lemmas on exported files: files, and all the files of an exporter. -/
namespace Cdtb
set_option autoImplicit false
open Py

variable {lib : ConvLib}

theorem fileOf_unique {fl : List (Str × Res Str)} {l l' : List (Str × Bytes)} (h : List.Forall₂ (FileOf lib) fl l)
    (h' : List.Forall₂ (FileOf lib) fl l') : l = l' := by
  induction h generalizing l' with
  | nil => cases h'; rfl
  | cons hx _ ih =>
    cases h' with
    | cons hx' hr' =>
      obtain ⟨h1, t, h2, h3⟩ := hx
      obtain ⟨h1', t', h2', h3'⟩ := hx'
      rw [h2] at h2'
      cases h2'
      rw [ih hr']
      congr 1
      exact Prod.ext (h1.trans h1'.symm) ((writes_iff.1 h3).2.trans (writes_iff.1 h3').2.symm)

theorem clean_free {output : Str} {fs : FS} {c : Converter} {p : Str} {d : Bytes} (hp : Spec.Ordinary c p)
    (h : Spec.CleanFile lib output fs c p d) : Spec.Free output fs c p := by
  intro o ho
  rcases stepOf (lib := lib) output d hp ho with ⟨err, body, -, ht, hr⟩ | ⟨files, -, ht, hr⟩ | ⟨-, ht, hr, -⟩
  · refine ⟨fun _ => ?_, fun h => absurd h ht⟩
    rcases h o ho with h | ⟨r, h1, h2⟩
    · rw [h.1]; simp
    · obtain ⟨b, rfl, -⟩ := (hr r).1 h1
      rw [h2]; simp
  · refine ⟨fun h => absurd ht h, fun _ => ?_⟩
    rcases h o ho with h | ⟨r, h1, h2⟩
    · exact ⟨by simp [h.1], fun _ => h.2 ht⟩
    · obtain ⟨fl, l, rfl, -⟩ := (hr r).1 h1
      exact ⟨by simp [h2.1], by simp [h2.1]⟩
  · refine ⟨fun _ => ?_, fun h => absurd h ht⟩
    rcases h o ho with h | ⟨r, h1, h2⟩
    · rw [h.1]; simp
    · exact absurd h1 (hr r)

theorem free_pre {output : Str} {fs : FS} {c : Converter} {p : Str} {d : Bytes} (hp : Spec.Ordinary c p) (h : Spec.Free output fs c p) :
    ∀ s ∈ c.steps lib output p d, s.Pre fs := by
  intro s hs
  have := stepPath output d hp hs
  cases s with
  | file x err body =>
    obtain ⟨o, ho, rfl, ht⟩ := this
    exact (h o ho).1 ht
  | fail e => trivial
  | dir x files =>
    obtain ⟨o, ho, rfl, ht⟩ := this
    exact (h o ho).2 ht

theorem dirOf_child {q x n : Str} (h : Spec.DirOf q (x ++ '/' :: n)) : Spec.DirOf q x ∨ q = x ∨ ∃ m, q = x ++ '/' :: m := by
  rcases h with h | ⟨r, h⟩
  · exact Or.inl (Or.inl h)
  · rcases List.append_eq_append_iff.1 h with ⟨a, rfl, ha⟩ | ⟨a, rfl, ha⟩
    · cases a with
      | nil => right; left; simp
      | cons c a =>
        simp only [List.cons_append, List.cons.injEq] at ha
        right; right; exact ⟨a, by rw [← ha.1]⟩
    · cases a with
      | nil => right; left; simp
      | cons c a =>
        simp only [List.cons_append, List.cons.injEq] at ha
        left; right; exact ⟨a, by rw [← ha.1]⟩

theorem reachable_open {output : Str} {fs : FS} {c : Converter} {p : Str} {d : Bytes} (hp : Spec.Ordinary c p) (h : Spec.Reachable output fs c p) :
    ∀ s ∈ c.steps lib output p d, Open s.Own fs := by
  intro s hs
  have := stepPath output d hp hs
  cases s with
  | file x err body =>
    obtain ⟨o, ho, rfl, ht⟩ := this
    rintro x q rfl hq - b
    exact h o ho q hq b
  | fail e => intro x q hx; exact hx.elim
  | dir x files =>
    obtain ⟨o, ho, rfl, ht⟩ := this
    rintro x q (rfl | ⟨n, rfl⟩) hq hn b
    · exact h o ho q hq b
    · rcases dirOf_child hq with h' | h' | h'
      · exact h o ho q h' b
      · exact absurd (Or.inl h') hn
      · exact absurd (Or.inr h') hn

/-! ### The steps of a file -/

theorem steps_touches {output : Str} {c : Converter} {p : Str} {d : Bytes} (ho : output ≠ []) (hp : Spec.Ordinary c p) (hn : Spec.NamesOk c d)
    (f : Nat → WriteFaults) (fs : FS) : TouchesOnly (Spec.Owns output c p) fs (runSteps lib f 0 fs (c.steps lib output p d)).1 :=
  (runSteps_touches lib f _ 0 fs (steps_local ho hp hn)).mono fun _ hq => steps_own hp hq

theorem steps_untouched {output : Str} {c : Converter} {p : Str} {d : Bytes} (ho : output ≠ []) (hp : Spec.Ordinary c p) (hn : Spec.NamesOk c d)
    (f : Nat → WriteFaults) (fs : FS) {y : Str} (hy : ∀ x, OwnAll (c.steps lib output p d) x → y ≠ x ∧ ¬ Spec.DirOf y x) :
    (runSteps lib f 0 fs (c.steps lib output p d)).1 y = fs y := by
  rcases runSteps_touches lib f _ 0 fs (steps_local ho hp hn) y (fun h => (hy y h).1 rfl) with h | ⟨⟨x, hx, hd⟩, -, -⟩
  · exact h
  · exact absurd hd (hy x hx).2

theorem has_onDisk {fs : FS} {x : Str} {err : Err → Err} {body : List BodyStep} (h : OutStep.Has lib fs (.file x err body)) :
    Spec.Writes body (bodyBytes body) ∧ Spec.OnDisk fs x (.file (bodyBytes body)) := ⟨writes_iff.2 ⟨h.1, rfl⟩, h.2⟩

theorem steps_clean {output : Str} {c : Converter} {p : Str} {d : Bytes} (ho : output ≠ []) (hp : Spec.Ordinary c p) (hn : Spec.NamesOk c d)
    (f : Nat → WriteFaults) (hf : ∀ i, (f i).remove = false) (fs : FS) (h : Spec.CleanFile lib output fs c p d) :
    Spec.CleanFile lib output (runSteps lib f 0 fs (c.steps lib output p d)).1 c p d := by
  intro o hoc
  have hc := (runSteps_clean lib f hf _ 0 fs (steps_local (lib := lib) ho hp hn) (free_pre hp (clean_free hp h)) (steps_apart hp)).1
  rcases stepOf (lib := lib) output d hp hoc with ⟨err, body, hs, ht, hr⟩ | ⟨files, hs, ht, hr⟩ | ⟨-, ht, hr, hu⟩
  · rcases hc _ hs with h1 | h1 | h1
    · exact Or.inr ⟨_, (hr _).2 ⟨_, rfl, writes_iff.2 ⟨h1.1, rfl⟩⟩, h1.2⟩
    · exact Or.inl ⟨h1, fun h => absurd h ht⟩
    · have he := h1 (pjoin output o) rfl
      rcases h o hoc with h2 | ⟨r, h2, h3⟩
      · exact Or.inl ⟨he.trans h2.1, fun h => absurd h ht⟩
      · refine Or.inr ⟨r, h2, ?_⟩
        obtain ⟨b, rfl, -⟩ := (hr r).1 h2
        exact he.trans h3
  · rcases hc _ hs with ⟨fl, l, h1, h2, h3⟩ | h1 | h1
    · exact Or.inr ⟨_, (hr _).2 ⟨fl, l, rfl, h1, h2⟩, h3⟩
    · exact Or.inl ⟨h1.1, fun _ => h1.2⟩
    · have he := h1 (pjoin output o) (Or.inl rfl)
      have he' := fun n => h1 (pjoin output o ++ '/' :: n) (Or.inr ⟨n, rfl⟩)
      rcases h o hoc with h2 | ⟨r, h2, h3⟩
      · exact Or.inl ⟨he.trans h2.1, fun ht n => (he' n).trans (h2.2 ht n)⟩
      · refine Or.inr ⟨r, h2, ?_⟩
        obtain ⟨fl, l, rfl, -⟩ := (hr r).1 h2
        exact ⟨he.trans h3.1, fun n => (he' n).trans (h3.2 n)⟩
  · have he := steps_untouched (lib := lib) ho hp hn f fs hu
    rcases h o hoc with h2 | ⟨r, h2, h3⟩
    · exact Or.inl ⟨he.trans h2.1, fun h => absurd h ht⟩
    · exact absurd h2 (hr r)

theorem steps_quiet {output : Str} {c : Converter} {p : Str} {d : Bytes} (ho : output ≠ []) (hp : Spec.Ordinary c p) (hn : Spec.NamesOk c d)
    (f : Nat → WriteFaults) (hf : ∀ i, (f i).Quiet) (hf' : ∀ i, (f i).remove = false) (fs : FS) (h : Spec.Free output fs c p)
    (hr : Spec.Reachable output fs c p) :
    ((runSteps lib f 0 fs (c.steps lib output p d)).2 = match (c.steps lib output p d).findSome? (·.err lib) with
      | none => .ok ()
      | some e => .error e) ∧
    (∀ o ∈ c.convertedPaths p, ∀ r, Spec.Converts lib c p d o r → Spec.OnDisk (runSteps lib f 0 fs (c.steps lib output p d)).1 (pjoin output o) r) ∧
    (Spec.CleanFile lib output fs c p d → Spec.Complete lib output (runSteps lib f 0 fs (c.steps lib output p d)).1 c p d) := by
  obtain ⟨h1, h2⟩ := runSteps_quiet lib f hf hf' _ 0 fs (steps_local (lib := lib) ho hp hn) (free_pre hp h) (reachable_open hp hr) (steps_apart hp)
    steps_dropLast
  have hconv : ∀ o ∈ c.convertedPaths p, ∀ r, Spec.Converts lib c p d o r →
      Spec.OnDisk (runSteps lib f 0 fs (c.steps lib output p d)).1 (pjoin output o) r := by
    intro o hoc r hcr
    rcases stepOf (lib := lib) output d hp hoc with ⟨err, body, hs, ht, hr⟩ | ⟨files, hs, ht, hr⟩ | ⟨-, ht, hr, hu⟩
    · obtain ⟨b, rfl, hb⟩ := (hr r).1 hcr
      obtain ⟨hb1, rfl⟩ := writes_iff.1 hb
      exact ((h2 _ hs).1 (by simp [OutStep.err, hb1])).2
    · obtain ⟨fl, l, rfl, rfl, hl⟩ := (hr r).1 hcr
      obtain ⟨fl', l', h3, h4, h5⟩ := (h2 _ hs).1 (filesErr_none.2 ⟨l, hl⟩)
      cases h3
      rw [fileOf_unique hl h4]
      exact h5
    · exact absurd hcr (hr r)
  refine ⟨h1, hconv, fun hcl o hoc => ⟨hconv o hoc, fun hno => ?_⟩⟩
  rcases stepOf (lib := lib) output d hp hoc with ⟨err, body, hs, ht, hr⟩ | ⟨files, hs, ht, hr⟩ | ⟨-, ht, hr, hu⟩
  · refine ⟨(h2 _ hs).2 ?_, fun h => absurd h ht⟩
    intro he
    simp only [OutStep.err, Option.map_eq_none_iff] at he
    exact hno _ ((hr _).2 ⟨_, rfl, writes_iff.2 ⟨he, rfl⟩⟩)
  · have := (h2 _ hs).2 (by
      intro he
      cases files with
      | error e => simp [OutStep.err] at he
      | ok fl =>
        obtain ⟨l, hl⟩ := filesErr_none.1 he
        exact hno _ ((hr _).2 ⟨fl, l, rfl, rfl, hl⟩))
    exact ⟨this.1, fun _ => this.2⟩
  · refine ⟨?_, fun h => absurd h ht⟩
    rw [steps_untouched (lib := lib) ho hp hn f fs hu]
    rcases hcl o hoc with h3 | ⟨r, h3, -⟩
    · exact h3.1
    · exact absurd h3 (hr r)

/-! ### Errors of conversions -/

theorem steps_err_convertible {output : Str} {c : Converter} {p : Str} {d : Bytes} (hp : Spec.Ordinary c p) (h : Spec.Convertible lib c p d) :
    (c.steps lib output p d).findSome? (·.err lib) = none := by
  rw [List.findSome?_eq_none_iff]
  intro s hs
  cases c with
  | copy =>
    simp only [Converter.steps, List.mem_singleton] at hs
    subst hs; simp [OutStep.err, bodyErr]
  | image =>
    simp only [Converter.steps, List.mem_singleton] at hs
    subst hs
    obtain ⟨r, hr⟩ := h _ (List.mem_singleton.2 rfl)
    obtain ⟨-, b, -, hb⟩ := converts_image.1 hr
    simp [OutStep.err, (writes_iff.1 hb).1]
  | tex =>
    obtain ⟨r, hr⟩ := h _ (List.mem_singleton.2 rfl)
    obtain ⟨-, b, dds, -, ht, hb⟩ := converts_tex.1 hr
    simp only [Converter.steps, ht, List.mem_singleton] at hs
    subst hs
    simp [OutStep.err, (writes_iff.1 hb).1]
  | atlas =>
    simp only [Converter.steps, List.mem_singleton] at hs
    subst hs
    obtain ⟨r, hr⟩ := h _ (List.mem_singleton.2 rfl)
    obtain ⟨-, b, -, hb⟩ := converts_atlas.1 hr
    simp [OutStep.err, (writes_iff.1 hb).1]
  | championSkin =>
    simp only [Converter.steps, List.mem_singleton] at hs
    subst hs
    obtain ⟨r, hr⟩ := h _ (List.mem_singleton.2 rfl)
    obtain ⟨-, b, -, hb⟩ := converts_skins.1 hr
    simp [OutStep.err, (writes_iff.1 hb).1]
  | bin =>
    simp only [Converter.steps, List.mem_cons, List.not_mem_nil, or_false] at hs
    rcases hs with rfl | rfl
    · simp [OutStep.err, bodyErr]
    · obtain ⟨r, hr⟩ := h (p ++ ".json".toList) (by simp only [Converter.convertedPaths, List.mem_cons, true_or, or_true])
      rcases converts_bin.1 hr with ⟨hb, -⟩ | ⟨-, b, -, hb⟩
      · exact absurd hb json_ne
      · simp [OutStep.err, (writes_iff.1 hb).1]
  | skn =>
    simp only [Converter.steps, List.mem_cons, List.not_mem_nil, or_false] at hs
    rcases hs with rfl | rfl
    · simp [OutStep.err, bodyErr]
    · obtain ⟨r, hr⟩ := h (splitext p).1 (by simp only [Converter.convertedPaths, List.mem_cons, true_or, or_true])
      rcases converts_skn.1 hr with ⟨hb, -⟩ | ⟨-, fl, l, -, h1, h2⟩
      · have := hp.distinct
        simp only [Converter.convertedPaths, List.nodup_cons, List.mem_singleton] at this
        exact absurd hb.symm this.1
      · rw [h1]; exact filesErr_none.2 ⟨l, h2⟩
  | rst =>
    simp only [Converter.steps, List.mem_cons, List.not_mem_nil, or_false] at hs
    rcases hs with rfl | hs
    · simp [OutStep.err, bodyErr]
    · obtain ⟨r, hr⟩ := h (p ++ ".json".toList) (by simp only [Converter.convertedPaths, List.mem_cons, true_or, or_true])
      rcases converts_rst.1 hr with ⟨hb, -⟩ | ⟨-, b, x, -, hx, hb⟩
      · exact absurd hb json_ne
      · rw [hx] at hs
        subst hs
        simp [OutStep.err, (writes_iff.1 hb).1]

theorem imageErr_conversion {e : Err} (h : Spec.ImageError e) : imageErr e = .conversion := by
  rcases h with ⟨n, rfl⟩ | rfl | rfl | rfl <;> rfl

theorem steps_err_rejected {output : Str} {c : Converter} {p : Str} {d : Bytes} (h : Spec.Rejected lib c d) :
    (c.steps lib output p d).findSome? (·.err lib) = some .conversion := by
  cases h with
  | image _ e h1 h2 =>
    simp only [Converter.steps, List.findSome?_cons, OutStep.err, bodyErr_raises.2 h1, Option.map_some, imageErr_conversion h2]
  | tex _ h => simp only [Converter.steps, h, List.findSome?_cons, OutStep.err]
  | texImage _ dds e h1 h2 h3 =>
    simp only [Converter.steps, h1, List.findSome?_cons, OutStep.err, bodyErr_raises.2 h2, Option.map_some, imageErr_conversion h3]
  | bin _ e h1 h2 =>
    have : binErr e = .conversion := by rcases h2 with rfl | rfl | rfl <;> rfl
    simp [Converter.steps, binBody, h1, OutStep.err, bodyErr, this]

/-! ### Files -/

/-- The specification of a file to export: name and content -/
def ActFile (a : ExportAct) (p : Str) (d : Bytes) : Prop := ∃ w, a = .file ⟨p, w, .ok (some d)⟩

/-- The paths of an action -/
def ActOwn (cs : List Converter) (output : Str) (a : ExportAct) (q : Str) : Prop :=
  ∃ j, a = .file j ∧ Spec.Owns output (getConverter cs j.path) j.path q

/-- Ordinary actions -/
structure ActOk (cs : List Converter) (a : ExportAct) : Prop where
  ordinary : ∀ j, a = .file j → Spec.Ordinary (getConverter cs j.path) j.path
  names : ∀ p d, ActFile a p d → Spec.NamesOk (getConverter cs p) d

theorem exportOutcome_fst (w : Bool) (x : FS × Res Unit) : (exportOutcome w x).1 = x.1 := by
  obtain ⟨fs, r⟩ := x
  cases r with
  | ok u => rfl
  | error e => simp only [exportOutcome]; split <;> rfl

theorem exportJob_cases (cs : List Converter) (output : Str) (overwrite : Bool) (fs : FS) (j : ExportJob) (f : Nat → WriteFaults) :
    (exportJob lib cs output overwrite fs j f).1 = fs ∨
    ∃ d, j.read = .ok (some d) ∧ (exportJob lib cs output overwrite fs j f).1 =
      (runSteps lib f 0 fs ((getConverter cs j.path).steps lib output j.path d)).1 := by
  unfold exportJob
  simp only
  split
  · exact Or.inl rfl
  · cases hr : j.read with
    | error e => exact Or.inl rfl
    | ok o => cases o with
      | none => exact Or.inl rfl
      | some d =>
        refine Or.inr ⟨d, rfl, ?_⟩
        exact exportOutcome_fst _ _

theorem act_touches (cs : List Converter) {output : Str} (ho : output ≠ []) (overwrite : Bool) (fs : FS) (f : Nat → WriteFaults) (a : ExportAct)
    (ha : ActOk cs a) : TouchesOnly (ActOwn cs output a) fs (a.run lib cs output overwrite fs f).1 := by
  cases a with
  | open_ r => exact TouchesOnly.refl _ _
  | file j =>
    simp only [ExportAct.run]
    rcases exportJob_cases (lib := lib) cs output overwrite fs j f with h | ⟨d, hd, h⟩
    · rw [h]; exact TouchesOnly.refl _ _
    · rw [h]
      refine (steps_touches ho (ha.ordinary j rfl) (ha.names j.path d ⟨j.fromWad, ?_⟩) f fs).mono fun q hq => ⟨j, rfl, hq⟩
      rw [← hd]

theorem act_clean (cs : List Converter) {output : Str} (ho : output ≠ []) (overwrite : Bool) (fs : FS) (f : Nat → WriteFaults)
    (hf : ∀ i, (f i).remove = false) (a : ExportAct) (ha : ActOk cs a)
    (h : ∀ p d, ActFile a p d → Spec.CleanFile lib output fs (getConverter cs p) p d) :
    ∀ p d, ActFile a p d → Spec.CleanFile lib output (a.run lib cs output overwrite fs f).1 (getConverter cs p) p d := by
  rintro p d ⟨w, rfl⟩
  simp only [ExportAct.run]
  rcases exportJob_cases (lib := lib) cs output overwrite fs ⟨p, w, .ok (some d)⟩ f with h' | ⟨d', hd, h'⟩
  · rw [h']; exact h p d ⟨w, rfl⟩
  · simp only [Except.ok.injEq, Option.some.injEq] at hd
    subst hd
    rw [h']
    exact steps_clean ho (ha.ordinary _ rfl) (ha.names p d ⟨w, rfl⟩) f hf fs (h p d ⟨w, rfl⟩)

/-- All converted paths exist -/
theorem convertedExist_iff {fs : FS} {output : Str} {c : Converter} {p : Str} :
    convertedExist fs output c p = true ↔ ∀ o ∈ c.convertedPaths p, fs (pjoin output o) ≠ none := by
  simp [convertedExist, Option.isSome_iff_ne_none]

theorem converts_unique {output : Str} {c : Converter} {p : Str} {d : Bytes} (hp : Spec.Ordinary c p) {o : Str} (ho : o ∈ c.convertedPaths p)
    {r r' : Spec.Result} (h : Spec.Converts lib c p d o r) (h' : Spec.Converts lib c p d o r') : r = r' := by
  rcases stepOf (lib := lib) output d hp ho with ⟨err, body, -, -, hr⟩ | ⟨files, -, -, hr⟩ | ⟨-, -, hr, -⟩
  · obtain ⟨b, rfl, hb⟩ := (hr r).1 h
    obtain ⟨b', rfl, hb'⟩ := (hr r').1 h'
    rw [(writes_iff.1 hb).2, (writes_iff.1 hb').2]
  · obtain ⟨fl, l, rfl, h1, h2⟩ := (hr r).1 h
    obtain ⟨fl', l', rfl, h1', h2'⟩ := (hr r').1 h'
    rw [h1] at h1'
    cases h1'
    rw [fileOf_unique h2 h2']
  · exact absurd h (hr r)

/-- A file that is clean and whose converted paths exist is complete. -/
theorem clean_complete {output : Str} {fs : FS} {c : Converter} {p : Str} {d : Bytes} (hp : Spec.Ordinary c p)
    (h : Spec.CleanFile lib output fs c p d) (he : ∀ o ∈ c.convertedPaths p, fs (pjoin output o) ≠ none) : Spec.Complete lib output fs c p d := by
  intro o ho
  rcases h o ho with h1 | ⟨r, h1, h2⟩
  · exact absurd h1.1 (he o ho)
  · refine ⟨fun r' h' => ?_, fun hno => absurd h1 (hno r)⟩
    rw [converts_unique (output := output) hp ho h' h1]; exact h2

theorem act_quiet (cs : List Converter) {output : Str} (ho : output ≠ []) (overwrite : Bool) (fs : FS) (f : Nat → WriteFaults)
    (hf : ∀ i, (f i).Quiet) (hf' : ∀ i, (f i).remove = false) (a : ExportAct) (ha : ActOk cs a) {p : Str} {d : Bytes} (hp : ActFile a p d)
    (h : Spec.Free output fs (getConverter cs p) p) (hr : Spec.Reachable output fs (getConverter cs p) p) :
    (overwrite = true → ∀ o ∈ (getConverter cs p).convertedPaths p, ∀ r, Spec.Converts lib (getConverter cs p) p d o r →
      Spec.OnDisk (a.run lib cs output overwrite fs f).1 (pjoin output o) r) ∧
    (Spec.CleanFile lib output fs (getConverter cs p) p d →
      Spec.Complete lib output (a.run lib cs output overwrite fs f).1 (getConverter cs p) p d) ∧
    (Spec.Convertible lib (getConverter cs p) p d ∨ Spec.Rejected lib (getConverter cs p) d → (a.run lib cs output overwrite fs f).2 = .ok ()) := by
  obtain ⟨w, rfl⟩ := hp
  have ord := ha.ordinary _ rfl
  obtain ⟨h1, h2, h3⟩ := steps_quiet (lib := lib) ho ord (ha.names p d ⟨w, rfl⟩) f hf hf' fs h hr
  simp only at ord h1 h2 h3
  simp only [ExportAct.run]
  unfold exportJob
  simp only
  split
  · rename_i hs
    simp only [Bool.and_eq_true, Bool.not_eq_true'] at hs
    refine ⟨fun h => by rw [h] at hs; simp at hs, fun hc => clean_complete ord hc (convertedExist_iff.1 hs.2), by simp⟩
  · rcases hrun : runSteps lib f 0 fs ((getConverter cs p).steps lib output p d) with ⟨fs', r⟩
    rw [hrun] at h1 h2 h3
    simp only at h1 h2 h3
    have hfs : (exportOutcome w (fs', r)).1 = fs' := exportOutcome_fst _ _
    refine ⟨fun _ => by rw [hfs]; exact h2, fun hc => by rw [hfs]; exact h3 hc, ?_⟩
    rintro (hc | hc)
    · rw [steps_err_convertible ord hc] at h1
      subst h1
      rfl
    · rw [steps_err_rejected hc] at h1
      subst h1
      simp [exportOutcome]

/-! ### Sequences of actions -/

theorem acts_touches (cs : List Converter) {output : Str} (ho : output ≠ []) (overwrite : Bool) (f : Nat → Nat → WriteFaults)
    (acts : List ExportAct) (ha : ∀ a ∈ acts, ActOk cs a) (i : Nat) (fs : FS) :
    TouchesOnly (fun q => ∃ a ∈ acts, ActOwn cs output a q) fs (exportActs lib cs output overwrite f i fs acts).1 := by
  induction acts generalizing i fs with
  | nil => exact TouchesOnly.refl _ _
  | cons a rest ih =>
    have h1 := (act_touches (lib := lib) cs ho overwrite fs (f i) a (ha a (by simp))).mono
      (own' := fun q => ∃ b ∈ a :: rest, ActOwn cs output b q) (fun q hq => ⟨a, by simp, hq⟩)
    simp only [exportActs]
    rcases hr : a.run lib cs output overwrite fs (f i) with ⟨fs', r⟩
    rw [hr] at h1
    cases r with
    | error e => exact h1
    | ok u =>
      refine h1.trans ((ih (fun a h => ha a (by simp [h])) (i + 1) fs').mono ?_)
      rintro q ⟨b, hb, hq⟩
      exact ⟨b, by simp [hb], hq⟩

/-- A property of an action that other actions do not change -/
def Stable (cs : List Converter) (output : Str) (P : ExportAct → FS → Prop) : Prop :=
  ∀ (own : Str → Prop) (a : ExportAct) (fs fs' : FS), TouchesOnly own fs fs' → ApartSets own (ActOwn cs output a) → P a fs → P a fs'

theorem apart_rest {cs : List Converter} {output : Str} {a : ExportAct} {rest : List ExportAct}
    (h : ∀ b ∈ rest, ApartSets (ActOwn cs output a) (ActOwn cs output b)) :
    ApartSets (fun q => ∃ b ∈ rest, ActOwn cs output b q) (ActOwn cs output a) := by
  rintro x y ⟨b, hb, hx⟩ hy
  exact (h b hb).symm x y hx hy

theorem acts_keep (cs : List Converter) {output : Str} (ho : output ≠ []) (overwrite : Bool) (f : Nat → Nat → WriteFaults)
    (P : ExportAct → FS → Prop) (hP : Stable cs output P) (acts : List ExportAct) (ha : ∀ a ∈ acts, ActOk cs a)
    (hp : acts.Pairwise fun a b => ApartSets (ActOwn cs output a) (ActOwn cs output b))
    (step : ∀ a ∈ acts, ∀ i fs, P a fs → P a (a.run lib cs output overwrite fs (f i)).1) (i : Nat) (fs : FS) (h : ∀ a ∈ acts, P a fs) :
    ∀ a ∈ acts, P a (exportActs lib cs output overwrite f i fs acts).1 := by
  induction acts generalizing i fs with
  | nil => simp
  | cons a rest ih =>
    rw [List.pairwise_cons] at hp
    have ht := act_touches (lib := lib) cs ho overwrite fs (f i) a (ha a (by simp))
    have hs := step a (by simp) i fs (h a (by simp))
    simp only [exportActs]
    rcases hr : a.run lib cs output overwrite fs (f i) with ⟨fs', r⟩
    rw [hr] at ht hs
    simp only at ht hs
    have hrest : ∀ b ∈ rest, P b fs' := fun b hb => hP _ b fs fs' ht (hp.1 b hb) (h b (by simp [hb]))
    cases r with
    | error e =>
      intro b hb
      rcases List.mem_cons.1 hb with rfl | hb
      · exact hs
      · exact hrest b hb
    | ok u =>
      intro b hb
      rcases List.mem_cons.1 hb with rfl | hb
      · exact hP _ b fs' _ (acts_touches (lib := lib) cs ho overwrite f rest (fun a h => ha a (by simp [h])) (i + 1) fs') (apart_rest hp.1) hs
      · exact ih (fun a h => ha a (by simp [h])) hp.2 (fun a h => step a (by simp [h])) (i + 1) fs' hrest b hb

theorem acts_done (cs : List Converter) {output : Str} (ho : output ≠ []) (overwrite : Bool) (f : Nat → Nat → WriteFaults)
    (P Q : ExportAct → FS → Prop) (hP : Stable cs output P) (hQ : Stable cs output Q) (acts : List ExportAct) (ha : ∀ a ∈ acts, ActOk cs a)
    (hp : acts.Pairwise fun a b => ApartSets (ActOwn cs output a) (ActOwn cs output b))
    (step : ∀ a ∈ acts, ∀ i fs, P a fs → Q a (a.run lib cs output overwrite fs (f i)).1) (i : Nat) (fs : FS) (h : ∀ a ∈ acts, P a fs)
    (hok : (exportActs lib cs output overwrite f i fs acts).2 = .ok ()) :
    ∀ a ∈ acts, Q a (exportActs lib cs output overwrite f i fs acts).1 := by
  induction acts generalizing i fs with
  | nil => simp
  | cons a rest ih =>
    rw [List.pairwise_cons] at hp
    have ht := act_touches (lib := lib) cs ho overwrite fs (f i) a (ha a (by simp))
    have hs := step a (by simp) i fs (h a (by simp))
    simp only [exportActs] at hok ⊢
    rcases hr : a.run lib cs output overwrite fs (f i) with ⟨fs', r⟩
    rw [hr] at ht hs hok
    simp only at ht hs
    have hrest : ∀ b ∈ rest, P b fs' := fun b hb => hP _ b fs fs' ht (hp.1 b hb) (h b (by simp [hb]))
    cases r with
    | error e => simp at hok
    | ok u =>
      intro b hb
      rcases List.mem_cons.1 hb with rfl | hb
      · exact hQ _ b fs' _ (acts_touches (lib := lib) cs ho overwrite f rest (fun a h => ha a (by simp [h])) (i + 1) fs') (apart_rest hp.1) hs
      · exact ih (fun a h => ha a (by simp [h])) hp.2 (fun a h => step a (by simp [h])) (i + 1) fs' hrest hok b hb

theorem acts_succeed (cs : List Converter) {output : Str} (ho : output ≠ []) (overwrite : Bool) (f : Nat → Nat → WriteFaults)
    (P : ExportAct → FS → Prop) (hP : Stable cs output P) (acts : List ExportAct) (ha : ∀ a ∈ acts, ActOk cs a)
    (hp : acts.Pairwise fun a b => ApartSets (ActOwn cs output a) (ActOwn cs output b))
    (step : ∀ a ∈ acts, ∀ i fs, P a fs → (a.run lib cs output overwrite fs (f i)).2 = .ok ()) (i : Nat) (fs : FS) (h : ∀ a ∈ acts, P a fs) :
    (exportActs lib cs output overwrite f i fs acts).2 = .ok () := by
  induction acts generalizing i fs with
  | nil => rfl
  | cons a rest ih =>
    rw [List.pairwise_cons] at hp
    have ht := act_touches (lib := lib) cs ho overwrite fs (f i) a (ha a (by simp))
    have hs := step a (by simp) i fs (h a (by simp))
    simp only [exportActs]
    rcases hr : a.run lib cs output overwrite fs (f i) with ⟨fs', r⟩
    rw [hr] at ht hs
    simp only at ht hs
    subst hs
    exact ih (fun a h => ha a (by simp [h])) hp.2 (fun a h => step a (by simp [h])) (i + 1) fs'
      (fun b hb => hP _ b fs fs' ht (hp.1 b hb) (h b (by simp [hb])))

/-! ### Properties that other actions do not change -/

theorem stable_same {cs : List Converter} {output : Str} {own : Str → Prop} {a : ExportAct} {fs fs' : FS} (h : TouchesOnly own fs fs')
    (ha : ApartSets own (ActOwn cs output a)) {p : Str} {d : Bytes} (hp : ActFile a p d) {q : Str} (hq : Spec.Owns output (getConverter cs p) p q) :
    fs' q = fs q := by
  obtain ⟨w, rfl⟩ := hp
  exact h.apart ha ⟨_, rfl, hq⟩

theorem onDisk_congr {fs fs' : FS} {x : Str} {r : Spec.Result} (h1 : fs' x = fs x) (h2 : (∃ l, r = .dir l) → ∀ n, fs' (x ++ '/' :: n) = fs (x ++ '/' :: n)) :
    Spec.OnDisk fs' x r ↔ Spec.OnDisk fs x r := by
  cases r with
  | file b => simp only [Spec.OnDisk, h1]
  | dir l => simp only [Spec.OnDisk, h1, h2 ⟨l, rfl⟩]

theorem converts_dir_tree {c : Converter} {p o : Str} {d : Bytes} {l : List (Str × Bytes)} (h : Spec.Converts lib c p d o (.dir l)) :
    Spec.IsTree c p o := by cases h; exact ⟨rfl, rfl⟩

/-- The paths of a file have not changed. -/
def SameFile (output : Str) (c : Converter) (p : Str) (fs fs' : FS) : Prop := ∀ q, Spec.Owns output c p q → fs' q = fs q

theorem SameFile.onDisk {output : Str} {c : Converter} {p : Str} {fs fs' : FS} (h : SameFile output c p fs fs') {o : Str} (ho : o ∈ c.convertedPaths p)
    {d : Bytes} {r : Spec.Result} (hr : Spec.Converts lib c p d o r) : Spec.OnDisk fs' (pjoin output o) r ↔ Spec.OnDisk fs (pjoin output o) r := by
  refine onDisk_congr (h _ ⟨o, ho, Or.inl rfl⟩) ?_
  rintro ⟨l, rfl⟩ n
  exact h _ ⟨o, ho, Or.inr ⟨converts_dir_tree hr, n, rfl⟩⟩

theorem SameFile.nothing {output : Str} {c : Converter} {p : Str} {fs fs' : FS} (h : SameFile output c p fs fs') {o : Str} (ho : o ∈ c.convertedPaths p) :
    Spec.Nothing fs' c p o (pjoin output o) ↔ Spec.Nothing fs c p o (pjoin output o) := by
  unfold Spec.Nothing
  rw [h _ ⟨o, ho, Or.inl rfl⟩]
  refine and_congr_right fun _ => forall_congr' fun ht => forall_congr' fun n => ?_
  rw [h _ ⟨o, ho, Or.inr ⟨ht, n, rfl⟩⟩]

theorem SameFile.clean {output : Str} {c : Converter} {p : Str} {fs fs' : FS} (h : SameFile output c p fs fs') {d : Bytes}
    (hc : Spec.CleanFile lib output fs c p d) : Spec.CleanFile lib output fs' c p d := by
  intro o ho
  rcases hc o ho with h1 | ⟨r, h1, h2⟩
  · exact Or.inl ((h.nothing ho).2 h1)
  · exact Or.inr ⟨r, h1, (h.onDisk ho h1).2 h2⟩

theorem SameFile.complete {output : Str} {c : Converter} {p : Str} {fs fs' : FS} (h : SameFile output c p fs fs') {d : Bytes}
    (hc : Spec.Complete lib output fs c p d) : Spec.Complete lib output fs' c p d :=
  fun o ho => ⟨fun r hr => (h.onDisk ho hr).2 ((hc o ho).1 r hr), fun hn => (h.nothing ho).2 ((hc o ho).2 hn)⟩

theorem SameFile.free {output : Str} {c : Converter} {p : Str} {fs fs' : FS} (h : SameFile output c p fs fs')
    (hc : Spec.Free output fs c p) : Spec.Free output fs' c p := by
  intro o ho
  obtain ⟨h1, h2⟩ := hc o ho
  rw [h _ ⟨o, ho, Or.inl rfl⟩]
  refine ⟨h1, fun ht => ⟨(h2 ht).1, fun hn n => ?_⟩⟩
  rw [h _ ⟨o, ho, Or.inr ⟨ht, n, rfl⟩⟩]
  exact (h2 ht).2 hn n

theorem touches_reachable {output : Str} {c : Converter} {p : Str} {own : Str → Prop} {fs fs' : FS} (h : TouchesOnly own fs fs')
    (ha : ApartSets own (Spec.Owns output c p)) (hc : Spec.Reachable output fs c p) : Spec.Reachable output fs' c p := by
  intro o ho q hq b
  rcases h q (fun hq' => (ha q _ hq' ⟨o, ho, Or.inl rfl⟩).2.1 hq) with e | ⟨-, -, d⟩
  · rw [e]; exact hc o ho q hq b
  · rw [d]; simp

/-- A property of the files of an action -/
def ForFiles (cs : List Converter) (P : FS → Converter → Str → Bytes → Prop) (a : ExportAct) (fs : FS) : Prop :=
  ∀ p d, ActFile a p d → P fs (getConverter cs p) p d

theorem stable_files {cs : List Converter} {output : Str} {P : FS → Converter → Str → Bytes → Prop}
    (h : ∀ own c p d fs fs', TouchesOnly own fs fs' → ApartSets own (Spec.Owns output c p) → P fs c p d → P fs' c p d) :
    Stable cs output (ForFiles cs P) := by
  intro own a fs fs' ht ha hp p d hf
  refine h own _ p d fs fs' ht ?_ (hp p d hf)
  obtain ⟨w, rfl⟩ := hf
  intro x y hx hy
  exact ha x y hx ⟨_, rfl, hy⟩

end Cdtb
