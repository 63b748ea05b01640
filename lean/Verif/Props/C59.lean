import Verif.Props.C14
import Verif.Lemmas.ExportRun
import Verif.Spec.Skn
import Mathlib.Data.List.Pairwise
/-!
# C59  Exported files on disk
-/
namespace Cdtb
set_option autoImplicit false
open Py

/-- The path of an action -/
def actPath : ExportAct → Option Str
  | .file j => some j.path
  | .open_ _ => none

theorem wadActs_paths (src : ExportSources) (w : ExpWad) : ((wadActs src w).filterMap actPath).Sublist ((w.files.map (·.path)).filterMap id) := by
  unfold wadActs
  cases hw : src.wad w.path with
  | error e => exact List.nil_sublist _
  | ok ct =>
    obtain ⟨content, toc⟩ := ct
    simp only [List.filterMap_cons, actPath]
    rw [List.filterMap_filterMap, List.filterMap_map]
    have : (fun wf : WadEntry => (wf.path.map fun p => ExportAct.file ⟨p, true, readFileData src.codecs wf content toc⟩).bind actPath) =
        (id ∘ fun wf : WadEntry => wf.path) := by
      funext wf
      simp only [Function.comp_apply, id]
      cases wf.path <;> rfl
    rw [this]

theorem acts_paths (e : Exporter) (src : ExportSources) : ((e.acts src).filterMap actPath).Sublist (e.paths.filterMap id) := by
  unfold Exporter.acts Exporter.paths
  rw [List.filterMap_append, List.filterMap_append]
  refine List.Sublist.append ?_ ?_
  · rw [List.filterMap_map, List.filterMap_map]
    have : (actPath ∘ fun kv : Str × Str => ExportAct.file ⟨kv.1, false, (src.plain kv.2).map some⟩) = fun kv => some kv.1 := rfl
    rw [this]
    simp [Dict.keys]
  · generalize e.wads.values = ws
    induction ws with
    | nil => simp
    | cons w ws ih =>
      rw [List.flatMap_cons, List.flatMap_cons, List.filterMap_append, List.filterMap_append]
      exact List.Sublist.append (wadActs_paths src w) ih

theorem acts_exports {e : Exporter} {src : ExportSources} {p : Str} {d : Bytes} :
    (∃ a ∈ e.acts src, ActFile a p d) ↔ Spec.Exports e src p d := by
  unfold Exporter.acts Spec.Exports
  constructor
  · rintro ⟨a, ha, w, rfl⟩
    rcases List.mem_append.1 ha with ha | ha
    · obtain ⟨⟨k, s⟩, hk, he⟩ := List.mem_map.1 ha
      simp only [ExportAct.file.injEq, ExportJob.mk.injEq] at he
      obtain ⟨rfl, -, h⟩ := he
      cases hs : src.plain s with
      | error e => rw [hs] at h; simp [Except.map] at h
      | ok d' =>
        rw [hs] at h
        simp only [Except.map, Except.ok.injEq, Option.some.injEq] at h
        subst h
        exact Or.inl ⟨s, hk, hs⟩
    · obtain ⟨wad, hw, hm⟩ := List.mem_flatMap.1 ha
      unfold wadActs at hm
      cases hs : src.wad wad.path with
      | error e => rw [hs] at hm; simp at hm
      | ok ct =>
        obtain ⟨content, toc⟩ := ct
        rw [hs] at hm
        simp only [List.mem_cons, reduceCtorEq, false_or] at hm
        obtain ⟨wf, hwf, hp⟩ := List.mem_filterMap.1 hm
        cases hpath : wf.path with
        | none => rw [hpath] at hp; simp at hp
        | some p' =>
          rw [hpath] at hp
          simp only [Option.map_some, Option.some.injEq, ExportAct.file.injEq, ExportJob.mk.injEq] at hp
          obtain ⟨rfl, -, h⟩ := hp
          exact Or.inr ⟨wad, hw, wf, hwf, hpath, content, toc, hs, h⟩
  · rintro (⟨s, hs, hd⟩ | ⟨wad, hw, wf, hwf, hpath, content, toc, hs, hd⟩)
    · refine ⟨_, List.mem_append_left _ (List.mem_map.2 ⟨(p, s), hs, rfl⟩), false, ?_⟩
      simp [hd, Except.map]
    · refine ⟨.file ⟨p, true, readFileData src.codecs wf content toc⟩, List.mem_append_right _ (List.mem_flatMap.2 ⟨wad, hw, ?_⟩), true, ?_⟩
      · unfold wadActs
        rw [hs]
        refine List.mem_cons_of_mem _ (List.mem_filterMap.2 ⟨wf, hwf, ?_⟩)
        rw [hpath]; rfl
      · rw [hd]

theorem acts_path_mem {e : Exporter} {src : ExportSources} {j : ExportJob} (h : .file j ∈ e.acts src) : some j.path ∈ e.paths := by
  have := (acts_paths e src).subset (List.mem_filterMap.2 ⟨_, h, rfl⟩)
  obtain ⟨a, ha, he⟩ := List.mem_filterMap.1 this
  simp only [id] at he
  rw [← he]; exact ha

theorem regular_ok {e : Exporter} {src : ExportSources} {output : Str} (h : Spec.Regular e src output) :
    ∀ a ∈ e.acts src, ActOk e.converters a := by
  intro a ha
  refine ⟨?_, fun p d hp => h.names p d (acts_exports.1 ⟨a, ha, hp⟩)⟩
  rintro j rfl
  exact h.ordinary _ (acts_path_mem ha)

theorem separate_acts {e : Exporter} {src : ExportSources} {output : Str} (h : Spec.Separate e output) :
    (e.acts src).Pairwise fun a b => ApartSets (ActOwn e.converters output a) (ActOwn e.converters output b) := by
  have := List.Pairwise.sublist (acts_paths e src) h
  rw [List.pairwise_filterMap] at this
  refine this.imp ?_
  rintro a b hab x y ⟨j, rfl, hx⟩ ⟨k, rfl, hy⟩
  exact hab j.path rfl k.path rfl x y hx hy

/-- Faults of the disk: files can be removed, all the rest may fail at any point. -/
def Spec.Removable (f : Nat → Nat → WriteFaults) : Prop := ∀ i j, (f i j).remove = false

/-- No faults -/
def Spec.NoFaults (f : Nat → Nat → WriteFaults) : Prop :=
  ∀ i j, (f i j).makedirs = none ∧ (f i j).open_ = none ∧ (∀ k, (f i j).write k = none) ∧ (f i j).close = none ∧ (f i j).remove = false

/-- An export changes only the converted paths of its files, and creates the directories they need. This holds for any
content, whether files are overwritten or not, and whatever fails. -/
theorem C59_frame (lib : ConvLib) (e : Exporter) (src : ExportSources) (output : Str) (h : Spec.Regular e src output) (overwrite : Bool)
    (f : Nat → Nat → WriteFaults) (fs : FS) (q : Str)
    (hq : ∀ p, some p ∈ e.paths → ¬ Spec.Owns output (getConverter e.converters p) p q) :
    (e.export lib output overwrite f src fs).1 q = fs q ∨
    (fs q = none ∧ (e.export lib output overwrite f src fs).1 q = some .dir ∧
      ∃ p x, some p ∈ e.paths ∧ Spec.Owns output (getConverter e.converters p) p x ∧ Spec.DirOf q x) := by
  have ht := acts_touches (lib := lib) e.converters h.output overwrite f (e.acts src) (regular_ok h) 0 fs q (by
    rintro ⟨a, ha, j, rfl, ho⟩
    exact hq _ (acts_path_mem ha) ho)
  rcases ht with ht | ⟨⟨x, ⟨a, ha, j, rfl, ho⟩, hd⟩, hn, hdir⟩
  · exact Or.inl ht
  · exact Or.inr ⟨hn, hdir, j.path, x, acts_path_mem ha, ho, hd⟩

/-- An export never leaves a partial file: if everything on disk was either complete or absent, it still is, whatever fails
(except removing a file), and whether files are overwritten or not. -/
theorem C59_clean (lib : ConvLib) (e : Exporter) (src : ExportSources) (output : Str) (h : Spec.Regular e src output) (hs : Spec.Separate e output)
    (overwrite : Bool) (f : Nat → Nat → WriteFaults) (hf : Spec.Removable f) (fs : FS)
    (hc : ∀ p d, Spec.Exports e src p d → Spec.CleanFile lib output fs (getConverter e.converters p) p d) :
    ∀ p d, Spec.Exports e src p d → Spec.CleanFile lib output (e.export lib output overwrite f src fs).1 (getConverter e.converters p) p d := by
  have key := acts_keep (lib := lib) e.converters h.output overwrite f (ForFiles e.converters (fun fs c p d => Spec.CleanFile lib output fs c p d))
    (stable_files fun own c p d fs fs' ht ha hp => SameFile.clean (fun q hq => ht.apart ha hq) hp)
    (e.acts src) (regular_ok h) (separate_acts hs)
    (fun a ha i fs hp => act_clean e.converters h.output overwrite fs (f i) (hf i) a (regular_ok h a ha) hp) 0 fs
    (fun a ha p d hp => hc p d (acts_exports.1 ⟨a, ha, hp⟩))
  intro p d hp
  obtain ⟨a, ha, haf⟩ := acts_exports.2 hp
  exact key a ha p d haf

theorem NoFaults.quiet {f : Nat → Nat → WriteFaults} (h : Spec.NoFaults f) (i j : Nat) : (f i j).Quiet :=
  ⟨(h i j).1, (h i j).2.1, (h i j).2.2.1, (h i j).2.2.2.1⟩

/-- Exporting again completes what is missing: on a disk without partial files, if the export succeeds, each file is
converted to all it can be, and what cannot be converted is not there. -/
theorem C59_complete (lib : ConvLib) (e : Exporter) (src : ExportSources) (output : Str) (h : Spec.Regular e src output) (hs : Spec.Separate e output)
    (overwrite : Bool) (f : Nat → Nat → WriteFaults) (hf : Spec.NoFaults f) (fs : FS)
    (hc : ∀ p d, Spec.Exports e src p d → Spec.CleanFile lib output fs (getConverter e.converters p) p d)
    (hr : ∀ p, some p ∈ e.paths → Spec.Reachable output fs (getConverter e.converters p) p)
    (hok : (e.export lib output overwrite f src fs).2 = .ok ()) :
    ∀ p d, Spec.Exports e src p d → Spec.Complete lib output (e.export lib output overwrite f src fs).1 (getConverter e.converters p) p d := by
  have key := acts_done (lib := lib) e.converters h.output overwrite f
    (ForFiles e.converters (fun fs c p d => Spec.CleanFile lib output fs c p d ∧ Spec.Reachable output fs c p))
    (ForFiles e.converters (fun fs c p d => Spec.Complete lib output fs c p d))
    (stable_files fun own c p d fs fs' ht ha hp => ⟨SameFile.clean (fun q hq => ht.apart ha hq) hp.1, touches_reachable ht ha hp.2⟩)
    (stable_files fun own c p d fs fs' ht ha hp => SameFile.complete (fun q hq => ht.apart ha hq) hp)
    (e.acts src) (regular_ok h) (separate_acts hs)
    (fun a ha i fs hp p d hpd => by
      have hord : Spec.Ordinary (getConverter e.converters p) p := by
        obtain ⟨w, rfl⟩ := hpd
        exact (regular_ok h _ ha).ordinary _ rfl
      exact (act_quiet e.converters h.output overwrite fs (f i) (NoFaults.quiet hf i) (fun j => (hf i j).2.2.2.2) a (regular_ok h a ha) hpd
        (clean_free hord (hp p d hpd).1) (hp p d hpd).2).2.1 (hp p d hpd).1) 0 fs
    (fun a ha p d hp => ⟨hc p d (acts_exports.1 ⟨a, ha, hp⟩), hr p (by obtain ⟨w, rfl⟩ := hp; exact acts_path_mem ha)⟩) hok
  intro p d hp
  obtain ⟨a, ha, haf⟩ := acts_exports.2 hp
  exact key a ha p d haf

/-- Overwriting: whatever was on disk, each file is converted to all it can be. -/
theorem C59_overwrite (lib : ConvLib) (e : Exporter) (src : ExportSources) (output : Str) (h : Spec.Regular e src output) (hs : Spec.Separate e output)
    (f : Nat → Nat → WriteFaults) (hf : Spec.NoFaults f) (fs : FS)
    (hc : ∀ p, some p ∈ e.paths → Spec.Free output fs (getConverter e.converters p) p ∧ Spec.Reachable output fs (getConverter e.converters p) p)
    (hok : (e.export lib output true f src fs).2 = .ok ()) :
    ∀ p d o r, Spec.Exports e src p d → o ∈ (getConverter e.converters p).convertedPaths p →
      Spec.Converts lib (getConverter e.converters p) p d o r → Spec.OnDisk (e.export lib output true f src fs).1 (pjoin output o) r := by
  have key := acts_done (lib := lib) e.converters h.output true f
    (ForFiles e.converters (fun fs c p d => Spec.Free output fs c p ∧ Spec.Reachable output fs c p))
    (ForFiles e.converters (fun fs c p d => ∀ o ∈ c.convertedPaths p, ∀ r, Spec.Converts lib c p d o r → Spec.OnDisk fs (pjoin output o) r))
    (stable_files fun own c p d fs fs' ht ha hp => ⟨SameFile.free (fun q hq => ht.apart ha hq) hp.1, touches_reachable ht ha hp.2⟩)
    (stable_files fun own c p d fs fs' ht ha hp o ho r hr =>
      (SameFile.onDisk (output := output) (fun q hq => ht.apart ha hq) ho hr).2 (hp o ho r hr))
    (e.acts src) (regular_ok h) (separate_acts hs)
    (fun a ha i fs hp p d hpd =>
      (act_quiet e.converters h.output true fs (f i) (NoFaults.quiet hf i) (fun j => (hf i j).2.2.2.2) a (regular_ok h a ha) hpd
        (hp p d hpd).1 (hp p d hpd).2).1 rfl) 0 fs
    (fun a ha p d hp => hc p (by obtain ⟨w, rfl⟩ := hp; exact acts_path_mem ha)) hok
  intro p d o r hp ho hr
  obtain ⟨a, ha, haf⟩ := acts_exports.2 hp
  exact key a ha p d haf o ho r hr

/-- Files that are known not to be convertible do not stop the export. -/
theorem C59_succeeds (lib : ConvLib) (e : Exporter) (src : ExportSources) (output : Str) (h : Spec.Regular e src output) (hs : Spec.Separate e output)
    (overwrite : Bool) (f : Nat → Nat → WriteFaults) (hf : Spec.NoFaults f) (fs : FS) (hread : Spec.Readable e src)
    (hc : ∀ p, some p ∈ e.paths → Spec.Free output fs (getConverter e.converters p) p ∧ Spec.Reachable output fs (getConverter e.converters p) p)
    (hconv : ∀ p d, Spec.Exports e src p d → Spec.Convertible lib (getConverter e.converters p) p d ∨ Spec.Rejected lib (getConverter e.converters p) d) :
    (e.export lib output overwrite f src fs).2 = .ok () := by
  refine acts_succeed (lib := lib) e.converters h.output overwrite f
    (ForFiles e.converters (fun fs c p d => Spec.Free output fs c p ∧ Spec.Reachable output fs c p))
    (stable_files fun own c p d fs fs' ht ha hp => ⟨SameFile.free (fun q hq => ht.apart ha hq) hp.1, touches_reachable ht ha hp.2⟩)
    (e.acts src) (regular_ok h) (separate_acts hs) ?_ 0 fs
    (fun a ha p d hp => hc p (by obtain ⟨w, rfl⟩ := hp; exact acts_path_mem ha))
  intro a ha i fs hp
  have hfile : ∀ p d, ActFile a p d → (a.run lib e.converters output overwrite fs (f i)).2 = .ok () := fun p d hpd =>
    (act_quiet e.converters h.output overwrite fs (f i) (NoFaults.quiet hf i) (fun j => (hf i j).2.2.2.2) a (regular_ok h a ha) hpd
      (hp p d hpd).1 (hp p d hpd).2).2.2 (hconv p d (acts_exports.1 ⟨a, ha, hpd⟩))
  have hnone : ∀ p w, (ExportAct.run lib e.converters output overwrite fs (f i) (.file ⟨p, w, .ok none⟩)).2 = .ok () := by
    intro p w
    simp only [ExportAct.run, exportJob]
    split <;> rfl
  unfold Exporter.acts at ha
  rcases List.mem_append.1 ha with ha | ha
  · obtain ⟨⟨k, s⟩, hk, rfl⟩ := List.mem_map.1 ha
    obtain ⟨d, hd⟩ := hread.1 k s hk
    exact hfile k d ⟨false, by simp [hd, Except.map]⟩
  · obtain ⟨wad, hw, hm⟩ := List.mem_flatMap.1 ha
    obtain ⟨content, toc, hs, hwf⟩ := hread.2 wad hw
    unfold wadActs at hm
    rw [hs] at hm
    rcases List.mem_cons.1 hm with rfl | hm
    · rfl
    · obtain ⟨wf, hwfm, hpa⟩ := List.mem_filterMap.1 hm
      cases hpath : wf.path with
      | none => rw [hpath] at hpa; simp at hpa
      | some p' =>
        rw [hpath] at hpa
        simp only [Option.map_some, Option.some.injEq] at hpa
        subst hpa
        obtain ⟨d, hd⟩ := hwf wf hwfm (by simp [hpath])
        cases d with
        | none => rw [hd]; exact hnone p' true
        | some d => exact hfile p' d ⟨true, by rw [hd]⟩

/-- A history of exports, each with its own faults, overwriting or not -/
def exportHistory (lib : ConvLib) (e : Exporter) (src : ExportSources) (output : Str) :
    List (Bool × (Nat → Nat → WriteFaults)) → FS → FS
  | [], fs => fs
  | (overwrite, f) :: rest, fs => exportHistory lib e src output rest (e.export lib output overwrite f src fs).1

/-- A path of a file is not a directory for another one. -/
theorem owns_not_dirOf {output : Str} {c : Converter} {p q o : Str} (hp : Spec.Ordinary c p) (hq : Spec.Owns output c p q)
    (ho : o ∈ c.convertedPaths p) : ¬ Spec.DirOf q (pjoin output o) := by
  have hself : ∀ x, Spec.Named x → ¬ Spec.DirOf x x := fun x hx => not_dirOf_self hx
  have hnp : Spec.Named (pjoin output p) := hp.named.pjoin
  have hj : ApartSets (· = pjoin output p ++ ".json".toList) (· = pjoin output p) := by
    have := (apart_ext (t := "json".toList) (c := '.') hnp (by decide) ⟨".jso".toList, 'n', rfl, by decide⟩)
    intro x y hx hy
    exact this x y hx (Or.inl hy)
  have hjn : Spec.Named (pjoin output p ++ ".json".toList) := ⟨pjoin output p ++ ".jso".toList, 'n', by simp, by decide⟩
  obtain ⟨o', ho', hq⟩ := hq
  by_cases hc : c = .skn
  · subst hc
    have hne : p ≠ (splitext p).1 := by
      have := hp.distinct
      simp only [Converter.convertedPaths, List.nodup_cons, List.mem_singleton] at this
      exact this.1
    rcases splitext_cases p with hs | ⟨dir, stem, ext, he, hd, hs, hex, hdx, hc, hsp⟩
    · rw [hs] at hne; simp at hne
    have hns : Spec.Named (splitext p).1 := hp.named.stem
    have happ := splitext_append p
    have hext : (splitext p).2 = '.' :: ext := by rw [hsp]
    rw [hext] at happ
    have hx : pjoin output p = pjoin output (splitext p).1 ++ '.' :: ext := by rw [pjoin_json hns, happ]
    have hnx : Spec.Named ('.' :: ext) := by
      rcases List.eq_nil_or_concat ext with rfl | ⟨e', c', rfl⟩
      · exact ⟨[], '.', rfl, by decide⟩
      · refine ⟨'.' :: e', c', by simp, ?_⟩
        rintro rfl
        simp at hex
    have hap := apart_ext (x := pjoin output (splitext p).1) (t := ext) (c := '.') hns.pjoin (by decide) hnx
    rw [← hx] at hap
    simp only [Converter.convertedPaths, List.mem_cons, List.not_mem_nil, or_false] at ho ho'
    have htree : q = pjoin output p ∨ q = pjoin output (splitext p).1 ∨ ∃ n, q = pjoin output (splitext p).1 ++ '/' :: n := by
      rcases hq with rfl | ⟨ht, n, rfl⟩
      · rcases ho' with rfl | rfl
        · exact Or.inl rfl
        · exact Or.inr (Or.inl rfl)
      · rw [ht.2]; exact Or.inr (Or.inr ⟨n, rfl⟩)
    rcases ho with rfl | rfl
    · rcases htree with rfl | hq
      · exact hself _ hnp
      · exact (hap _ q rfl hq).2.2
    · rcases htree with rfl | rfl | ⟨n, rfl⟩
      · exact (hap _ _ rfl (Or.inl rfl)).2.1
      · exact hself _ hns.pjoin
      · rintro (h | ⟨r, h⟩)
        · exact hns.pjoin.not_root (fun c hc => h c (List.mem_append_left _ hc))
        · have := congrArg List.length h; simp at this
  · have hq : q = pjoin output o' := by
      rcases hq with h | ⟨ht, -⟩
      · exact h
      · exact absurd ht.1 hc
    subst hq
    have hno := (named_converted hp.named ho).pjoin (q := output)
    by_cases heq : o' = o
    · rw [heq]; exact hself _ hno
    have h2 : (o' = p ∧ o = p ++ ".json".toList) ∨ (o' = p ++ ".json".toList ∧ o = p) := by
      cases c <;> simp only [Converter.convertedPaths, List.mem_cons, List.not_mem_nil, or_false] at ho ho'
      case skn => exact absurd rfl hc
      case bin => rcases ho with rfl | rfl <;> rcases ho' with rfl | rfl <;> simp_all
      case rst => rcases ho with rfl | rfl <;> rcases ho' with rfl | rfl <;> simp_all
      all_goals exact absurd (ho'.trans ho.symm) heq
    rcases h2 with ⟨rfl, rfl⟩ | ⟨rfl, rfl⟩
    · rw [← pjoin_json hp.named]; exact (hj _ _ rfl rfl).2.2
    · rw [← pjoin_json hp.named]; exact (hj _ _ rfl rfl).2.1

theorem separate_of_ne {e : Exporter} {output : Str} (h : Spec.Separate e output) {p q : Str} (hp : some p ∈ e.paths) (hq : some q ∈ e.paths)
    (hne : p ≠ q) : Spec.Apart output (getConverter e.converters p) p (getConverter e.converters q) q := by
  have : Std.Symm fun p q => Spec.Apart output (getConverter e.converters p) p (getConverter e.converters q) q :=
    ⟨fun p q hpq x y hx hy => ApartSets.symm hpq x y hx hy⟩
  exact List.Pairwise.forall h (List.mem_filterMap.2 ⟨some p, hp, rfl⟩) (List.mem_filterMap.2 ⟨some q, hq, rfl⟩) hne

theorem export_reachable (lib : ConvLib) (e : Exporter) (src : ExportSources) (output : Str) (h : Spec.Regular e src output) (hs : Spec.Separate e output)
    (overwrite : Bool) (f : Nat → Nat → WriteFaults) (fs : FS)
    (hr : ∀ p, some p ∈ e.paths → Spec.Reachable output fs (getConverter e.converters p) p) :
    ∀ p, some p ∈ e.paths → Spec.Reachable output (e.export lib output overwrite f src fs).1 (getConverter e.converters p) p := by
  intro p hp o ho q hq b
  rcases C59_frame lib e src output h overwrite f fs q (by
    intro p' hp' hown
    by_cases hne : p' = p
    · subst hne
      exact owns_not_dirOf (h.ordinary _ hp) hown ho hq
    · exact (separate_of_ne hs hp' hp hne q _ hown ⟨o, ho, Or.inl rfl⟩).2.1 hq) with hf | ⟨-, hd, -⟩
  · rw [hf]; exact hr p hp o ho q hq b
  · rw [hd]; simp

/-- Recovery: after any number of exports of the same files, each one stopped or hindered by any faults, an export without
faults that succeeds leaves exactly what a single undisturbed export would: each file converted to all it can be. -/
theorem C59_recovers (lib : ConvLib) (e : Exporter) (src : ExportSources) (output : Str) (h : Spec.Regular e src output) (hs : Spec.Separate e output)
    (runs : List (Bool × (Nat → Nat → WriteFaults))) (hruns : ∀ r ∈ runs, Spec.Removable r.2) (fs : FS)
    (hc : ∀ p d, Spec.Exports e src p d → Spec.CleanFile lib output fs (getConverter e.converters p) p d)
    (hr : ∀ p, some p ∈ e.paths → Spec.Reachable output fs (getConverter e.converters p) p)
    (overwrite : Bool) (f : Nat → Nat → WriteFaults) (hf : Spec.NoFaults f)
    (hok : (e.export lib output overwrite f src (exportHistory lib e src output runs fs)).2 = .ok ()) :
    ∀ p d, Spec.Exports e src p d → Spec.Complete lib output
      (e.export lib output overwrite f src (exportHistory lib e src output runs fs)).1 (getConverter e.converters p) p d := by
  induction runs generalizing fs with
  | nil => exact C59_complete lib e src output h hs overwrite f hf fs hc hr hok
  | cons r rest ih =>
    obtain ⟨ov, g⟩ := r
    exact ih (fun r hr => hruns r (List.mem_cons_of_mem _ hr)) _ (C59_clean lib e src output h hs ov g (hruns _ List.mem_cons_self) fs hc)
      (export_reachable lib e src output h hs ov g fs hr) hok

/-- Without overwriting, a file whose converted paths all exist is not written, whatever its content and whatever is on disk. -/
theorem C59_keeps (lib : ConvLib) (e : Exporter) (src : ExportSources) (output : Str) (h : Spec.Regular e src output) (hs : Spec.Separate e output)
    (f : Nat → Nat → WriteFaults) (fs : FS) (p : Str) (hp : some p ∈ e.paths)
    (hex : ∀ o ∈ (getConverter e.converters p).convertedPaths p, fs (pjoin output o) ≠ none) :
    ∀ q, Spec.Owns output (getConverter e.converters p) p q → (e.export lib output false f src fs).1 q = fs q := by
  by_cases hm : ∃ a ∈ e.acts src, actPath a = some p
  · obtain ⟨a, ha, hap⟩ := hm
    have key := acts_keep (lib := lib) e.converters h.output false f
      (fun a g => actPath a = some p → ∀ q, Spec.Owns output (getConverter e.converters p) p q → g q = fs q)
      (fun own a g g' ht hapart hg hp q hq => by
        rw [ht.apart hapart (y := q) (by
          cases a with
          | open_ r => simp [actPath] at hp
          | file j =>
            simp only [actPath, Option.some.injEq] at hp
            subst hp
            exact ⟨j, rfl, hq⟩)]
        exact hg hp q hq)
      (e.acts src) (regular_ok h) (separate_acts hs)
      (fun a ha i g hg hp q hq => by
        have := hg hp
        cases a with
        | open_ r => simp [actPath] at hp
        | file j =>
          simp only [actPath, Option.some.injEq] at hp
          subst hp
          have hx : convertedExist g output (getConverter e.converters j.path) j.path = true := by
            rw [convertedExist_iff]
            intro o ho
            rw [this _ ⟨o, ho, Or.inl rfl⟩]
            exact hex o ho
          simp only [ExportAct.run, exportJob, hx]
          exact this q hq) 0 fs (fun a ha hp q hq => rfl)
    exact key a ha hap
  · intro q hq
    rcases acts_touches (lib := lib) e.converters h.output false f (e.acts src) (regular_ok h) 0 fs q (by
      rintro ⟨a, ha, j, rfl, ho⟩
      have hne : j.path ≠ p := fun he => hm ⟨_, ha, by simp [actPath, he]⟩
      exact (separate_of_ne hs (acts_path_mem ha) hp hne q q ho hq).1 rfl) with ht | ⟨⟨x, ⟨a, ha, j, rfl, ho⟩, hd⟩, hn, hdir⟩
    · exact ht
    · have hne : j.path ≠ p := fun he => hm ⟨_, ha, by simp [actPath, he]⟩
      exact absurd hd (separate_of_ne hs (acts_path_mem ha) hp hne x q ho hq).2.2

/-! ### Files that stop the export -/

/-- The file makes its converter raise `e`, which does not mean that it cannot be converted. -/
inductive Spec.Fatal (lib : ConvLib) : Converter → Bytes → Err → Prop
  | rst (d : Bytes) (e : Err) : (parseRst lib.rstEnv lib.version).run d = .error e → Spec.Fatal lib .rst d e
  | skn (d : Bytes) (e : Err) : parseSkn.run d = .error e → Spec.Fatal lib .skn d e
  | atlas (d : Bytes) (e : Err) : (parseAtlas lib.gameHashes).run d = .error e → Spec.Fatal lib .atlas d e
  | skins (d : Bytes) (e : Err) : parseChampionSkins.run d = .error e → Spec.Fatal lib .championSkin d e
  | bin (d : Bytes) (e : Err) : parseBin (some lib.version) d = .error e → e ≠ .value → e ≠ .unicode → Spec.Fatal lib .bin d e

theorem steps_err_fatal {lib : ConvLib} {output : Str} {c : Converter} {p : Str} {d : Bytes} {e : Err} (h : Spec.Fatal lib c d e) :
    (c.steps lib output p d).findSome? (·.err lib) = some e := by
  cases h with
  | rst _ _ h => simp [Converter.steps, h, OutStep.err, bodyErr]
  | skn _ _ h => simp [Converter.steps, sknFiles, h, OutStep.err, bodyErr]
  | atlas _ _ h => simp [Converter.steps, jsonBody, h, OutStep.err, bodyErr]
  | skins _ _ h => simp [Converter.steps, jsonBody, h, OutStep.err, bodyErr]
  | bin _ _ h h1 h2 =>
    have : binErr e = e := by cases e <;> simp_all [binErr]
    simp [Converter.steps, binBody, h, OutStep.err, bodyErr, this]

theorem acts_ok_each {lib : ConvLib} (cs : List Converter) {output : Str} (ho : output ≠ []) (overwrite : Bool) (f : Nat → Nat → WriteFaults)
    (P : ExportAct → FS → Prop) (hP : Stable cs output P) (acts : List ExportAct) (ha : ∀ a ∈ acts, ActOk cs a)
    (hp : acts.Pairwise fun a b => ApartSets (ActOwn cs output a) (ActOwn cs output b)) (i : Nat) (fs : FS) (h : ∀ a ∈ acts, P a fs)
    (hok : (exportActs lib cs output overwrite f i fs acts).2 = .ok ()) :
    ∀ a ∈ acts, ∃ j g, P a g ∧ (a.run lib cs output overwrite g (f j)).2 = .ok () := by
  induction acts generalizing i fs with
  | nil => simp
  | cons a rest ih =>
    rw [List.pairwise_cons] at hp
    have ht := act_touches (lib := lib) cs ho overwrite fs (f i) a (ha a (by simp))
    simp only [exportActs] at hok
    rcases hr : a.run lib cs output overwrite fs (f i) with ⟨fs', r⟩
    rw [hr] at ht hok
    simp only at ht
    cases r with
    | error e => simp at hok
    | ok u =>
      intro b hb
      rcases List.mem_cons.1 hb with rfl | hb
      · exact ⟨i, fs, h b (by simp), by rw [hr]⟩
      · exact ih (fun a h => ha a (by simp [h])) hp.2 (i + 1) fs' (fun b hb => hP _ b fs fs' ht (hp.1 b hb) (h b (by simp [hb]))) hok b hb

/-- One malformed file stops the whole export: string tables, meshes, atlases and skin lists that cannot be parsed, and bin
files for which the error is not a `ValueError` (truncated ones, for instance). -/
theorem C59_abort (lib : ConvLib) (e : Exporter) (src : ExportSources) (output : Str) (h : Spec.Regular e src output) (hs : Spec.Separate e output)
    (f : Nat → Nat → WriteFaults) (hf : Spec.NoFaults f) (fs : FS)
    (hc : ∀ p, some p ∈ e.paths → Spec.Free output fs (getConverter e.converters p) p ∧ Spec.Reachable output fs (getConverter e.converters p) p)
    (p : Str) (d : Bytes) (err : Err) (hp : Spec.Exports e src p d) (hfatal : Spec.Fatal lib (getConverter e.converters p) d err)
    (he : err ≠ .conversion) (h22 : err ≠ .os 22) (h36 : err ≠ .os 36) :
    (e.export lib output true f src fs).2 ≠ .ok () := by
  intro hok
  have hb : err.isBadName = false := by
    rw [← Bool.not_eq_true, isBadName_iff]; tauto
  obtain ⟨a, ha, haf⟩ := acts_exports.2 hp
  obtain ⟨j, g, hg, hrun⟩ := acts_ok_each (lib := lib) e.converters h.output true f
    (ForFiles e.converters (fun fs c p d => Spec.Free output fs c p ∧ Spec.Reachable output fs c p))
    (stable_files fun own c p d fs fs' ht ha hp => ⟨SameFile.free (fun q hq => ht.apart ha hq) hp.1, touches_reachable ht ha hp.2⟩)
    (e.acts src) (regular_ok h) (separate_acts hs) 0 fs
    (fun a ha p d hp => hc p (by obtain ⟨w, rfl⟩ := hp; exact acts_path_mem ha)) hok a ha
  obtain ⟨hfree, hreach⟩ := hg p d haf
  obtain ⟨w, rfl⟩ := haf
  have hak := regular_ok h _ ha
  obtain ⟨h1, -, -⟩ := steps_quiet (lib := lib) h.output (hak.ordinary _ rfl) (hak.names p d ⟨w, rfl⟩) (f j) (NoFaults.quiet hf j)
    (fun k => (hf j k).2.2.2.2) g hfree hreach
  rw [steps_err_fatal hfatal] at h1
  simp only [ExportAct.run, exportJob, Bool.not_true, Bool.false_and, Bool.false_eq_true, if_false] at hrun
  rcases hr : runSteps lib (f j) 0 g ((getConverter e.converters p).steps lib output p d) with ⟨g', r⟩
  rw [hr] at h1 hrun
  simp only at h1
  subst h1
  simp only [exportOutcome, hb, Bool.and_false, Bool.or_false, decide_eq_true_eq, if_neg he] at hrun
  cases hrun

/-! ### Boundaries -/

/-- A TEX file that cannot be converted leaves a previous image in place, even when files are overwritten. -/
theorem C59_stale_tex (lib : ConvLib) (cs : List Converter) (output : Str) (f : Nat → WriteFaults) (fs : FS) (p : Str) (w : Bool) (d : Bytes)
    (hc : getConverter cs p = .tex) (hd : texToDds d = .error .conversion) :
    exportJob lib cs output true fs ⟨p, w, .ok (some d)⟩ f = (fs, .ok ()) := by
  simp [exportJob, hc, Converter.steps, hd, runSteps, OutStep.run, exportOutcome]

/-- A library that writes images in two parts, and texts as their characters -/
def demoConv : ConvLib where
  image d := [.write [137, 80], .write d]
  binJson _ := [.write [123, 125]]
  rstJson _ _ := [.write [123, 125]]
  atlasJson _ := [.write [123, 125]]
  skinJson _ := [.write [123, 125]]
  showF _ := "0.0".toList
  text t := [.write (t.map fun c => UInt8.ofNat c.toNat)]
  binEnv := ⟨fun _ => [], fun _ => 0⟩
  rstEnv := ⟨fun _ => [], fun _ => [], fun _ => 0, fun _ => 0, id⟩
  rstHashes := []
  gameHashes := []
  version := 1502

/-- A mesh with a submesh named `name` -/
def demoSkn (name : Str) : Bytes :=
  Spec.sknFileMid 2 1 [{ name, startVertex := 0, vertexCount := 1, startIndex := 0, indexCount := 3 }] [0, 0, 0]
    [{ position := (7, 0, 0), bones := (0, 0, 0, 0), weight := (0, 0, 0, 0), normal := (0, 0, 0), uv := (0, 0), color := none, tangent := none }]

/-- An image, a mesh and a text file -/
def demoExporter : Exporter where
  plain := [("a/b.dds".toList, "/src/b".toList), ("c/m.skn".toList, "/src/m".toList), ("a/t.txt".toList, "/src/t".toList)]
  wads := []
  converters := [.image, .tex, .skn, .bin]

def demoSrc : ExportSources where
  plain s := if s = "/src/m".toList then .ok (demoSkn "A".toList) else .ok [1, 2, 3]
  wad _ := .error .fileNotFound
  codecs := ⟨fun _ => .error .codec, fun _ => .error .codec, fun _ => 0, fun _ => false⟩

/-- An empty disk, with the root and the parent of the output directory -/
def demoRoot : FS := fun q => if q = "/".toList || q = "/out".toList then some .dir else none

/-- The disk is full from the third file, or from the second part of a file. -/
def demoFull : Nat → Nat → WriteFaults := fun i _ => { write := fun k => if i = 2 || k = 1 then some (0, .os 28) else none }

/-- An image whose writing fails (here, because the disk is full) is reported as not convertible: the export goes on and
nothing is left. -/
theorem C59_full :
    let r := demoExporter.export demoConv "/out".toList true demoFull demoSrc demoRoot
    r.2 = .error (.os 28) ∧ r.1 "/out/a/b.png".toList = none ∧ r.1 "/out/a/t.txt".toList = none ∧
      r.1 "/out/c/m.skn".toList = some (.file (demoSkn "A".toList)) := by
  decide +kernel

/-- Paths that differ somewhere are apart. -/
theorem apart_of_char {output : Str} {c c' : Converter} {p p' : Str} (k : Nat) (a b : Char) (hab : a ≠ b)
    (hx : ∀ x, Spec.Owns output c p x → x[k]? = some a ∧ x[1]? = some 'o')
    (hy : ∀ y, Spec.Owns output c' p' y → y[k]? = some b ∧ y[1]? = some 'o') :
    Spec.Apart output c p c' p' := by
  have key : ∀ (u v : Str) (a b : Char), u[k]? = some a → v[k]? = some b → a ≠ b → u[1]? = some 'o' → ¬ Spec.DirOf u v := by
    rintro u v a b hu hv hab h1 (h | ⟨r, rfl⟩)
    · exact absurd (h _ (List.mem_of_getElem? h1)) (by decide)
    · rw [List.getElem?_append_left (List.getElem?_eq_some_iff.1 hu).1, hu] at hv
      exact hab (Option.some.inj hv)
  intro x y h1 h2
  obtain ⟨hx, hx1⟩ := hx x h1
  obtain ⟨hy, hy1⟩ := hy y h2
  refine ⟨?_, key _ _ a b hx hy hab hx1, key _ _ b a hy hx hab.symm hy1⟩
  rintro rfl
  rw [hx] at hy
  exact hab (Option.some.inj hy)

theorem demo_exports {p : Str} {d : Bytes} (h : Spec.Exports demoExporter demoSrc p d) :
    (p = "a/b.dds".toList ∧ d = [1, 2, 3]) ∨ (p = "c/m.skn".toList ∧ d = demoSkn "A".toList) ∨ (p = "a/t.txt".toList ∧ d = [1, 2, 3]) := by
  rcases h with ⟨s, h1, h2⟩ | ⟨w, h1, -⟩
  · simp only [demoExporter, List.mem_cons, Prod.mk.injEq, List.not_mem_nil, or_false] at h1
    rcases h1 with ⟨rfl, rfl⟩ | ⟨rfl, rfl⟩ | ⟨rfl, rfl⟩ <;> simp [demoSrc] at h2 <;> simp [h2]
  · simp [demoExporter, Dict.values] at h1

theorem demo_regular : Spec.Regular demoExporter demoSrc "/out".toList := by
  refine ⟨by decide, ?_, ?_⟩
  · intro p hp
    have : p = "a/b.dds".toList ∨ p = "c/m.skn".toList ∨ p = "a/t.txt".toList := by
      simpa [demoExporter, Exporter.paths, Dict.keys, Dict.values] using hp
    rcases this with rfl | rfl | rfl
    · exact ⟨⟨"a/b.dd".toList, 's', by decide, by decide⟩, by decide⟩
    · exact ⟨⟨"c/m.sk".toList, 'n', by decide, by decide⟩, by decide⟩
    · exact ⟨⟨"a/t.tx".toList, 't', by decide, by decide⟩, by decide⟩
  · intro p d h hc
    rcases demo_exports h with ⟨rfl, -⟩ | ⟨rfl, rfl⟩ | ⟨rfl, -⟩
    · exact absurd hc (by decide)
    · have : parseSkn.run (demoSkn "A".toList) = .ok ⟨2, 1, [⟨"A".toList,
          [{ position := (7, 0, 0), bones := (0, 0, 0, 0), weight := (0, 0, 0, 0), normal := (0, 0, 0), uv := (0, 0), color := none, tangent := none }],
          [1, 1, 1]⟩]⟩ := by decide +kernel
      rw [this]
      rintro s ⟨⟩ e he
      simp only [List.mem_singleton] at he
      subst he
      decide
    · exact absurd hc (by decide)

theorem demo_separate : Spec.Separate demoExporter "/out".toList := by
  have ha : ∀ q, Spec.Owns "/out".toList .image "a/b.dds".toList q → q = "/out/a/b.png".toList := by
    rintro q ⟨o, ho, h⟩
    rw [show Converter.convertedPaths .image "a/b.dds".toList = ["a/b.png".toList] by decide] at ho
    rw [List.mem_singleton.1 ho] at h
    rcases h with rfl | ⟨⟨h, -⟩, -⟩
    · decide
    · cases h
  have hb : ∀ q, Spec.Owns "/out".toList .copy "a/t.txt".toList q → q = "/out/a/t.txt".toList := by
    rintro q ⟨o, ho, h⟩
    rw [show Converter.convertedPaths .copy "a/t.txt".toList = ["a/t.txt".toList] by decide] at ho
    rw [List.mem_singleton.1 ho] at h
    rcases h with rfl | ⟨⟨h, -⟩, -⟩
    · decide
    · cases h
  have hc : ∀ q, Spec.Owns "/out".toList .skn "c/m.skn".toList q → ∃ r, q = "/out/c/m".toList ++ r := by
    rintro q ⟨o, ho, h⟩
    rw [show Converter.convertedPaths .skn "c/m.skn".toList = ["c/m.skn".toList, "c/m".toList] by decide] at ho
    simp only [List.mem_cons, List.not_mem_nil, or_false] at ho
    rcases h with rfl | ⟨⟨-, h⟩, n, rfl⟩
    · rcases ho with rfl | rfl
      · exact ⟨".skn".toList, by decide⟩
      · exact ⟨[], by decide⟩
    · rw [show o = "c/m".toList by rw [h]; decide]
      exact ⟨'/' :: n, by rw [show pjoin "/out".toList "c/m".toList = "/out/c/m".toList by decide]⟩
  show List.Pairwise _ ["a/b.dds".toList, "c/m.skn".toList, "a/t.txt".toList]
  have g1 : getConverter demoExporter.converters "a/b.dds".toList = .image := by decide
  have g2 : getConverter demoExporter.converters "c/m.skn".toList = .skn := by decide
  have g3 : getConverter demoExporter.converters "a/t.txt".toList = .copy := by decide
  have h1 : Spec.Apart "/out".toList .image "a/b.dds".toList .skn "c/m.skn".toList :=
    apart_of_char 5 'a' 'c' (by decide) (fun x hx => by rw [ha x hx]; decide) (fun x hx => by obtain ⟨r, rfl⟩ := hc x hx; exact ⟨rfl, rfl⟩)
  have h2 : Spec.Apart "/out".toList .image "a/b.dds".toList .copy "a/t.txt".toList :=
    apart_of_char 7 'b' 't' (by decide) (fun x hx => by rw [ha x hx]; decide) (fun x hx => by rw [hb x hx]; decide)
  have h3 : Spec.Apart "/out".toList .skn "c/m.skn".toList .copy "a/t.txt".toList :=
    apart_of_char 5 'c' 'a' (by decide) (fun x hx => by obtain ⟨r, rfl⟩ := hc x hx; exact ⟨rfl, rfl⟩) (fun x hx => by rw [hb x hx]; decide)
  refine List.pairwise_cons.2 ⟨?_, List.pairwise_cons.2 ⟨?_, List.pairwise_singleton _ _⟩⟩
  · intro q hq
    simp only [List.mem_cons, List.not_mem_nil, or_false] at hq
    rcases hq with rfl | rfl
    · rw [g1, g2]; exact h1
    · rw [g1, g3]; exact h2
  · intro q hq
    rw [List.mem_singleton.1 hq, g2, g3]; exact h3

theorem demo_nothing {q : Str} (h : q[6]? ≠ none) : demoRoot q = none := by
  unfold demoRoot
  rw [if_neg]
  rintro h'
  simp only [Bool.or_eq_true, decide_eq_true_eq] at h'
  rcases h' with rfl | rfl <;> exact h (by decide)

theorem demo_clean : ∀ p d, Spec.Exports demoExporter demoSrc p d → ∀ o ∈ (getConverter demoExporter.converters p).convertedPaths p,
    Spec.Nothing demoRoot (getConverter demoExporter.converters p) p o (pjoin "/out".toList o) := by
  intro p d h o ho
  have : o = "a/b.png".toList ∨ o = "c/m.skn".toList ∨ o = "c/m".toList ∨ o = "a/t.txt".toList := by
    rcases demo_exports h with ⟨rfl, -⟩ | ⟨rfl, -⟩ | ⟨rfl, -⟩
    · rw [show (getConverter demoExporter.converters "a/b.dds".toList).convertedPaths "a/b.dds".toList = ["a/b.png".toList] by decide] at ho
      exact Or.inl (List.mem_singleton.1 ho)
    · rw [show (getConverter demoExporter.converters "c/m.skn".toList).convertedPaths "c/m.skn".toList = ["c/m.skn".toList, "c/m".toList] by decide] at ho
      simp only [List.mem_cons, List.not_mem_nil, or_false] at ho
      rcases ho with rfl | rfl
      · exact Or.inr (Or.inl rfl)
      · exact Or.inr (Or.inr (Or.inl rfl))
    · rw [show (getConverter demoExporter.converters "a/t.txt".toList).convertedPaths "a/t.txt".toList = ["a/t.txt".toList] by decide] at ho
      exact Or.inr (Or.inr (Or.inr (List.mem_singleton.1 ho)))
  rcases this with rfl | rfl | rfl | rfl <;>
    exact ⟨demo_nothing (by decide), fun _ n => demo_nothing (by
      rw [List.getElem?_append_left (by decide)]; decide)⟩

theorem demo_reachable : ∀ p, Spec.Reachable "/out".toList demoRoot (getConverter demoExporter.converters p) p := by
  intro p o _ q _ b
  unfold demoRoot
  split <;> simp

/-- Non-vacuity: the disk is full during a first export, then a second one, lazy, completes it. -/
example :
    let fs := exportHistory demoConv demoExporter demoSrc "/out".toList [(true, demoFull)] demoRoot
    let r := demoExporter.export demoConv "/out".toList false (fun _ _ => {}) demoSrc fs
    r.2 = .ok () ∧ (∀ p d, Spec.Exports demoExporter demoSrc p d →
      Spec.Complete demoConv "/out".toList r.1 (getConverter demoExporter.converters p) p d) ∧
    r.1 "/out/a/b.png".toList = some (.file [137, 80, 1, 2, 3]) ∧ r.1 "/out/c/m".toList = some .dir := by
  intro fs r
  have hok : r.2 = .ok () := by decide +kernel
  refine ⟨hok, ?_, by decide +kernel, by decide +kernel⟩
  exact C59_recovers demoConv demoExporter demoSrc "/out".toList demo_regular demo_separate [(true, demoFull)]
    (by intro r hr i j; rw [List.mem_singleton.1 hr]; rfl) demoRoot
    (fun p d h o ho => Or.inl (demo_clean p d h o ho)) (fun p _ => demo_reachable p) false _
    (fun _ _ => ⟨rfl, rfl, fun _ => rfl, rfl, rfl⟩) hok

theorem demo_paths {p : Str} (hp : some p ∈ demoExporter.paths) : p = "a/b.dds".toList ∨ p = "c/m.skn".toList ∨ p = "a/t.txt".toList := by
  simpa [demoExporter, Exporter.paths, Dict.keys, Dict.values] using hp

theorem demo_source {p : Str} (hp : some p ∈ demoExporter.paths) : ∃ d, Spec.Exports demoExporter demoSrc p d := by
  rcases demo_paths hp with rfl | rfl | rfl
  · exact ⟨[1, 2, 3], Or.inl ⟨"/src/b".toList, by simp [demoExporter], by decide +kernel⟩⟩
  · exact ⟨demoSkn "A".toList, Or.inl ⟨"/src/m".toList, by simp [demoExporter], by decide +kernel⟩⟩
  · exact ⟨[1, 2, 3], Or.inl ⟨"/src/t".toList, by simp [demoExporter], by decide +kernel⟩⟩

theorem demo_free : ∀ p, some p ∈ demoExporter.paths → Spec.Free "/out".toList demoRoot (getConverter demoExporter.converters p) p ∧
    Spec.Reachable "/out".toList demoRoot (getConverter demoExporter.converters p) p := by
  intro p hp
  obtain ⟨d, hd⟩ := demo_source hp
  refine ⟨fun o ho => ?_, demo_reachable p⟩
  obtain ⟨h1, h2⟩ := demo_clean p d hd o ho
  rw [h1]
  exact ⟨fun _ => by simp, fun ht => ⟨by simp, fun _ n => h2 ht n⟩⟩

/-- Non-vacuity of `C59_succeeds` -/
example : (demoExporter.export demoConv "/out".toList true (fun _ _ => {}) demoSrc demoRoot).2 = .ok () := by
  refine C59_succeeds demoConv demoExporter demoSrc "/out".toList demo_regular demo_separate true _ (fun _ _ => ⟨rfl, rfl, fun _ => rfl, rfl, rfl⟩) demoRoot ⟨?_, ?_⟩ demo_free ?_
  · intro p source _
    simp only [demoSrc]
    split <;> exact ⟨_, rfl⟩
  · simp [demoExporter, Dict.values]
  · intro p d h
    left
    intro o ho
    rcases demo_exports h with ⟨rfl, rfl⟩ | ⟨rfl, rfl⟩ | ⟨rfl, rfl⟩
    · rw [show getConverter demoExporter.converters "a/b.dds".toList = .image by decide] at ho ⊢
      rw [show Converter.convertedPaths .image "a/b.dds".toList = ["a/b.png".toList] by decide, List.mem_singleton] at ho
      subst ho
      exact ⟨_, .image _ _ _ ⟨[[137, 80], [1, 2, 3]], rfl, rfl⟩⟩
    · rw [show getConverter demoExporter.converters "c/m.skn".toList = .skn by decide] at ho ⊢
      rw [show Converter.convertedPaths .skn "c/m.skn".toList = ["c/m.skn".toList, "c/m".toList] by decide] at ho
      simp only [List.mem_cons, List.not_mem_nil, or_false] at ho
      rcases ho with rfl | rfl
      · exact ⟨_, .sknCopy _ _⟩
      · have hs : parseSkn.run (demoSkn "A".toList) = .ok ⟨2, 1, [⟨"A".toList,
          [{ position := (7, 0, 0), bones := (0, 0, 0, 0), weight := (0, 0, 0, 0), normal := (0, 0, 0), uv := (0, 0), color := none, tangent := none }],
          [1, 1, 1]⟩]⟩ := by decide +kernel
        exact ⟨_, .sknDir _ _ _ [(_, _)] hs (.cons ⟨rfl, _, rfl, [_], rfl, rfl⟩ .nil)⟩
    · rw [show getConverter demoExporter.converters "a/t.txt".toList = .copy by decide] at ho ⊢
      rw [show Converter.convertedPaths .copy "a/t.txt".toList = ["a/t.txt".toList] by decide, List.mem_singleton] at ho
      subst ho
      exact ⟨_, .copy _ _⟩

/-- The mesh is not one -/
def demoBad : ExportSources := { demoSrc with plain := fun _ => .ok [1, 2, 3] }

/-- Non-vacuity of `C59_abort` -/
example : (demoExporter.export demoConv "/out".toList true (fun _ _ => {}) demoBad demoRoot).2 ≠ .ok () := by
  have hreg : Spec.Regular demoExporter demoBad "/out".toList := by
    refine ⟨demo_regular.1, demo_regular.2, ?_⟩
    intro p d h hc s hs
    have : d = [1, 2, 3] := by
      rcases h with ⟨s, h1, h2⟩ | ⟨w, h1, -⟩
      · simp only [demoBad, Except.ok.injEq] at h2
        exact h2.symm
      · simp [demoExporter, Dict.values] at h1
    subst this
    rw [show parseSkn.run [1, 2, 3] = .error .value by decide +kernel] at hs
    simp at hs
  exact C59_abort demoConv demoExporter demoBad "/out".toList hreg demo_separate _ (fun _ _ => ⟨rfl, rfl, fun _ => rfl, rfl, rfl⟩) demoRoot demo_free
    "c/m.skn".toList [1, 2, 3] .value (Or.inl ⟨"/src/m".toList, by simp [demoExporter], rfl⟩)
    (.skn _ _ (by decide +kernel)) (by simp) (by simp) (by simp)

/-- Non-vacuity of `C59_keeps`: another text was there. -/
example : (demoExporter.export demoConv "/out".toList false (fun _ _ => {}) demoSrc
    (fun q => if q = "/out/a/t.txt".toList then some (.file [9]) else demoRoot q)).1 "/out/a/t.txt".toList = some (.file [9]) := by
  rw [C59_keeps demoConv demoExporter demoSrc "/out".toList demo_regular demo_separate _ _ "a/t.txt".toList (by decide +kernel) ?_ _
    ⟨"a/t.txt".toList, by decide +kernel, Or.inl (by decide +kernel)⟩]
  · rfl
  · intro o ho
    rw [show (getConverter demoExporter.converters "a/t.txt".toList).convertedPaths "a/t.txt".toList = ["a/t.txt".toList] by decide, List.mem_singleton] at ho
    subst ho
    decide +kernel

/-- The name of a submesh can be an absolute path: its file is then written outside of the output directory. -/
theorem C59_outside :
    let src : ExportSources := { demoSrc with plain := fun _ => .ok (demoSkn "/x".toList) }
    let e : Exporter := { demoExporter with plain := [("c/m.skn".toList, "/src/m".toList)] }
    let r := e.export demoConv "/out".toList true (fun _ _ => {}) src demoRoot
    r.2 = .ok () ∧ (∃ b, r.1 "/x.obj".toList = some (.file b)) ∧ r.1 "/out/c/m/x.obj".toList = none := by
  intro src e r
  have : ∃ b, r.1 "/x.obj".toList = some (.file b) := by
    have h : (match r.1 "/x.obj".toList with | some (.file _) => true | _ => false) = true := by decide +kernel
    split at h
    · rename_i b hb; exact ⟨b, hb⟩
    · cases h
  exact ⟨by decide +kernel, this, by decide +kernel⟩

/-- Exporting a mesh removes what was exported to a directory of the same name, here by the same export. -/
theorem C59_collision :
    let e : Exporter := { demoExporter with plain := [("c/m/t.txt".toList, "/src/t".toList), ("c/m.skn".toList, "/src/m".toList)] }
    let r := e.export demoConv "/out".toList true (fun _ _ => {}) demoSrc demoRoot
    r.2 = .ok () ∧ r.1 "/out/c/m/t.txt".toList = none := by
  decide +kernel

end Cdtb
