import Verif.Model.RadsStorage
import Verif.Spec.RadsStorage
import Verif.Props.C05
import Verif.Props.C41
import Verif.Props.C60
/-! Lemmas on RADS storages: manifests, paths -/
namespace Cdtb
set_option autoImplicit false
open Py Spec

/-! ## Manifests -/

/-- The entry as it is parsed -/
def Spec.PkgEntry.parsed (e : PkgEntry) : PkgFile :=
  ⟨if e.compressed then e.file ++ ".compressed".toList else e.file, e.package, e.offset, e.size, e.compressed, e.file⟩

theorem parse_entry {e : PkgEntry} (h : e.Ok) : parsePkgLine (e.line ++ ['\n']) = .ok e.parsed := by
  have hc : ',' ∉ (if e.compressed then e.file ++ ".compressed".toList else e.file) := by
    have h0 : ',' ∉ ".compressed".toList := by decide +kernel
    split
    · rw [List.mem_append, not_or]; exact ⟨h.commas.1, h0⟩
    · exact h.commas.1
  have ht : ',' ∉ e.typ ++ ['\n'] := by
    rw [List.mem_append, not_or]; exact ⟨h.commas.2.2, by decide⟩
  obtain ⟨pf, h1, h2, h3, h4, h5, h6, h7⟩ := C43_line _ e.package (e.typ ++ ['\n']) e.offset e.size hc h.commas.2.1 ht
  have hl : e.line ++ ['\n'] = pkgLine (if e.compressed then e.file ++ ".compressed".toList else e.file) e.package e.offset e.size (e.typ ++ ['\n']) := by
    simp only [PkgEntry.line, pkgLine, List.cons_append, List.append_assoc]
  rw [hl, h1]
  congr 1
  have h8 : pf.compressed = e.compressed ∧ pf.extractPath = e.file := by
    cases hb : e.compressed with
    | true => simp only [hb, if_true] at h6; exact h6 _ rfl
    | false =>
      simp only [hb, Bool.false_eq_true, if_false] at h7
      exact h7 (h.plain hb)
  obtain ⟨p1, p2, p3, p4, p5, p6⟩ := pf
  simp only at h2 h3 h4 h5 h8
  simp only [PkgEntry.parsed]
  rw [h2, h3, h4, h5, h8.1, h8.2]

theorem mapM_ok {α β : Type} {f : α → Res β} {g : α → β} {l : List α} (h : ∀ x ∈ l, f x = .ok (g x)) : l.mapM f = .ok (l.map g) := by
  induction l with
  | nil => rfl
  | cons x l ih =>
    rw [List.mapM_cons, h x (by simp), ih (fun y hy => h y (by simp [hy]))]
    rfl

theorem line_nobreak {e : PkgEntry} (h : e.Ok) : '\n' ∉ e.line ∧ '\r' ∉ e.line := by
  have key : ∀ c, (c = '\n' ∨ c = '\r') → c ∉ e.line := by
    intro c hc hm
    have h0 : c ∉ ".compressed".toList := by rcases hc with rfl | rfl <;> decide +kernel
    have h1 : ∀ n : Int, c ∉ showInt n := by
      intro n hn
      rcases showInt_char hn with h | h
      · rcases hc with rfl | rfl <;> exact absurd h (by decide)
      · rcases hc with rfl | rfl <;> exact absurd h (by decide +kernel)
    have hb : ∀ x ∈ e.file ++ e.package ++ e.typ, c ≠ x := by
      intro x hx he
      subst he
      have := h.breaks _ hx
      rcases hc with rfl | rfl
      · exact this.1 rfl
      · exact this.2 rfl
    have hs : c ≠ '/' ∧ c ≠ ',' := by rcases hc with rfl | rfl <;> decide
    have hf : c ∉ e.file := fun hx => hb c (by simp [hx]) rfl
    have hp : c ∉ e.package := fun hx => hb c (by simp [hx]) rfl
    have ht : c ∉ e.typ := fun hx => hb c (by simp [hx]) rfl
    have hpath : c ∉ (if e.compressed then e.file ++ ".compressed".toList else e.file) := by
      split
      · rw [List.mem_append, not_or]; exact ⟨hf, h0⟩
      · exact hf
    simp only [PkgEntry.line, pkgLine, List.mem_append, List.mem_cons, hs.1, hs.2, hpath, hp, ht, h1, or_self] at hm
  exact ⟨key _ (Or.inl rfl), key _ (Or.inr rfl)⟩

theorem parse_manifest {b : Bytes} {magic : Str} {es : List PkgEntry} (hm : ∀ c ∈ magic, c ≠ '\n' ∧ c ≠ '\r') (he : ∀ e ∈ es, e.Ok)
    (h : EncodesLines b (("PKG1".toList ++ magic) :: es.map PkgEntry.line)) :
    (do let text ← utf8 b; parsePkgManifest text) = .ok (es.map PkgEntry.parsed) := by
  obtain ⟨ls, h1, h2⟩ := h
  cases ls with
  | nil => simp at h2
  | cons l ls =>
    obtain ⟨l, eol⟩ := l
    simp only [List.map_cons, List.cons.injEq] at h2
    obtain ⟨rfl, h2⟩ := h2
    rw [h1]
    show parsePkgManifest _ = _
    rw [C43_manifest magic eol ls ⟨fun h => (hm _ h).1 rfl, fun h => (hm _ h).2 rfl⟩]
    · have e1 : (ls.mapM fun l => parsePkgLine (l.1 ++ ['\n'])) = (ls.map (·.1)).mapM fun l => parsePkgLine (l ++ ['\n']) := by
        rw [List.mapM_map]; rfl
      rw [e1, h2, List.mapM_map]
      exact mapM_ok fun e hem => parse_entry (he e hem)
    · intro x hx
      have : x.1 ∈ es.map PkgEntry.line := by rw [← h2]; exact List.mem_map_of_mem hx
      obtain ⟨e, hem, hl⟩ := List.mem_map.1 this
      rw [← hl]; exact line_nobreak (he e hem)

theorem langLoop_wf {projects : Dict Str ProjVer} {n : Nat} {d d' : LangDeps} {lines : List Str} (hd : Dict.WF d)
    (h : langLoop projects n d lines = .ok d') : Dict.WF d' := by
  induction n generalizing d lines with
  | zero => simp only [langLoop, pure, Except.pure, Except.ok.injEq] at h; rw [← h]; exact hd
  | succ n ih =>
    match lines with
    | [] => simp [langLoop, throw, throwThe, MonadExceptOf.throw] at h
    | [_] => simp [langLoop, throw, throwThe, MonadExceptOf.throw] at h
    | [_, _] => simp [langLoop, throw, throwThe, MonadExceptOf.throw] at h
    | lang :: u :: nd :: lines =>
      simp only [langLoop, bind, Except.bind, pure, Except.pure, throw, throwThe, MonadExceptOf.throw] at h
      repeat (split at h; · simp at h)
      exact ih (hd.set _ _) h

theorem dependencies_wf {name : Str} {version : Version} {lines : List Str} {d : LangDeps} (h : dependencies name version lines = .ok d) :
    Dict.WF d := by
  simp only [dependencies, bind, Except.bind, pure, Except.pure] at h
  repeat (split at h; · simp at h)
  rename_i hl _ _ _
  simp only [Except.ok.injEq] at h
  rw [← h]
  exact (langLoop_wf .nil hl).set _ _

/-- What the dependencies of a manifest are -/
structure DepsOf (m : SolManifest) (d : LangDeps) : Prop where
  wf : Dict.WF d
  langs : ∀ l, (d.get? (some l)).map pairs = (m.depsOf l).map fun deps => deps.map fun n => (n, m.versionOf n)
  required : (d.get? none).map pairs = some (m.required.map fun n => (n, m.versionOf n))
  versions : ∀ k ps, (k, ps) ∈ d → ∀ p ∈ ps, radsVersion (.str p.version.s) = .ok p.version
  keys : ∀ k, k ∈ d.keys ↔ k = none ∨ ∃ l ∈ m.langs, k = some l.1

theorem parse_solution {site : RadsSite} {inflate : Bytes → Res Bytes} (hok : site.Ok inflate) {sv : SolVer} {m : SolManifest} {b : Bytes}
    (hm : site.solution sv.name sv.version.s = some m) (hb : EncodesLines b m.lines) :
    ∃ d, (do let text ← utf8 b; dependenciesOfText sv.name sv.version text) = .ok d ∧ DepsOf m d := by
  obtain ⟨ls, h1, h2⟩ := hb
  obtain ⟨m1, m2, m3, m4⟩ := hok.manifest _ _ _ hm
  obtain ⟨d, d1, d2, d3, d4, d5⟩ := C42_decode m m1 m4 sv.version m3.symm []
  refine ⟨d, ?_, ⟨dependencies_wf d1, d2, d3, d4, d5⟩⟩
  rw [h1]
  show dependenciesOfText _ _ _ = _
  rw [C42_text ls, h2, ← m2]
  · simpa using d1
  · intro l hl
    apply hok.lines _ _ _ hm
    rw [← h2]; exact List.mem_map_of_mem hl

theorem lookup_pairs {m : SolManifest} {ps : List ProjVer} {names : List Str} (h : pairs ps = names.map fun n => (n, m.versionOf n)) :
    (∀ p ∈ ps, p.name ∈ names ∧ m.versionOf p.name = some p.version.s) ∧ ∀ n ∈ names, ∃ p ∈ ps, p.name = n := by
  constructor
  · intro p hp
    have : (p.name, some p.version.s) ∈ pairs ps := List.mem_map.2 ⟨p, hp, rfl⟩
    rw [h] at this
    obtain ⟨n, hn, he⟩ := List.mem_map.1 this
    simp only [Prod.mk.injEq] at he
    obtain ⟨rfl, he⟩ := he
    exact ⟨hn, he⟩
  · intro n hn
    have : (n, m.versionOf n) ∈ pairs ps := by rw [h]; exact List.mem_map.2 ⟨n, hn, rfl⟩
    obtain ⟨p, hp, he⟩ := List.mem_map.1 this
    simp only [Prod.mk.injEq] at he
    exact ⟨p, hp, he.1⟩

theorem versionOf_mem {m : SolManifest} {n v : Str} (h : m.versionOf n = some v) : ∃ p ∈ m.projects, p.1 = n ∧ p.2.1 = v := by
  unfold SolManifest.versionOf at h
  rw [Option.map_eq_some_iff] at h
  obtain ⟨p, hp, he⟩ := h
  exact ⟨p, List.mem_reverse.1 (List.mem_of_find?_eq_some hp), by simpa using List.find?_some hp, he⟩

/-- The project versions of given languages -/
theorem select_projects {m : SolManifest} {d : LangDeps} (h : DepsOf m d) {langs : RadsLangs} {pvs : List ProjVer}
    (hs : solutionProjects d langs = .ok pvs) :
    (∀ pv ∈ pvs, UsedBy m langs pv.name ∧ m.versionOf pv.name = some pv.version.s ∧ radsVersion (.str pv.version.s) = .ok pv.version) ∧
    ∀ p, UsedBy m langs p → ∃ pv ∈ pvs, pv.name = p := by
  have hget : ∀ {k : Option Str} {ps : List ProjVer}, d.get k = .ok ps → d.get? k = some ps := by
    intro k ps hk
    unfold Dict.get at hk
    split at hk
    · rename_i v hv; simp only [Except.ok.injEq] at hk; rw [← hk]; exact hv
    · simp at hk
  have hreq : ∀ ps, d.get? none = some ps → (∀ p ∈ ps, p.name ∈ m.required ∧ m.versionOf p.name = some p.version.s ∧
      radsVersion (.str p.version.s) = .ok p.version) ∧ ∀ n ∈ m.required, ∃ p ∈ ps, p.name = n := by
    intro ps hps
    have h1 := h.required
    rw [hps] at h1
    simp only [Option.map_some, Option.some.injEq] at h1
    obtain ⟨a, b⟩ := lookup_pairs h1
    exact ⟨fun p hp => ⟨(a p hp).1, (a p hp).2, h.versions none ps (Dict.mem_of_get? hps) p hp⟩, b⟩
  have hlang : ∀ l ps, d.get? (some l) = some ps → ∃ deps, m.depsOf l = some deps ∧ (∀ p ∈ ps, p.name ∈ deps ∧ m.versionOf p.name = some p.version.s ∧
      radsVersion (.str p.version.s) = .ok p.version) ∧ ∀ n ∈ deps, ∃ p ∈ ps, p.name = n := by
    intro l ps hps
    have h1 := h.langs l
    rw [hps] at h1
    simp only [Option.map_some] at h1
    obtain ⟨deps, h2, h3⟩ := Option.map_eq_some_iff.1 h1.symm
    obtain ⟨a, b⟩ := lookup_pairs h3.symm
    exact ⟨deps, h2, fun p hp => ⟨(a p hp).1, (a p hp).2, h.versions _ ps (Dict.mem_of_get? hps) p hp⟩, b⟩
  have hback : ∀ l deps, m.depsOf l = some deps → ∃ ps, d.get? (some l) = some ps := by
    intro l deps hd
    have h1 := h.langs l
    rw [hd] at h1
    obtain ⟨ps, h2, -⟩ := Option.map_eq_some_iff.1 h1
    exact ⟨ps, h2⟩
  cases langs with
  | none_ =>
    obtain ⟨a, b⟩ := hreq _ (hget hs)
    exact ⟨a, b⟩
  | one l =>
    obtain ⟨deps, h1, a, b⟩ := hlang _ _ (hget hs)
    refine ⟨fun pv hpv => ⟨⟨deps, h1, (a pv hpv).1⟩, (a pv hpv).2⟩, ?_⟩
    rintro p ⟨deps', h2, hp⟩
    rw [h1] at h2
    cases h2
    exact b p hp
  | all =>
    obtain ⟨ps, h1, -, h2⟩ := (C42_projects d).2.2.1
    rw [hs] at h1
    cases h1
    obtain ⟨ps0, hps0⟩ : ∃ ps0, d.get? none = some ps0 := by
      obtain ⟨ps0, h, -⟩ := Option.map_eq_some_iff.1 h.required
      exact ⟨ps0, h⟩
    have hkey : ∀ k qs, (k, qs) ∈ d → k ∈ d.keys := fun k qs hk => List.mem_map.2 ⟨_, hk, rfl⟩
    constructor
    · intro pv hpv
      obtain ⟨k, qs, hk, hq⟩ := (h2 pv).1 hpv
      have hk := Dict.get?_of_mem h.wf hk
      cases k with
      | none =>
        obtain ⟨a, -⟩ := hreq _ hk
        exact ⟨Or.inl (a pv hq).1, (a pv hq).2⟩
      | some l =>
        obtain ⟨deps, h3, a, -⟩ := hlang _ _ hk
        exact ⟨Or.inr ⟨l, deps, h3, (a pv hq).1⟩, (a pv hq).2⟩
    · rintro p (hp | ⟨l, deps, hl, hp⟩)
      · obtain ⟨pv, hpv, rfl⟩ := (hreq _ hps0).2 p hp
        exact ⟨pv, (h2 pv).2 ⟨none, ps0, Dict.mem_of_get? hps0, hpv⟩, rfl⟩
      · obtain ⟨qs, hqs⟩ := hback l deps hl
        obtain ⟨deps', h3, -, b⟩ := hlang l qs hqs
        rw [hl] at h3
        cases h3
        obtain ⟨pv, hpv, rfl⟩ := b p hp
        exact ⟨pv, (h2 pv).2 ⟨_, qs, Dict.mem_of_get? hqs, hpv⟩, rfl⟩
  | some_ ls =>
    by_cases hne : ∀ l ∈ ls, d.get? (some l) ≠ none
    · obtain ⟨ps, h1, -, h2⟩ := (C42_projects d).2.2.2.1 ls hne
      rw [hs] at h1
      cases h1
      constructor
      · intro pv hpv
        obtain ⟨l, hl, qs, hqs, hq⟩ := (h2 pv).1 hpv
        obtain ⟨deps, h3, a, -⟩ := hlang l qs hqs
        exact ⟨⟨l, hl, deps, h3, (a pv hq).1⟩, (a pv hq).2⟩
      · rintro p ⟨l, hl, deps, hd, hp⟩
        obtain ⟨qs, hqs⟩ := hback l deps hd
        obtain ⟨deps', h3, -, b⟩ := hlang l qs hqs
        rw [hd] at h3
        cases h3
        obtain ⟨pv, hpv, rfl⟩ := b p hp
        exact ⟨pv, (h2 pv).2 ⟨l, hl, qs, hqs, hpv⟩, rfl⟩
    · rw [(C42_projects d).2.2.2.2.1 ls (by
        by_contra hc
        apply hne
        intro l hl hn
        exact hc ⟨l, hl, hn⟩)] at hs
      simp at hs

/-! ## Paths -/

theorem relPath (a : Char) (s : Str) (h : a ≠ '/') : startsWith (a :: s) ['/'] = false := by
  rw [Bool.eq_false_iff, ne_eq, startsWith_iff]
  rintro ⟨t, ht⟩
  exact h (List.cons.inj ht).1

theorem solutionFile_eq (n v f : Str) : solutionFile n v f = 's' :: ("olutions/".toList ++ (n ++ '/' :: ("releases".toList ++ '/' :: (v ++ '/' :: f)))) := by
  have h1 : "solutions/".toList = 's' :: "olutions/".toList := by decide +kernel
  have h2 : "/releases/".toList = '/' :: ("releases".toList ++ ['/']) := by decide +kernel
  unfold solutionFile
  generalize "solutions/".toList = a at h1 ⊢
  generalize "/releases/".toList = c at h2 ⊢
  generalize "olutions/".toList = b at h1 ⊢
  generalize "releases".toList = d at h2 ⊢
  subst h1 h2
  simp only [List.append_assoc, List.cons_append, List.nil_append]

theorem projectFile_eq (n v f : Str) : projectFile n v f = 'p' :: ("rojects/".toList ++ (n ++ '/' :: ("releases".toList ++ '/' :: (v ++ '/' :: f)))) := by
  have h1 : "projects/".toList = 'p' :: "rojects/".toList := by decide +kernel
  have h2 : "/releases/".toList = '/' :: ("releases".toList ++ ['/']) := by decide +kernel
  unfold projectFile
  generalize "projects/".toList = a at h1 ⊢
  generalize "/releases/".toList = c at h2 ⊢
  generalize "rojects/".toList = b at h1 ⊢
  generalize "releases".toList = d at h2 ⊢
  subst h1 h2
  simp only [List.append_assoc, List.cons_append, List.nil_append]

theorem filePath_eq {p : Str} : FilePath p ↔ ∃ n v rest, '/' ∉ n ∧ '/' ∉ v ∧ p = projectFile n v ("files/".toList ++ rest) := by
  have h2 : "/files/".toList = '/' :: "files/".toList := by decide +kernel
  unfold FilePath projectFile
  simp only [h2, List.append_assoc, List.cons_append]

theorem rooted_solution (base n v f : Str) : storageFspath base (solutionFile n v f) = rootPre base ++ solutionFile n v f := by
  rw [solutionFile_eq, fspath_eq _ (relPath _ _ (by decide))]

theorem rooted_project (base n v f : Str) : storageFspath base (projectFile n v f) = rootPre base ++ projectFile n v f := by
  rw [projectFile_eq, fspath_eq _ (relPath _ _ (by decide))]

theorem solutionFile_inj {n v f n' v' f' : Str} (hn : '/' ∉ n) (hv : '/' ∉ v) (hn' : '/' ∉ n') (hv' : '/' ∉ v')
    (h : solutionFile n v f = solutionFile n' v' f') : n = n' ∧ v = v' ∧ f = f' := by
  simp only [solutionFile_eq, List.cons.injEq, true_and, List.append_cancel_left_eq] at h
  obtain ⟨h1, h2⟩ := noslash_split hn hn' h
  simp only [List.append_cancel_left_eq, List.cons.injEq, true_and] at h2
  obtain ⟨h3, h4⟩ := noslash_split hv hv' h2
  exact ⟨h1, h3, h4⟩

theorem projectFile_inj {n v f n' v' f' : Str} (hn : '/' ∉ n) (hv : '/' ∉ v) (hn' : '/' ∉ n') (hv' : '/' ∉ v')
    (h : projectFile n v f = projectFile n' v' f') : n = n' ∧ v = v' ∧ f = f' := by
  simp only [projectFile_eq, List.cons.injEq, true_and, List.append_cancel_left_eq] at h
  obtain ⟨h1, h2⟩ := noslash_split hn hn' h
  simp only [List.append_cancel_left_eq, List.cons.injEq, true_and] at h2
  obtain ⟨h3, h4⟩ := noslash_split hv hv' h2
  exact ⟨h1, h3, h4⟩

theorem solution_ne_project (n v f n' v' f' : Str) : solutionFile n v f ≠ projectFile n' v' f' := by
  rw [solutionFile_eq, projectFile_eq]; exact head_ne (by decide)

theorem solVer_file (sv : SolVer) (f : Str) : sv.path ++ '/' :: f = solutionFile sv.name sv.version.s f := rfl

theorem manifest_path (sv : SolVer) : sv.manifest = solutionFile sv.name sv.version.s "solutionmanifest".toList := by
  have h2 : "/solutionmanifest".toList = '/' :: "solutionmanifest".toList := by decide +kernel
  rw [SolVer.manifest, h2]; rfl

theorem cache_path (sv : SolVer) : sv.cache = solutionFile sv.name sv.version.s "_patch_version".toList := by
  have h2 : "/_patch_version".toList = '/' :: "_patch_version".toList := by decide +kernel
  rw [SolVer.cache, h2]; rfl

theorem pmanifest_path (pv : ProjVer) : pv.manifest = projectFile pv.name pv.version.s "packagemanifest".toList := by
  have h2 : "/packagemanifest".toList = '/' :: "packagemanifest".toList := by decide +kernel
  rw [ProjVer.manifest, h2]; rfl

theorem pmanifest_url (pv : ProjVer) : pv.manifestUrl = projectFile pv.name pv.version.s "packages/files/packagemanifest".toList := by
  have h2 : "/packages/files/packagemanifest".toList = '/' :: "packages/files/packagemanifest".toList := by decide +kernel
  rw [ProjVer.manifestUrl, h2]; rfl

theorem rmanifest_path (pv : ProjVer) : pv.releaseManifest = projectFile pv.name pv.version.s "releasemanifest".toList := by
  have h2 : "/releasemanifest".toList = '/' :: "releasemanifest".toList := by decide +kernel
  rw [ProjVer.releaseManifest, h2]; rfl

theorem package_url (pv : ProjVer) (p : Str) : pv.path ++ "/packages/files/".toList ++ p = projectFile pv.name pv.version.s ("packages/files/".toList ++ p) := by
  have h2 : "/packages/files/".toList = '/' :: "packages/files/".toList := by decide +kernel
  unfold projectFile ProjVer.path
  generalize "/packages/files/".toList = a at h2 ⊢
  generalize "packages/files/".toList = b at h2 ⊢
  subst h2
  simp only [List.append_assoc, List.cons_append]

end Cdtb
