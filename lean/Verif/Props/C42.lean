import Verif.Props.C40
import Verif.Props.C43
import Verif.Props.C29
import Verif.Props.C36
import Verif.Spec.Rads
import Mathlib.Data.List.Dedup
/-!
# C42  Solution manifests decode to the dependency map
-/
namespace Cdtb
set_option autoImplicit false
open Py

/-- A manifest whose versions are RADS versions and whose languages are known -/
structure Spec.SolManifest.Ok (m : Spec.SolManifest) : Prop where
  versions : ∀ p ∈ m.projects, ∃ v, radsVersion (.str p.2.1) = .ok v
  langs : ∀ l ∈ m.langs, l.1 ∈ languages

/-- The dependencies of a list of names, as names and version strings -/
def pairs (ps : List ProjVer) : List (Str × Option Str) := ps.map fun p => (p.name, some p.version.s)

def parsedVersion (s : Str) : Version := match radsVersion (.str s) with
  | .ok v => v
  | .error _ => ⟨[], .main⟩

theorem radsVersion_parsed {s : Str} (h : ∃ v, radsVersion (.str s) = .ok v) : radsVersion (.str s) = .ok (parsedVersion s) := by
  obtain ⟨v, hv⟩ := h
  rw [parsedVersion, hv]

def projEntry (p : Str × Str × Bool) : Str × ProjVer := (p.1, ⟨p.1, parsedVersion p.2.1⟩)

theorem projectLoop_ok (ps : List (Str × Str × Bool)) (st : List Str × Dict Str ProjVer) (rest : List Str)
    (h : ∀ p ∈ ps, ∃ v, radsVersion (.str p.2.1) = .ok v) :
    projectLoop ps.length st (ps.flatMap Spec.projectLines ++ rest) =
      .ok ((st.1 ++ (ps.filter fun p => p.2.2).map (·.1), (ps.map projEntry).foldl (fun d kv => d.set kv.1 kv.2) st.2), rest) := by
  induction ps generalizing st with
  | nil => simp [projectLoop, pure, Except.pure]
  | cons p ps ih =>
    obtain ⟨n, v, req⟩ := p
    have hv := radsVersion_parsed (h (n, v, req) (by simp))
    have h0 : intOrErr ['0'] = .ok 0 := rfl
    have h10 : intOrErr ['1', '0'] = .ok 10 := rfl
    have hs : projectStep st n v (if req then ['0'] else ['1', '0']) ['0'] =
        .ok (st.1 ++ (if req then [n] else []), st.2.set n ⟨n, parsedVersion v⟩) := by
      cases req
      · simp only [projectStep, Bool.false_eq_true, if_false, h10, h0, hv, bind, Except.bind, pure, Except.pure]; simp
      · simp only [projectStep, if_true, h0, hv, bind, Except.bind, pure, Except.pure]; simp
    simp only [List.flatMap_cons, Spec.projectLines, List.length_cons, List.cons_append, List.nil_append, projectLoop, hs, bind,
      Except.bind]
    rw [ih _ (fun p hp => h p (by simp [hp]))]
    cases req <;> simp [projEntry]

theorem langLoop_ok (projects : Dict Str ProjVer) (f : Str → ProjVer) (ls : List (Str × List Str)) (d : LangDeps) (rest : List Str)
    (h : ∀ l ∈ ls, l.1 ∈ languages) (hd : ∀ l ∈ ls, ∀ n ∈ l.2, projects.get n = .ok (f n)) :
    langLoop projects ls.length d (ls.flatMap Spec.langLines ++ rest) =
      .ok ((ls.map fun l => (some l.1, l.2.map f)).foldl (fun d kv => d.set kv.1 kv.2) d) := by
  induction ls generalizing d with
  | nil => simp [langLoop, pure, Except.pure]
  | cons l ls ih =>
    obtain ⟨l, deps⟩ := l
    have h0 : intOrErr ['0'] = .ok 0 := rfl
    have hn : intOrErr (showInt deps.length) = .ok (deps.length : Int) := by simp [intOrErr, int10_showInt]
    have hl : languageOf l = .ok l := by rw [languageOf, if_pos (h (l, deps) (by simp))]
    have hneg : ¬ ((deps.length : Int) < 0) := by omega
    simp only [List.flatMap_cons, Spec.langLines, List.length_cons, List.cons_append, List.nil_append, List.append_assoc, langLoop, h0, hn, hl,
      bind, Except.bind, ne_eq, not_true_eq_false, if_false, pure, Except.pure, hneg, Int.toNat_natCast, List.take_left, List.drop_left]
    rw [mapM_ok_of projects.get f deps (hd (l, deps) (by simp))]
    simp only
    rw [ih _ (fun x hx => h x (by simp [hx])) (fun x hx => hd x (by simp [hx]))]
    rfl

theorem langLoop_undeclared (projects : Dict Str ProjVer) (ls : List (Str × List Str)) (d : LangDeps) (rest : List Str)
    (h : ∀ l ∈ ls, l.1 ∈ languages) (hd : ∃ l ∈ ls, ∃ n ∈ l.2, projects.get? n = none) :
    langLoop projects ls.length d (ls.flatMap Spec.langLines ++ rest) = .error .key := by
  induction ls generalizing d with
  | nil => simp at hd
  | cons l ls ih =>
    obtain ⟨l, deps⟩ := l
    have h0 : intOrErr ['0'] = .ok 0 := rfl
    have hn : intOrErr (showInt deps.length) = .ok (deps.length : Int) := by simp [intOrErr, int10_showInt]
    have hl : languageOf l = .ok l := by rw [languageOf, if_pos (h (l, deps) (by simp))]
    have hneg : ¬ ((deps.length : Int) < 0) := by omega
    simp only [List.flatMap_cons, Spec.langLines, List.length_cons, List.cons_append, List.nil_append, List.append_assoc, langLoop, h0, hn, hl,
      bind, Except.bind, ne_eq, not_true_eq_false, if_false, pure, Except.pure, hneg, Int.toNat_natCast, List.take_left, List.drop_left]
    have key : ∀ ns : List Str, (∃ r, ns.mapM projects.get = .ok r ∧ ∀ n ∈ ns, projects.get? n ≠ none) ∨
        ns.mapM projects.get = .error .key := by
      intro ns
      induction ns with
      | nil => exact Or.inl ⟨[], rfl, by simp⟩
      | cons n ns ih =>
        rw [List.mapM_cons]
        rcases hg : projects.get? n with _ | v
        · right; simp [Dict.get, hg, bind, Except.bind]
        · rcases ih with ⟨r, hr, hr'⟩ | hr
          · left
            refine ⟨v :: r, by simp [Dict.get, hg, hr, bind, Except.bind, pure, Except.pure], ?_⟩
            intro x hx
            rcases List.mem_cons.1 hx with rfl | hx
            · simp [hg]
            · exact hr' x hx
          · right; simp [Dict.get, hg, hr, bind, Except.bind]
    rcases key deps with ⟨r, hr, hr'⟩ | hr
    · rw [hr]
      simp only
      apply ih _ (fun x hx => h x (by simp [hx]))
      obtain ⟨l', hl', n, hn', hnone⟩ := hd
      rcases List.mem_cons.1 hl' with rfl | hl'
      · exact absurd hnone (hr' n hn')
      · exact ⟨l', hl', n, hn', hnone⟩
    · rw [hr]

theorem find?_map_key {K A B : Type} [DecidableEq K] (l : List A) (f : A → K × B) (k : K) :
    ((l.map f).find? (fun kv => kv.1 = k)).map (·.2) = (l.find? fun a => (f a).1 = k).map fun a => (f a).2 := by
  induction l with
  | nil => rfl
  | cons x l ih =>
    rw [List.map_cons, List.find?_cons, List.find?_cons]
    by_cases h : (f x).1 = k
    · simp [h]
    · simpa [h] using ih

theorem dependencies_header (m : Spec.SolManifest) (version : Version) (hv : version.s = m.version) (rest : List Str) :
    dependencies m.name version (m.lines ++ rest) = (do
      let ((required, projects), lines) ← projectLoop m.projects.length ([], [])
        (m.projects.flatMap Spec.projectLines ++ (showInt m.langs.length :: (m.langs.flatMap Spec.langLines ++ rest)))
      let (nlangs, lines) ← takeInt lines
      let langs ← langLoop projects nlangs.toNat [] lines
      let req ← required.mapM projects.get
      pure (langs.set none req)) := by
  have h1 : manifestHeader m.name version (m.lines ++ rest) = .ok (showInt m.projects.length ::
      (m.projects.flatMap Spec.projectLines ++ (showInt m.langs.length :: (m.langs.flatMap Spec.langLines ++ rest)))) := by
    simp only [Spec.SolManifest.lines, manifestHeader, List.cons_append, List.nil_append, List.append_assoc, ne_eq, not_true_eq_false, if_false,
      Version.eq, hv, bind, Except.bind, pure, Except.pure]
    simp
  unfold dependencies
  rw [h1]
  simp only [bind, Except.bind, takeInt, intOrErr, int10_showInt, pure, Except.pure, Int.toNat_natCast]

/-- Parsing a manifest laid out per the format gives, for each language, exactly the listed projects with their
declared versions, in order; for a language which is not in the manifest, nothing; and under `None` the projects marked
as required. Lines after the end are ignored. -/
theorem C42_decode (m : Spec.SolManifest) (hm : m.Ok) (hd : ∀ l ∈ m.langs, ∀ n ∈ l.2, m.versionOf n ≠ none)
    (version : Version) (hv : version.s = m.version) (rest : List Str) :
    ∃ d, dependencies m.name version (m.lines ++ rest) = .ok d ∧
      (∀ l, (d.get? (some l)).map pairs = (m.depsOf l).map fun deps => deps.map fun n => (n, m.versionOf n)) ∧
      (d.get? none).map pairs = some (m.required.map fun n => (n, m.versionOf n)) ∧
      (∀ k ps, (k, ps) ∈ d → ∀ p ∈ ps, radsVersion (.str p.version.s) = .ok p.version) ∧
      (∀ k, k ∈ d.keys ↔ k = none ∨ ∃ l ∈ m.langs, k = some l.1) := by
  rw [dependencies_header m version hv, projectLoop_ok _ _ _ hm.versions]
  simp only [bind, Except.bind, takeInt, intOrErr, int10_showInt, pure, Except.pure, Int.toNat_natCast, List.nil_append]
  -- lookups in the map of projects
  let pd : Dict Str ProjVer := Dict.ofList (m.projects.map projEntry)
  have hpd : ∀ n, pd.get? n = (m.projects.reverse.find? fun p => p.1 = n).map fun p => ⟨n, parsedVersion p.2.1⟩ := by
    intro n
    rw [show pd = Dict.ofList (m.projects.map projEntry) from rfl, Dict.get?_ofList, ← List.map_reverse, find?_map_key]
    rcases hf : m.projects.reverse.find? fun a => (projEntry a).1 = n with _ | p
    · rw [show (m.projects.reverse.find? fun p => p.1 = n) = none from hf]; rfl
    · rw [show (m.projects.reverse.find? fun p => p.1 = n) = some p from hf]
      have hq := List.find?_some hf
      have : p.1 = n := of_decide_eq_true hq
      simp [projEntry, this]
  let f : Str → ProjVer := fun n => (pd.get? n).getD ⟨[], ⟨[], .main⟩⟩
  have hget : ∀ n, m.versionOf n ≠ none → pd.get n = .ok (f n) ∧ (f n).name = n ∧ m.versionOf n = some (f n).version.s ∧
      radsVersion (.str (f n).version.s) = .ok (f n).version := by
    intro n hn
    unfold Spec.SolManifest.versionOf at hn ⊢
    have hg := hpd n
    rcases hf : m.projects.reverse.find? fun p => p.1 = n with _ | p
    · rw [hf] at hn; simp at hn
    · rw [hf] at hg
      simp only [Option.map_some] at hg
      have hp : p ∈ m.projects := List.mem_reverse.1 (List.mem_of_find?_eq_some hf)
      have hr := radsVersion_parsed (hm.versions p hp)
      have hs := (radsVersion_ok hr).1
      have hfn : f n = ⟨n, parsedVersion p.2.1⟩ := by simp [f, hg]
      refine ⟨by simp [Dict.get, hg, hfn], by rw [hfn], by rw [hfn, hf]; simp [hs], by rw [hfn]; simpa [hs] using hr⟩
  have hreq : ∀ n ∈ m.required, m.versionOf n ≠ none := by
    intro n hn
    obtain ⟨p, hp, rfl⟩ := List.mem_map.1 hn
    unfold Spec.SolManifest.versionOf
    have : (m.projects.reverse.find? fun q => q.1 = p.1) ≠ none := by
      intro h
      have := List.find?_eq_none.1 h p (List.mem_reverse.2 (List.mem_filter.1 hp).1)
      simp at this
    simpa using this
  have e1 := langLoop_ok pd f m.langs [] rest hm.langs (fun l hl n hn => (hget n (hd l hl n hn)).1)
  have e2 := mapM_ok_of pd.get f m.required (fun n hn => (hget n (hreq n hn)).1)
  rw [show (m.projects.map projEntry).foldl (fun (d : Dict Str ProjVer) kv => d.set kv.1 kv.2) ([] : Dict Str ProjVer) = pd from rfl,
    show (m.projects.filter fun p => p.2.2).map (fun x => x.1) = m.required from rfl]
  rw [e1]
  simp only
  rw [e2]
  simp only
  let ld : LangDeps := Dict.ofList (m.langs.map fun l => (some l.1, l.2.map f))
  have hpairs : ∀ ns : List Str, (∀ n ∈ ns, m.versionOf n ≠ none) → pairs (ns.map f) = ns.map fun n => (n, m.versionOf n) := by
    intro ns hns
    simp only [pairs, List.map_map]
    apply List.map_congr_left
    intro n hn
    obtain ⟨_, h2, h3, _⟩ := hget n (hns n hn)
    simp [h2, h3]
  refine ⟨_, rfl, ?_, ?_, ?_, ?_⟩
  · intro l
    rw [Dict.get?_set_ne _ _ (by simp)]
    show (ld.get? (some l)).map pairs = _
    rw [show ld = Dict.ofList (m.langs.map fun l => (some l.1, l.2.map f)) from rfl, Dict.get?_ofList, ← List.map_reverse, find?_map_key]
    unfold Spec.SolManifest.depsOf
    have e : (m.langs.reverse.find? fun a => (some a.1 : Option Str) = some l) = m.langs.reverse.find? fun a => a.1 = l := by
      simp
    rw [e]
    rcases hf : m.langs.reverse.find? fun a => a.1 = l with _ | x
    · rw [hf]; rfl
    · rw [hf]
      have hx : x ∈ m.langs := List.mem_reverse.1 (List.mem_of_find?_eq_some hf)
      simp only [Option.map_some]
      rw [hpairs x.2 (hd x hx)]
  · rw [Dict.get?_set_self]
    simp only [Option.map_some]
    rw [hpairs _ hreq]
  · intro k ps hk p hp
    have hwf : Dict.WF (ld.set none (m.required.map f)) := Dict.WF.set (Dict.WF.ofList _) _ _
    have hg := Dict.get?_of_mem hwf hk
    rw [Dict.get?_set] at hg
    split at hg
    · cases hg
      obtain ⟨n, hn, rfl⟩ := List.mem_map.1 hp
      exact (hget n (hreq n hn)).2.2.2
    · rw [show ld = Dict.ofList (m.langs.map fun l => (some l.1, l.2.map f)) from rfl, Dict.get?_ofList, ← List.map_reverse, find?_map_key] at hg
      rcases hf : m.langs.reverse.find? fun a => (some a.1 : Option Str) = k with _ | x
      · rw [hf] at hg; simp at hg
      · rw [hf] at hg
        simp only [Option.map_some, Option.some.injEq] at hg
        subst hg
        have hx : x ∈ m.langs := List.mem_reverse.1 (List.mem_of_find?_eq_some hf)
        obtain ⟨n, hn, rfl⟩ := List.mem_map.1 hp
        exact (hget n (hd x hx n hn)).2.2.2
  · intro k
    rw [← Dict.contains_iff, Dict.contains, Dict.get?_set]
    by_cases hk : k = none
    · simp [hk]
    · simp only [hk, if_false, false_or]
      show (ld.get? k).isSome = true ↔ _
      rw [Dict.get?_isSome, show ld = Dict.ofList (m.langs.map fun l => (some l.1, l.2.map f)) from rfl, Dict.mem_keys_ofList]
      simp [eq_comm]

/-- A dependency on a project which is not declared raises `KeyError`. -/
theorem C42_undeclared (m : Spec.SolManifest) (hm : m.Ok) (hd : ∃ l ∈ m.langs, ∃ n ∈ l.2, m.versionOf n = none)
    (version : Version) (hv : version.s = m.version) (rest : List Str) :
    dependencies m.name version (m.lines ++ rest) = .error .key := by
  rw [dependencies_header m version hv, projectLoop_ok _ _ _ hm.versions]
  simp only [bind, Except.bind, takeInt, intOrErr, int10_showInt, pure, Except.pure, Int.toNat_natCast, List.nil_append]
  rw [langLoop_undeclared _ _ _ _ hm.langs]
  obtain ⟨l, hl, n, hn, hnone⟩ := hd
  refine ⟨l, hl, n, hn, ?_⟩
  show (Dict.ofList (m.projects.map projEntry)).get? n = none
  rw [Dict.get?_ofList, ← List.map_reverse, find?_map_key]
  unfold Spec.SolManifest.versionOf at hnone
  rw [Option.map_eq_none_iff] at hnone ⊢
  exact hnone

/-- A wrong magic line, format version, solution name or solution version raises `AssertionError`. -/
theorem C42_header (name : Str) (version : Version) (l0 l1 l2 l3 : Str) (rest : List Str)
    (h : ¬ (l0 = "RADS Solution Manifest".toList ∧ l1 = "1.0.0.0".toList ∧ l2 = name ∧ l3 = version.s)) :
    dependencies name version (l0 :: l1 :: l2 :: l3 :: rest) = .error .assertion := by
  have key : manifestHeader name version (l0 :: l1 :: l2 :: l3 :: rest) = .error .assertion := by
    unfold manifestHeader
    by_cases h0 : l0 = "RADS Solution Manifest".toList
    · by_cases h1 : l1 = "1.0.0.0".toList
      · by_cases h2 : l2 = name
        · have h3 : ¬ l3 = version.s := fun h3 => h ⟨h0, h1, h2, h3⟩
          have h3' : (!version.eq (.str l3)) = true := by simp [Version.eq, Ne.symm h3]
          simp only [h0, h1, h2, h3', ne_eq, not_true_eq_false, if_false, if_true, bind, Except.bind, pure, Except.pure]
          rfl
        · simp only [h0, h1, h2, ne_eq, not_true_eq_false, not_false_eq_true, if_false, if_true, bind, Except.bind, pure, Except.pure]
          rfl
      · simp only [h0, h1, ne_eq, not_true_eq_false, not_false_eq_true, if_false, if_true, bind, Except.bind, pure, Except.pure]
        rfl
    · simp only [h0, ne_eq, not_false_eq_true, if_true, bind, Except.bind]
      rfl
  unfold dependencies
  rw [key]
  rfl

theorem splitlines_append_line {l : Str} (h : ∀ c ∈ l, isLineBreak c = false) (r : Str) :
    splitlines (l ++ '\n' :: r) = l :: splitlines r := by
  induction l with
  | nil => simp [splitlines, show isLineBreak '\n' = true from by decide]
  | cons c l ih =>
    have hc := h c (by simp)
    have hr : c ≠ '\r' := by rintro rfl; exact absurd hc (by decide)
    rw [List.cons_append, splitlines.eq_def]
    split
    · simp at *
    · rename_i h'; exact absurd (List.cons.inj h').1 hr
    · rename_i h'
      obtain ⟨rfl, rfl⟩ := List.cons.inj h'
      rw [if_neg (by simp [hc]), ih (fun x hx => h x (by simp [hx]))]

/-- Lines ended by `\n` or `\r\n` are given back, if they hold no line break. -/
theorem C42_text (ls : List (Str × Bool)) (h : ∀ l ∈ ls, ∀ c ∈ l.1, isLineBreak c = false) (name : Str) (version : Version) :
    dependenciesOfText name version (Spec.textOf ls) = dependencies name version (ls.map (·.1)) := by
  unfold dependenciesOfText
  congr 1
  induction ls with
  | nil => rfl
  | cons l ls ih =>
    have hl := h l (by simp)
    have hr : '\r' ∉ l.1 := fun hr => absurd (hl _ hr) (by decide)
    simp only [Spec.textOf, List.map_cons, List.flatten_cons]
    rw [universal_append_line hr, splitlines_append_line hl]
    exact congrArg _ (ih fun x hx => h x (by simp [hx]))

/-- The project versions for given languages: `False` gives the required ones and a language gives its own, in order;
`True` gives those of all entries and several languages give the ones of any of them, each once; a language that is not
in the manifest raises `KeyError`. -/
theorem C42_projects (d : LangDeps) :
    solutionProjects d .none_ = d.get none ∧
    (∀ l, solutionProjects d (.one l) = d.get (some l)) ∧
    (∃ ps, solutionProjects d .all = .ok ps ∧ ps.Nodup ∧ ∀ p, p ∈ ps ↔ ∃ k qs, (k, qs) ∈ d ∧ p ∈ qs) ∧
    (∀ ls, (∀ l ∈ ls, d.get? (some l) ≠ none) → ∃ ps, solutionProjects d (.some_ ls) = .ok ps ∧ ps.Nodup ∧
      ∀ p, p ∈ ps ↔ ∃ l ∈ ls, ∃ qs, d.get? (some l) = some qs ∧ p ∈ qs) ∧
    (∀ ls, (∃ l ∈ ls, d.get? (some l) = none) → solutionProjects d (.some_ ls) = .error .key) ∧
    (∀ l, d.get? (some l) = none → solutionProjects d (.one l) = .error .key) := by
  refine ⟨rfl, fun _ => rfl, ⟨_, rfl, List.nodup_dedup _, ?_⟩, ?_, ?_, ?_⟩
  · intro p
    simp only [List.mem_dedup, List.mem_flatten, Dict.values, List.mem_map]
    constructor
    · rintro ⟨qs, ⟨⟨k, _⟩, hk, rfl⟩, hp⟩; exact ⟨k, _, hk, hp⟩
    · rintro ⟨k, qs, hk, hp⟩; exact ⟨qs, ⟨_, hk, rfl⟩, hp⟩
  · intro ls h
    have e := mapM_ok_of (fun l => d.get (some l)) (fun l => (d.get? (some l)).getD []) ls (by
      intro l hl
      rcases hg : d.get? (some l) with _ | v
      · exact absurd hg (h l hl)
      · simp [Dict.get, hg])
    refine ⟨(ls.map fun l => (d.get? (some l)).getD []).flatten.dedup, ?_, List.nodup_dedup _, ?_⟩
    · simp only [solutionProjects, e, bind, Except.bind, pure, Except.pure]
    · intro p
      simp only [List.mem_dedup, List.mem_flatten, List.mem_map]
      constructor
      · rintro ⟨qs, ⟨l, hl, rfl⟩, hp⟩
        rcases hg : d.get? (some l) with _ | v
        · exact absurd hg (h l hl)
        · rw [hg] at hp; exact ⟨l, hl, v, hg, hp⟩
      · rintro ⟨l, hl, qs, hg, hp⟩; exact ⟨_, ⟨l, hl, rfl⟩, by rw [hg]; exact hp⟩
  · intro ls h
    have : ls.mapM (fun l => d.get (some l)) = .error .key := by
      induction ls with
      | nil => simp at h
      | cons l ls ih =>
        rw [List.mapM_cons]
        rcases hg : d.get? (some l) with _ | v
        · simp [Dict.get, hg, bind, Except.bind]
        · obtain ⟨l', hl', hn⟩ := h
          rcases List.mem_cons.1 hl' with rfl | hl'
          · rw [hg] at hn; simp at hn
          · rw [ih ⟨l', hl', hn⟩]; simp [Dict.get, hg, bind, Except.bind]
    simp only [solutionProjects, this, bind, Except.bind]
  · intro l h
    simp [solutionProjects, Dict.get, h]

/-! Non-vacuity -/
def exSol : Spec.SolManifest :=
  ⟨"lol_sln".toList, "0.0.1.7".toList, [("core".toList, "0.0.0.1".toList, true), ("core_fr".toList, "0.0.2.0".toList, false)],
    [("fr_fr".toList, ["core".toList, "core_fr".toList]), ("en_us".toList, ["core".toList])]⟩
example : exSol.Ok ∧ (∀ l ∈ exSol.langs, ∀ n ∈ l.2, exSol.versionOf n ≠ none) := by
  refine ⟨⟨?_, by decide +kernel⟩, by decide +kernel⟩
  intro p hp
  simp only [exSol, List.mem_cons, List.not_mem_nil, or_false] at hp
  rcases hp with rfl | rfl
  · exact ⟨⟨"0.0.0.1".toList, .nums [0, 0, 0, 1]⟩, by decide +kernel⟩
  · exact ⟨⟨"0.0.2.0".toList, .nums [0, 0, 2, 0]⟩, by decide +kernel⟩
example : dependencies "lol_sln".toList ⟨"0.0.1.7".toList, .nums [0, 0, 1, 7]⟩ exSol.lines =
    .ok [(some "fr_fr".toList, [⟨"core".toList, ⟨"0.0.0.1".toList, .nums [0, 0, 0, 1]⟩⟩, ⟨"core_fr".toList, ⟨"0.0.2.0".toList, .nums [0, 0, 2, 0]⟩⟩]),
      (some "en_us".toList, [⟨"core".toList, ⟨"0.0.0.1".toList, .nums [0, 0, 0, 1]⟩⟩]),
      (none, [⟨"core".toList, ⟨"0.0.0.1".toList, .nums [0, 0, 0, 1]⟩⟩])] := by decide +kernel

/-! ## Cases that meet the hypotheses -/

/-- `C42_undeclared`: a language uses a project that is not declared -/
example : (∃ l ∈ [("fr_fr".toList, ["core".toList, "core_fr".toList])], ∃ n ∈ l.2, (Spec.SolManifest.versionOf
    ⟨"lol_sln".toList, "0.0.1.7".toList, [("core".toList, "0.0.0.1".toList, true)], [("fr_fr".toList, ["core".toList, "core_fr".toList])]⟩ n) = none) ∧
    dependencies "lol_sln".toList ⟨"0.0.1.7".toList, .nums [0, 0, 1, 7]⟩
      (Spec.SolManifest.lines ⟨"lol_sln".toList, "0.0.1.7".toList, [("core".toList, "0.0.0.1".toList, true)], [("fr_fr".toList, ["core".toList, "core_fr".toList])]⟩) =
      .error .key :=
  ⟨⟨_, List.mem_singleton.2 rfl, "core_fr".toList, by decide +kernel, by decide +kernel⟩, by decide +kernel⟩

/-- `C42_projects`: all projects, those of a language, those of several languages -/
example : (dependencies "lol_sln".toList ⟨"0.0.1.7".toList, .nums [0, 0, 1, 7]⟩ exSol.lines).toOption.map (fun d =>
      ([RadsLangs.all, .none_, .one "fr_fr".toList, .some_ ["en_us".toList, "fr_fr".toList], .one "de_de".toList].map fun a =>
        ((solutionProjects d a).toOption.map fun ps => ps.map (·.name)))) =
    some [some ["core_fr".toList, "core".toList], some ["core".toList], some ["core".toList, "core_fr".toList],
      some ["core".toList, "core_fr".toList], none] := by decide +kernel

end Cdtb
