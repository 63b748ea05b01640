import Verif.Props.C26
import Verif.Props.C27
import Mathlib.Tactic.ByContra
/-!
# C29 A symlinked export provides every exported path exactly once
-/
namespace Cdtb
set_option autoImplicit false
open Py Spec

/-! ## Specification: what an exporter provides -/

/-- The plain file exported at `k` from `s` is converted to `p` (among others). -/
def Exporter.PlainGives (e : Exporter) (k s p : Str) : Prop := e.plain.get? k = some s ∧ p ∈ convertedPaths e.converters k

/-- The entry `f` of the WAD exported at `wp`, read from `src`, is converted to `p` (among others). -/
def Exporter.WadGives (e : Exporter) (wp src : Str) (f : WadEntry) (p : Str) : Prop :=
  ∃ w, e.wads.get? wp = some w ∧ w.path = src ∧ f ∈ w.files ∧ ∃ q, f.path = some q ∧ p ∈ convertedPaths e.converters q

/-- `p` is the path of an exported file, once converted. -/
def Exporter.Exports (e : Exporter) (p : Str) : Prop := (∃ k s, e.PlainGives k s p) ∨ ∃ wp src f, e.WadGives wp src f p

/-- Each path is exported from one source, and each entry has a path. -/
structure Exporter.Ready (e : Exporter) : Prop where
  plain : e.plain.WF
  wads : e.wads.WF
  named : ∀ wp w, e.wads.get? wp = some w → ∀ f ∈ w.files, f.path ≠ none

theorem mapM_ok_of {α β : Type} (f : α → Res β) (g : α → β) (l : List α) (h : ∀ x ∈ l, f x = .ok (g x)) : l.mapM f = .ok (l.map g) := by
  induction l with
  | nil => rfl
  | cons x l ih =>
    rw [List.mapM_cons, h x (by simp), ih (fun y hy => h y (by simp [hy]))]
    rfl

theorem allConverted_spec (e : Exporter) (h : e.Ready) : ∃ l, e.allConverted = .ok l ∧ ∀ p, p ∈ l ↔ e.Exports p := by
  have hn : ∀ x ∈ e.paths, ∃ q, x = some q := by
    intro x hx
    unfold Exporter.paths at hx
    rcases List.mem_append.1 hx with h1 | h1
    · obtain ⟨k, _, rfl⟩ := List.mem_map.1 h1; exact ⟨k, rfl⟩
    · obtain ⟨w, hw, h2⟩ := List.mem_flatMap.1 h1
      obtain ⟨f, hf, rfl⟩ := List.mem_map.1 h2
      obtain ⟨⟨wp, w'⟩, hm, rfl⟩ := List.mem_map.1 hw
      have := h.named wp w' (Dict.get?_of_mem h.wads hm) f hf
      exact Option.ne_none_iff_exists'.1 this
  let g : Option Str → List Str := fun x => match x with
    | some q => convertedPaths e.converters q
    | none => []
  refine ⟨(e.paths.map g).flatten, ?_, ?_⟩
  · unfold Exporter.allConverted
    rw [mapM_ok_of _ g _ (fun x hx => by obtain ⟨q, rfl⟩ := hn x hx; rfl)]
    rfl
  · intro p
    rw [List.mem_flatten]
    constructor
    · rintro ⟨l, hl, hp⟩
      obtain ⟨x, hx, rfl⟩ := List.mem_map.1 hl
      unfold Exporter.paths at hx
      rcases List.mem_append.1 hx with h1 | h1
      · obtain ⟨k, hk, rfl⟩ := List.mem_map.1 h1
        obtain ⟨⟨k, s⟩, hm, rfl⟩ := List.mem_map.1 hk
        exact .inl ⟨k, s, Dict.get?_of_mem h.plain hm, hp⟩
      · obtain ⟨w, hw, h2⟩ := List.mem_flatMap.1 h1
        obtain ⟨f, hf, rfl⟩ := List.mem_map.1 h2
        obtain ⟨⟨wp, w'⟩, hm, rfl⟩ := List.mem_map.1 hw
        rcases hq : f.path with _ | q
        · rw [hq] at hp; exact absurd hp (by simp [g])
        · rw [hq] at hp
          exact .inr ⟨wp, w'.path, f, w', Dict.get?_of_mem h.wads hm, rfl, hf, q, hq, hp⟩
    · rintro (⟨k, s, h1, h2⟩ | ⟨wp, src, f, w, h1, h2, h3, q, h4, h5⟩)
      · refine ⟨convertedPaths e.converters k, List.mem_map.2 ⟨some k, ?_, rfl⟩, h2⟩
        unfold Exporter.paths
        refine List.mem_append_left _ (List.mem_map.2 ⟨k, List.mem_map.2 ⟨(k, s), Dict.mem_of_get? h1, rfl⟩, rfl⟩)
      · refine ⟨convertedPaths e.converters q, List.mem_map.2 ⟨some q, ?_, rfl⟩, h5⟩
        unfold Exporter.paths
        refine List.mem_append_right _ (List.mem_flatMap.2 ⟨w, List.mem_map.2 ⟨(wp, w), Dict.mem_of_get? h1, rfl⟩, ?_⟩)
        exact List.mem_map.2 ⟨f, h3, h4⟩

/-! ## Transformed exporters -/

/-- `unknown` directory of a WAD -/
def unknownDir (wp : Str) : Str := match pluginDir wp with
  | some d => d ++ "/unknown".toList
  | none => "unknown".toList

/-- What happens to one entry -/
def entryT (cs : List Converter) (langs : Bool) (wp : Str) (f : WadEntry) : Option WadEntry :=
  let f1 := setUnknownPath (unknownDir wp) f
  if notExecutable f1.path then
    if endsWith wp ".wad.client".toList then
      let f2 := { f1 with path := some (gameSubdir langs wp ++ ['/'] ++ f1.path.getD "None".toList) }
      if filterPath cs (f2.path.getD []) then some f2 else none
    else some f1
  else none

theorem gameWad_eq (cs : List Converter) (langs : Bool) (kw : Str × ExpWad) : gameWad cs langs kw =
    (kw.1, if endsWith kw.1 ".wad.client".toList then
      ⟨kw.2.path, (kw.2.files.map (fun f => { f with path := some (gameSubdir langs kw.1 ++ ['/'] ++ f.path.getD "None".toList) })).filter
        (fun f => filterPath cs (f.path.getD []))⟩ else kw.2) := by
  unfold gameWad
  split
  · rfl
  · rfl

theorem files_entryT (cs : List Converter) (langs : Bool) (wp src : Str) (fs : List WadEntry) :
    (gameWad cs langs (wp, ⟨src, (fs.map (setUnknownPath (unknownDir wp))).filter (fun f => notExecutable f.path)⟩)).2 =
      ⟨src, fs.filterMap (entryT cs langs wp)⟩ := by
  rw [gameWad_eq]
  simp only
  by_cases hc : endsWith wp ".wad.client".toList = true
  · rw [if_pos hc]
    congr 1
    induction fs with
    | nil => rfl
    | cons f fs ih =>
      have hE : entryT cs langs wp f = if notExecutable (setUnknownPath (unknownDir wp) f).path then
          if endsWith wp ".wad.client".toList then
            let f2 := { setUnknownPath (unknownDir wp) f with path := some (gameSubdir langs wp ++ ['/'] ++ (setUnknownPath (unknownDir wp) f).path.getD "None".toList) }
            if filterPath cs (f2.path.getD []) then some f2 else none
          else some (setUnknownPath (unknownDir wp) f) else none := rfl
      rw [List.map_cons, List.filter_cons, List.filterMap_cons]
      by_cases h1 : notExecutable (setUnknownPath (unknownDir wp) f).path = true
      · rw [if_pos h1, if_pos hc] at hE
        rw [if_pos h1, List.map_cons, List.filter_cons]
        split
        · next h2 => simp only at hE; rw [if_pos h2] at hE; rw [hE, ih]
        · next h2 => simp only at hE; rw [if_neg h2] at hE; rw [hE, ih]
      · rw [if_neg h1] at hE
        rw [if_neg h1, hE, ih]
  · rw [if_neg hc]
    congr 1
    induction fs with
    | nil => rfl
    | cons f fs ih =>
      have hE : entryT cs langs wp f = if notExecutable (setUnknownPath (unknownDir wp) f).path then
          if endsWith wp ".wad.client".toList then
            let f2 := { setUnknownPath (unknownDir wp) f with path := some (gameSubdir langs wp ++ ['/'] ++ (setUnknownPath (unknownDir wp) f).path.getD "None".toList) }
            if filterPath cs (f2.path.getD []) then some f2 else none
          else some (setUnknownPath (unknownDir wp) f) else none := rfl
      rw [List.map_cons, List.filter_cons, List.filterMap_cons]
      by_cases h1 : notExecutable (setUnknownPath (unknownDir wp) f).path = true
      · rw [if_pos h1, if_neg hc] at hE
        rw [if_pos h1, hE, ih]
      · rw [if_neg h1] at hE
        rw [if_neg h1, hE, ih]

theorem transform_spec (e : Exporter) (v : Version) (langs : Bool) (hp : e.plain.WF) (hw : e.wads.WF)
    (hl : langSubdirs v = .ok langs) : ∃ e', transform e v = .ok e' ∧ e'.converters = e.converters ∧ e'.Ready ∧
      (∀ k s, e'.plain.get? k = some s ↔ e.plain.get? k = some s ∧ notExecutable (some k) = true ∧
        endsWith k "/description.json".toList = false) ∧
      (∀ wp w', e'.wads.get? wp = some w' ↔ ∃ w, e.wads.get? wp = some w ∧ w'.path = w.path ∧
        w'.files = w.files.filterMap (entryT e.converters langs wp) ∧ w'.files ≠ []) := by
  let W1 : Dict Str ExpWad := e.wads.map (fun kw => (kw.1, (⟨kw.2.path, (kw.2.files.map (setUnknownPath (unknownDir kw.1))).filter (fun f => notExecutable f.path)⟩ : ExpWad)))
  let W2 : Dict Str ExpWad := W1.filter (fun kw => !kw.2.files.isEmpty)
  let G : Str → ExpWad → ExpWad := fun k w => (gameWad e.converters langs (k, w)).2
  have hG : ∀ kw, gameWad e.converters langs kw = (kw.1, G kw.1 kw.2) := by
    intro kw; show _ = (kw.1, (gameWad e.converters langs kw).2)
    rw [gameWad_eq]
  let W3 : Dict Str ExpWad := W2.map (fun kw => (kw.1, G kw.1 kw.2))
  let W4 : Dict Str ExpWad := W3.filter (fun kw => !kw.2.files.isEmpty)
  let P1 : Dict Str Str := e.plain.filter (fun kv => notExecutable (some kv.1))
  let P2 : Dict Str Str := P1.filter (fun kv => !endsWith kv.1 "/description.json".toList)
  have hW1 : W1.WF := hw.mapVal (fun k w => (⟨w.path, (w.files.map (setUnknownPath (unknownDir k))).filter (fun f => notExecutable f.path)⟩ : ExpWad))
  have hW2 : W2.WF := hW1.filter _
  have hW3 : W3.WF := hW2.mapVal G
  have hW4 : W4.WF := hW3.filter _
  have hP1 : P1.WF := hp.filter _
  have hP2 : P2.WF := hP1.filter _
  have ht : transform e v = .ok { e with plain := P2, wads := W4 } := by
    unfold transform
    simp only
    have e2 : ({ e with wads := setUnknowns e.wads } : Exporter).filterPaths notExecutable = { e with plain := P1, wads := W2 } := by
      unfold Exporter.filterPaths setUnknowns
      simp only [List.map_map]
      rfl
    rw [e2]
    by_cases ha : W2.any (fun kw => endsWith kw.1 ".wad.client".toList) = true
    · simp only [ha, if_true, hl]
      show Except.ok _ = _
      congr 2
      show List.filter _ (List.map (gameWad e.converters langs) W2) = W4
      congr 1
      exact List.map_congr_left (fun kw _ => hG kw)
    · simp only [ha]
      show Except.ok _ = _
      congr 2
      show List.filter _ (List.map (gameWad e.converters false) W2) = W4
      congr 1
      apply List.map_congr_left
      intro kw hm
      rw [← hG kw, gameWad_eq, gameWad_eq]
      have : ¬ endsWith kw.1 ".wad.client".toList = true := by
        intro h; exact ha (List.any_eq_true.2 ⟨kw, hm, h⟩)
      rw [if_neg this, if_neg this]
  have hwads : ∀ wp w', W4.get? wp = some w' ↔ ∃ w, e.wads.get? wp = some w ∧ w'.path = w.path ∧
        w'.files = w.files.filterMap (entryT e.converters langs wp) ∧ w'.files ≠ [] := by
    intro wp w'
    have k1 : ∀ k w, W1.get? k = some w ↔ ∃ w0, e.wads.get? k = some w0 ∧
        w = ⟨w0.path, (w0.files.map (setUnknownPath (unknownDir k))).filter (fun f => notExecutable f.path)⟩ := by
      intro k w
      show Dict.get? (List.map _ _) k = _ ↔ _
      rw [Dict.get?_mapVal (fun k (w : ExpWad) => (⟨w.path, (w.files.map (setUnknownPath (unknownDir k))).filter (fun f => notExecutable f.path)⟩ : ExpWad))]
      rw [Option.map_eq_some_iff]; exact ⟨fun ⟨a, h, e⟩ => ⟨a, h, e.symm⟩, fun ⟨a, h, e⟩ => ⟨a, h, e.symm⟩⟩
    have k3 : ∀ k w, W3.get? k = some w ↔ ∃ w0, W2.get? k = some w0 ∧ w = G k w0 := by
      intro k w
      show Dict.get? (List.map _ _) k = _ ↔ _
      rw [Dict.get?_mapVal G]
      rw [Option.map_eq_some_iff]; exact ⟨fun ⟨a, h, e⟩ => ⟨a, h, e.symm⟩, fun ⟨a, h, e⟩ => ⟨a, h, e.symm⟩⟩
    have k2 : ∀ k w, W2.get? k = some w ↔ W1.get? k = some w ∧ (!w.files.isEmpty) = true := fun k w => Dict.get?_filter hW1 _ k w
    have k4 : ∀ k w, W4.get? k = some w ↔ W3.get? k = some w ∧ (!w.files.isEmpty) = true := fun k w => Dict.get?_filter hW3 _ k w
    rw [k4, k3]
    constructor
    · rintro ⟨⟨w0, h1, rfl⟩, h2⟩
      rw [k2, k1] at h1
      obtain ⟨⟨w, hw0, rfl⟩, _⟩ := h1
      have hE : G wp _ = _ := files_entryT e.converters langs wp w.path w.files
      rw [hE] at h2 ⊢
      exact ⟨w, hw0, rfl, rfl, by simpa using h2⟩
    · rintro ⟨w, hw0, hpath, hf, hne⟩
      have hE : G wp _ = _ := files_entryT e.converters langs wp w.path w.files
      refine ⟨⟨⟨w.path, (w.files.map (setUnknownPath (unknownDir wp))).filter (fun f => notExecutable f.path)⟩, ?_, ?_⟩, by simpa using hne⟩
      · rw [k2, k1]
        refine ⟨⟨w, hw0, rfl⟩, ?_⟩
        simp only [Bool.not_eq_true', List.isEmpty_eq_false_iff]
        intro h0
        rw [h0] at hE
        apply hne
        rw [hf]
        have := congrArg ExpWad.files hE
        simp only at this
        rw [← this]
        show (gameWad e.converters langs (wp, ⟨w.path, []⟩)).2.files = []
        rw [gameWad_eq]
        simp only
        split <;> rfl
      · rw [hE]
        cases w'
        simp only at hpath hf
        rw [hpath, hf]
  refine ⟨_, ht, rfl, ⟨hP2, hW4, ?_⟩, ?_, hwads⟩
  · intro wp w' h f hf
    obtain ⟨w, _, _, hfs, _⟩ := (hwads wp w').1 h
    rw [hfs] at hf
    obtain ⟨f0, _, h0⟩ := List.mem_filterMap.1 hf
    unfold entryT at h0
    simp only at h0
    split at h0
    · next hx =>
      split at h0
      · split at h0
        · cases h0; simp
        · cases h0
      · cases h0
        intro hn; rw [hn] at hx; cases hx
    · cases h0
  · intro k s
    show P2.get? k = some s ↔ _
    have k1 : P1.get? k = some s ↔ _ := Dict.get?_filter hp _ k s
    have k2 : P2.get? k = some s ↔ P1.get? k = some s ∧ _ := Dict.get?_filter hP1 _ k s
    rw [k2, k1]
    simp only [Bool.not_eq_true', and_assoc]

/-! ## Filtering -/

theorem filterWads_wf (self : Dict Str ExpWad) (hs : self.WF) (other : List (Str × ExpWad)) : (filterWads self other).WF := by
  induction other generalizing self with
  | nil => exact hs
  | cons x other ih =>
    obtain ⟨path, o⟩ := x
    obtain ⟨d, hd, e, _⟩ := filterWads_step self hs path o other
    rw [e]; exact ih d hd

theorem filterExporter_ready (e p : Exporter) (he : e.Ready) (hp : p.Ready) : (e.filterExporter p).Ready := by
  refine ⟨filterPlain_wf _ he.plain _, filterWads_wf _ he.wads _, ?_⟩
  intro wp w' h f hf
  obtain ⟨w, hw, _, hsub⟩ := (C27_only_removes e p he.wads hp.wads he.plain wp).2.1 w' h
  exact he.named wp w hw f (hsub.subset hf)

theorem filterExporter_exports (e p : Exporter) (he : e.Ready) (hp : p.Ready) (q : Str) (h : (e.filterExporter p).Exports q) : e.Exports q := by
  rcases h with ⟨k, s, h1, h2⟩ | ⟨wp, src, f, w', h1, h2, h3, h4⟩
  · exact .inl ⟨k, s, (C27_only_removes e p he.wads hp.wads he.plain k).1 s h1, h2⟩
  · obtain ⟨w, hw, hpath, hsub⟩ := (C27_only_removes e p he.wads hp.wads he.plain wp).2.1 w' h1
    exact .inr ⟨wp, src, f, w, hw, hpath ▸ h2, hsub.subset h3, h4⟩

theorem otherSha_some (files : List WadEntry) (h : Nat) (s : Nat) (he : ((otherSha files).get? h).join = some s) :
    ∃ g ∈ files, g.pathHash = h ∧ g.sha256 = some s := by
  unfold otherSha at he
  rw [Dict.get?_ofList] at he
  rcases hf : (files.map (fun f => (f.pathHash, f.sha256))).reverse.find? (fun kv => decide (kv.1 = h)) with _ | x
  · rw [hf] at he; cases he
  · rw [hf] at he
    have h1 := List.mem_of_find?_eq_some hf
    have h2 := List.find?_some hf
    rw [decide_eq_true_eq] at h2
    obtain ⟨g, hg, rfl⟩ := List.mem_map.1 (List.mem_reverse.1 h1)
    exact ⟨g, hg, h2, he⟩

/-- The two patches give the same name to the same files: same converters, a WAD that did not change has the same entries,
entries with the same hash and the same content have the same name (or, if unknown, the same extension), and entries have
a checksum. -/
structure SameNames (e p : Exporter) : Prop where
  converters : e.converters = p.converters
  wad : ∀ wp w o, e.wads.get? wp = some w → p.wads.get? wp = some o → w.path = o.path → w.files = o.files
  entry : ∀ wp w o, e.wads.get? wp = some w → p.wads.get? wp = some o → ∀ f ∈ w.files, ∀ g ∈ o.files,
    f.pathHash = g.pathHash → f.sha256 = g.sha256 → f.path = g.path ∧ f.ext = g.ext
  checksum : ∀ wp w, e.wads.get? wp = some w → ∀ f ∈ w.files, f.sha256 ≠ none

theorem setUnknownPath_path {d : Str} {f g : WadEntry} (h : f.pathHash = g.pathHash) (hp : f.path = g.path) (he : f.ext = g.ext) :
    (setUnknownPath d f).path = (setUnknownPath d g).path := by
  unfold setUnknownPath
  rw [h, hp, he]
  split
  · split <;> rfl
  · exact hp

theorem setUnknownPath_hash (d : Str) (f : WadEntry) : (setUnknownPath d f).pathHash = f.pathHash ∧ (setUnknownPath d f).sha256 = f.sha256 := by
  unfold setUnknownPath
  split
  · split <;> exact ⟨rfl, rfl⟩
  · exact ⟨rfl, rfl⟩

theorem entryT_hash {cs : List Converter} {langs : Bool} {wp : Str} {f f' : WadEntry} (h : entryT cs langs wp f = some f') :
    f'.pathHash = f.pathHash ∧ f'.sha256 = f.sha256 := by
  have := setUnknownPath_hash (unknownDir wp) f
  unfold entryT at h
  simp only at h
  split at h
  · split at h
    · split at h
      · cases h; exact this
      · cases h
    · cases h; exact this
  · cases h

theorem entryT_path {cs : List Converter} {langs : Bool} {wp : Str} {f g f' g' : WadEntry} (h : f.pathHash = g.pathHash) (hp : f.path = g.path)
    (he : f.ext = g.ext) (h1 : entryT cs langs wp f = some f') (h2 : entryT cs langs wp g = some g') : f'.path = g'.path := by
  have := setUnknownPath_path (d := unknownDir wp) h hp he
  unfold entryT at h1 h2
  simp only at h1 h2
  rw [this] at h1
  split at h1
  · next hx =>
    rw [if_pos hx] at h2
    split at h1
    · next hy =>
      rw [if_pos hy] at h2
      split at h1
      · next hz => rw [if_pos hz] at h2; cases h1; cases h2; rfl
      · cases h1
    · next hy => rw [if_neg hy] at h2; cases h1; cases h2; exact this
  · cases h1

/-- The previous patch exports the same thing: the same source file, the same entry of the same WAD, or an entry with the
same hash and checksum of the WAD exported at the same path. -/
def SameSource (p : Exporter) (q : Str) : (Str × Str) ⊕ (Str × Str × WadEntry) → Prop
  | .inl (k, s) => p.PlainGives k s q
  | .inr (wp, src, f) => p.WadGives wp src f q ∨ ∃ src' g, p.WadGives wp src' g q ∧ g.pathHash = f.pathHash ∧ g.sha256 = f.sha256

/-- The sources of a path -/
def Exporter.Source (e : Exporter) (q : Str) : (Str × Str) ⊕ (Str × Str × WadEntry) → Prop
  | .inl (k, s) => e.PlainGives k s q
  | .inr (wp, src, f) => e.WadGives wp src f q

theorem exports_iff (e : Exporter) (q : Str) : e.Exports q ↔ ∃ x, e.Source q x := by
  constructor
  · rintro (⟨k, s, h⟩ | ⟨wp, src, f, h⟩)
    · exact ⟨.inl (k, s), h⟩
    · exact ⟨.inr (wp, src, f), h⟩
  · rintro ⟨(⟨k, s⟩ | ⟨wp, src, f⟩), h⟩
    · exact .inl ⟨k, s, h⟩
    · exact .inr ⟨wp, src, f, h⟩

theorem sameSource_exports {p : Exporter} {q : Str} {x : (Str × Str) ⊕ (Str × Str × WadEntry)} (h : SameSource p q x) : p.Exports q := by
  rcases x with ⟨k, s⟩ | ⟨wp, src, f⟩
  · exact .inl ⟨k, s, h⟩
  · rcases h with h | ⟨src', g, h, _⟩
    · exact .inr ⟨wp, src, f, h⟩
    · exact .inr ⟨wp, src', g, h⟩

/-- Every source of an unchanged path is the same in the previous patch. -/
theorem dropped_same (raw rawPrev e p : Exporter) (langs : Bool) (he : e.Ready) (hp : p.Ready) (hs : SameNames raw rawPrev)
    (hec : e.converters = raw.converters) (hpc : p.converters = rawPrev.converters)
    (hew : ∀ wp w', e.wads.get? wp = some w' ↔ ∃ w, raw.wads.get? wp = some w ∧ w'.path = w.path ∧
        w'.files = w.files.filterMap (entryT raw.converters langs wp) ∧ w'.files ≠ [])
    (hpw : ∀ wp w', p.wads.get? wp = some w' ↔ ∃ w, rawPrev.wads.get? wp = some w ∧ w'.path = w.path ∧
        w'.files = w.files.filterMap (entryT rawPrev.converters langs wp) ∧ w'.files ≠ [])
    (q : Str) (hn : ¬ (e.filterExporter p).Exports q) (x : (Str × Str) ⊕ (Str × Str × WadEntry)) (hx : e.Source q x) : SameSource p q x := by
  have hcs : e.converters = p.converters := by rw [hec, hpc, hs.converters]
  rcases x with ⟨k, s⟩ | ⟨wp, src, f⟩
  · obtain ⟨h1, h2⟩ := hx
    by_cases h3 : p.plain.get? k = some s
    · exact ⟨h3, hcs ▸ h2⟩
    · exact absurd (.inl ⟨k, s, (C27_plain e p he.plain hp.plain k s).2 ⟨h1, h3⟩, h2⟩) hn
  · obtain ⟨w, h1, h2, h3, y, h4, h5⟩ := hx
    rcases ho : p.wads.get? wp with _ | o
    · refine absurd (.inr ⟨wp, src, f, w, ?_, h2, h3, y, h4, h5⟩) hn
      rw [C27_new_wad e p he.wads hp.wads wp ho]; exact h1
    · obtain ⟨w0, hw0, hwp, hwf, _⟩ := (hew wp w).1 h1
      obtain ⟨o0, ho0, hop, hof, _⟩ := (hpw wp o).1 ho
      by_cases hsame : w.path = o.path
      · have hfs : w.files = o.files := by
          rw [hwf, hof, hs.wad wp w0 o0 hw0 ho0 (by rw [← hwp, ← hop, hsame]), hs.converters]
        exact .inl ⟨o, ho, by rw [← hsame, h2], hfs ▸ h3, y, h4, hcs ▸ h5⟩
      · have hg : (e.filterExporter p).wads.get? wp = remaining w o := by
          show (filterWads e.wads p.wads).get? wp = _
          rw [get?_filterWads _ he.wads _ hp.wads, ho, h1]
          rfl
        have hdrop : f.sha256 = ((otherSha o.files).get? f.pathHash).join := by
          by_contra hne
          apply hn
          have hm : f ∈ w.files.filter (fun f => decide (f.sha256 ≠ ((otherSha o.files).get? f.pathHash).join)) :=
            List.mem_filter.2 ⟨h3, decide_eq_true hne⟩
          have : remaining w o = some { w with files := w.files.filter (fun f => decide (f.sha256 ≠ ((otherSha o.files).get? f.pathHash).join)) } := by
            unfold remaining
            rw [if_neg hsame]
            simp only
            rw [if_neg]
            intro h0
            rw [List.isEmpty_iff.1 h0] at hm
            cases hm
          exact .inr ⟨wp, src, f, { w with files := w.files.filter (fun f => decide (f.sha256 ≠ ((otherSha o.files).get? f.pathHash).join)) },
            by rw [hg, this], h2, hm, y, h4, h5⟩
        rw [hwf] at h3
        obtain ⟨f0, hf0, hf⟩ := List.mem_filterMap.1 h3
        have hfh := entryT_hash hf
        obtain ⟨s, hsha⟩ := Option.ne_none_iff_exists'.1 (hs.checksum wp w0 hw0 f0 hf0)
        rw [hfh.2, hsha] at hdrop
        obtain ⟨g, hgm, hgh, hgs⟩ := otherSha_some _ _ _ hdrop.symm
        have hgm' := hgm
        rw [hof] at hgm'
        obtain ⟨g0, hg0, hg'⟩ := List.mem_filterMap.1 hgm'
        have hgh0 := entryT_hash hg'
        have hh : f0.pathHash = g0.pathHash := by rw [← hgh0.1, hgh, hfh.1]
        have hss : f0.sha256 = g0.sha256 := by rw [← hgh0.2, hgs, hsha]
        obtain ⟨hpe, hee⟩ := hs.entry wp w0 o0 hw0 ho0 f0 hf0 g0 hg0 hh hss
        have := entryT_path hh hpe hee (hs.converters ▸ hf) hg'
        refine .inr ⟨o.path, g, ⟨o, ho, rfl, hgm, y, by rw [← this, h4], hcs ▸ h5⟩, hgh, ?_⟩
        rw [hgs, hfh.2, hsha]

theorem under_linear {r s p : Str} (h1 : Under r p) (h2 : Under s p) : Under r s ∨ Under s r := by
  rw [under_iff] at h1 h2
  rw [under_iff, under_iff]
  rcases Nat.le_total (splitChar '/' r).length (splitChar '/' s).length with h | h
  · exact .inl (List.prefix_of_prefix_length_le h1 h2 h)
  · exact .inr (List.prefix_of_prefix_length_le h2 h1 h)

/-- With symlinks, from a previous patch with the same directory layout. -/
theorem C29_symlinks (iter : List Str → List Str) (hiter : ∀ l x, x ∈ iter l ↔ x ∈ l) (sortN : List Nat → List Nat)
    (sortS : List Str → List Str) (hsort : ∀ l x, x ∈ sortS l ↔ x ∈ l)
    (raw rawPrev : Exporter) (v v' : Version) (langs : Bool)
    (hraw : raw.plain.WF ∧ raw.wads.WF) (hrawp : rawPrev.plain.WF ∧ rawPrev.wads.WF)
    (hv : langSubdirs v = .ok langs) (hv' : langSubdirs v' = .ok langs) (hs : SameNames raw rawPrev) :
    ∃ e p, transform raw v = .ok e ∧ transform rawPrev v' = .ok p ∧
      ((∀ a b, e.Exports a → e.Exports b → Under a b → a = b) → (∀ a b, p.Exports a → p.Exports b → Under a b → a = b) →
      ∃ plan, exportPlan iter sortN sortS raw v (some (rawPrev, v')) true = .ok plan ∧
        (∀ q, q ∈ plan.exported ↔ e.Exports q) ∧
        (∀ q, plan.exporter.Exports q → e.Exports q) ∧
        (∀ q, e.Exports q →
          (plan.exporter.Exports q ∧ ∀ r ∈ plan.links, ¬ Under r q) ∨
          (¬ plan.exporter.Exports q ∧ (∃ r ∈ plan.links, Under r q ∧ ∀ s ∈ plan.links, Under s q → s = r) ∧
            p.Exports q ∧ ∀ x, e.Source q x → SameSource p q x)) ∧
        (∀ q, p.Exports q → (∃ r ∈ plan.links, Under r q) → e.Exports q) ∧
        (∀ r ∈ plan.links, ∃ q, e.Exports q ∧ Under r q) ∧
        (∀ q, q ∈ plan.kept ↔ plan.exporter.Exports q ∨ q = "cdragon".toList) ∧
        plan.exporter = e.filterExporter p) := by
  obtain ⟨e, hte, hec, her, _, hew⟩ := transform_spec raw v langs hraw.1 hraw.2 hv
  obtain ⟨p, htp, hpc, hpr, _, hpw⟩ := transform_spec rawPrev v' langs hrawp.1 hrawp.2 hv'
  refine ⟨e, p, hte, htp, ?_⟩
  intro hc1 hc2
  obtain ⟨new, hnew, hnewm⟩ := allConverted_spec e her
  obtain ⟨prev, hprev, hprevm⟩ := allConverted_spec p hpr
  obtain ⟨ch, hch, hchm⟩ := allConverted_spec _ (filterExporter_ready e p her hpr)
  have hsub := filterExporter_exports e p her hpr
  have hsame := dropped_same raw rawPrev e p langs her hpr hs hec hpc hew hpw
  have hdm : ∀ q, q ∈ setDiff (iter new) ch ↔ e.Exports q ∧ ¬ (e.filterExporter p).Exports q := by
    intro q
    unfold setDiff
    rw [List.mem_filter, hiter, hnewm, decide_eq_true_eq, hchm]
  obtain ⟨links, hl, _, hl1, hl2, hl3, hl4, _⟩ := C26_reduce (setDiff (iter new) ch) (iter prev) (iter ch)
    (by
      intro a ha b hb
      apply hc1
      · rcases List.mem_append.1 ha with h | h
        · exact ((hdm a).1 h).1
        · exact hsub a ((hchm a).1 ((hiter ch a).1 h))
      · rcases List.mem_append.1 hb with h | h
        · exact ((hdm b).1 h).1
        · exact hsub b ((hchm b).1 ((hiter ch b).1 h)))
    (by
      intro a ha b hb
      rw [hiter, hprevm] at ha hb
      exact hc2 a b ha hb)
    (by
      intro q hq
      obtain ⟨h1, h2⟩ := (hdm q).1 hq
      obtain ⟨x, hx⟩ := (exports_iff e q).1 h1
      rw [hiter, hprevm]
      exact sameSource_exports (hsame q h2 x hx))
    (by
      intro q hq hq'
      rw [hiter, hchm] at hq'
      exact ((hdm q).1 hq).2 hq')
  refine ⟨{ unknown := sortN raw.unknownHashes, exported := sortS (iter new), kept := ch ++ ["cdragon".toList], links := links, linkLines := sortS links, exporter := e.filterExporter p }, ?_, ?_, ?_, ?_, ?_, ?_, ?_, rfl⟩
  · unfold exportPlan
    simp only [hte, htp, bind, Except.bind, pure, Except.pure, hnew, hprev, hch, hl, if_true]
  · intro q; rw [hsort, hiter, hnewm]
  · exact hsub
  · intro q hq
    by_cases hqc : (e.filterExporter p).Exports q
    · exact .inl ⟨hqc, fun r hr => hl2 r hr q ((hiter ch q).2 ((hchm q).2 hqc))⟩
    · right
      have hss := hsame q hqc
      obtain ⟨x, hx⟩ := (exports_iff e q).1 hq
      have hpq := sameSource_exports (hss x hx)
      obtain ⟨r, hr, hu⟩ := (hl1 q (by rw [hiter, hprevm]; exact hpq)).2 ((hdm q).2 ⟨hq, hqc⟩)
      refine ⟨hqc, ⟨r, hr, hu, ?_⟩, hpq, hss⟩
      intro s hs' hus
      rcases under_linear hu hus with h | h
      · exact (hl4 r hr s hs' h).symm
      · exact hl4 s hs' r hr h
  · intro q hq hr
    exact ((hdm q).1 ((hl1 q (by rw [hiter, hprevm]; exact hq)).1 hr)).1
  · intro r hr
    obtain ⟨q, hq, hu⟩ := hl3 r hr
    exact ⟨q, ((hdm q).1 hq).1, hu⟩
  · intro q
    rw [List.mem_append, hchm]
    simp

/-- Without symlinks, `cdragon` is listed too, all the paths are kept, and what is the same in the previous patch is not
extracted. -/
theorem C29_no_symlinks (iter : List Str → List Str) (hiter : ∀ l x, x ∈ iter l ↔ x ∈ l) (sortN : List Nat → List Nat)
    (sortS : List Str → List Str) (hsort : ∀ l x, x ∈ sortS l ↔ x ∈ l)
    (raw : Exporter) (v : Version) (langs : Bool) (hraw : raw.plain.WF ∧ raw.wads.WF) (hv : langSubdirs v = .ok langs)
    (prev : Option (Exporter × Version)) (hprev : ∀ x ∈ prev, x.1.plain.WF ∧ x.1.wads.WF ∧ ∃ b, langSubdirs x.2 = .ok b) :
    ∃ e plan, transform raw v = .ok e ∧ exportPlan iter sortN sortS raw v prev false = .ok plan ∧
      plan.links = [] ∧
      (∀ q, q ∈ plan.exported ↔ e.Exports q ∨ q = "cdragon".toList) ∧
      (∀ q, q ∈ plan.kept ↔ e.Exports q ∨ q = "cdragon".toList) ∧
      (prev = none → plan.exporter = e) ∧
      (∀ x p, prev = some x → transform x.1 x.2 = .ok p → plan.exporter = e.filterExporter p) := by
  obtain ⟨e, hte, hec, her, _, hew⟩ := transform_spec raw v langs hraw.1 hraw.2 hv
  obtain ⟨new, hnew, hnewm⟩ := allConverted_spec e her
  rcases prev with _ | ⟨rp, v'⟩
  · refine ⟨e, { unknown := sortN raw.unknownHashes, exported := sortS (iter (new ++ ["cdragon".toList])), kept := new ++ ["cdragon".toList], links := [], linkLines := [], exporter := e }, hte, ?_, rfl, ?_, ?_, fun _ => rfl, ?_⟩
    · unfold exportPlan
      simp only [hte, bind, Except.bind, pure, Except.pure, hnew]
    · intro q; rw [hsort, hiter, List.mem_append, hnewm]; simp
    · intro q; rw [List.mem_append, hnewm]; simp
    · intro x p h; cases h
  · obtain ⟨hp1, hp2, b, hb⟩ := hprev (rp, v') rfl
    obtain ⟨p, htp, hpc, hpr, _, hpw⟩ := transform_spec rp v' b hp1 hp2 hb
    obtain ⟨pl, hpl, _⟩ := allConverted_spec p hpr
    refine ⟨e, { unknown := sortN raw.unknownHashes, exported := sortS (iter (new ++ ["cdragon".toList])), kept := new ++ ["cdragon".toList], links := [], linkLines := [], exporter := e.filterExporter p }, hte, ?_, rfl, ?_, ?_, (fun h => nomatch h), ?_⟩
    · unfold exportPlan
      simp only [hte, htp, bind, Except.bind, pure, Except.pure, hnew, hpl, if_false, Bool.false_eq_true]
    · intro q; rw [hsort, hiter, List.mem_append, hnewm]; simp
    · intro q; rw [List.mem_append, hnewm]; simp
    · intro x p' h h'
      cases h
      rw [htp] at h'; cases h'; rfl

/-- When some path that did not change was not exported by the previous patch, nothing is exported: `KeyError`. -/
theorem C29_missing (iter : List Str → List Str) (hiter : ∀ l x, x ∈ iter l ↔ x ∈ l) (sortN : List Nat → List Nat)
    (sortS : List Str → List Str) (raw rawPrev e p : Exporter) (v v' : Version) (langs langs' : Bool)
    (hraw : raw.plain.WF ∧ raw.wads.WF) (hrawp : rawPrev.plain.WF ∧ rawPrev.wads.WF)
    (hv : langSubdirs v = .ok langs) (hv' : langSubdirs v' = .ok langs')
    (he : transform raw v = .ok e) (hp : transform rawPrev v' = .ok p)
    (hc : ∀ a b, e.Exports a ∨ p.Exports a → e.Exports b ∨ p.Exports b → Under a b → a = b)
    (q : Str) (hq : e.Exports q) (hqc : ¬ (e.filterExporter p).Exports q) (hqp : ¬ p.Exports q) :
    exportPlan iter sortN sortS raw v (some (rawPrev, v')) true = .error .key := by
  obtain ⟨e', hte, _, her, _⟩ := transform_spec raw v langs hraw.1 hraw.2 hv
  obtain ⟨p', htp, _, hpr, _⟩ := transform_spec rawPrev v' langs' hrawp.1 hrawp.2 hv'
  rw [he] at hte; cases hte
  rw [hp] at htp; cases htp
  obtain ⟨new, hnew, hnewm⟩ := allConverted_spec e her
  obtain ⟨prev, hprev, hprevm⟩ := allConverted_spec p hpr
  obtain ⟨ch, hch, hchm⟩ := allConverted_spec _ (filterExporter_ready e p her hpr)
  have hsub := filterExporter_exports e p her hpr
  have hdm : ∀ q, q ∈ setDiff (iter new) ch ↔ e.Exports q ∧ ¬ (e.filterExporter p).Exports q := by
    intro q
    unfold setDiff
    rw [List.mem_filter, hiter, hnewm, decide_eq_true_eq, hchm]
  have hr := C26_missing (setDiff (iter new) ch) (iter prev) (iter ch)
    (by
      have : ∀ a, a ∈ setDiff (iter new) ch ++ iter prev → e.Exports a ∨ p.Exports a := by
        intro a ha
        rcases List.mem_append.1 ha with h | h
        · exact .inl ((hdm a).1 h).1
        · rw [hiter, hprevm] at h; exact .inr h
      exact fun a ha b hb => hc a b (this a ha) (this b hb))
    (by
      intro a ha b hb
      rw [hiter, hchm] at ha hb
      exact hc a b (.inl (hsub a ha)) (.inl (hsub b hb)))
    q ((hdm q).2 ⟨hq, hqc⟩) (by rw [hiter, hprevm]; exact hqp)
  unfold exportPlan
  simp only [he, hp, bind, Except.bind, pure, Except.pure, hnew, hprev, hch, hr, if_true]

/-- An entry for the examples -/
def exEntry (h s : Nat) (p : String) : WadEntry :=
  { pathHash := h, offset := 0, compressedSize := 0, size := 0, type := 0, subchunkCount := 0, duplicate := false, firstSubchunk := none,
    sha256 := some s, path := some p.toList }

/-- It happens from 14.3 to 14.4 when a language WAD did not change: exporting 14.4 on top of 14.3 with symlinks fails. -/
theorem C29_language_boundary :
    ∃ (raw : Exporter) (v v' : Version), patchVersion (.str "14.4".toList) = .ok v ∧ patchVersion (.str "14.3".toList) = .ok v' ∧
      SameNames raw raw ∧ raw.converters = patchConverters ∧
      (exportPlan id id id raw v (some (raw, v')) true).toOption.isNone = true := by
  refine ⟨{ plain := [], wads := [("DATA/FINAL/UI.en_US.wad.client".toList, ⟨"f".toList, [exEntry 1 2 "a.txt"]⟩)], converters := patchConverters },
    ⟨"14.4".toList, .nums [14, 4]⟩, ⟨"14.3".toList, .nums [14, 3]⟩, by decide +kernel, by decide +kernel, ⟨rfl, ?_, ?_, ?_⟩, rfl, by decide +kernel⟩
  · intro wp w o h1 h2 _
    rw [h1] at h2; cases h2; rfl
  · intro wp w o h1 h2 f hf g hg _ _
    have h1' := Dict.mem_of_get? h1
    have h2' := Dict.mem_of_get? h2
    simp only [List.mem_singleton, Prod.mk.injEq] at h1' h2'
    rw [h1'.2] at hf; rw [h2'.2] at hg
    simp only [List.mem_singleton] at hf hg
    rw [hf, hg]; exact ⟨rfl, rfl⟩
  · intro wp w h1 f hf
    have h1' := Dict.mem_of_get? h1
    simp only [List.mem_singleton, Prod.mk.injEq] at h1'
    rw [h1'.2] at hf
    simp only [List.mem_singleton] at hf
    rw [hf]; decide

/-- Non-vacuity: one entry of the WAD changed, another one did not, and a whole directory is the same. -/
def exNew : Exporter := { plain := [("b.txt".toList, "s1".toList)], wads := [("A.wad.client".toList, ⟨"w2".toList, [exEntry 1 1 "d/x.txt", exEntry 2 5 "d/y.txt", exEntry 3 3 "e/z.txt"]⟩)], converters := patchConverters }
/-- the previous patch -/
def exPrev : Exporter := { plain := [("b.txt".toList, "s1".toList)], wads := [("A.wad.client".toList, ⟨"w1".toList, [exEntry 1 1 "d/x.txt", exEntry 2 2 "d/y.txt", exEntry 3 3 "e/z.txt"]⟩)], converters := patchConverters }

example : ((exportPlan id id id exNew ⟨"9.2".toList, .nums [9, 2]⟩ (some (exPrev, ⟨"9.1".toList, .nums [9, 1]⟩)) true).toOption.map
    (fun p => (p.exported, p.kept, p.links))) =
    some (["b.txt".toList, "game/d/x.txt".toList, "game/d/y.txt".toList, "game/e/z.txt".toList],
      ["game/d/y.txt".toList, "cdragon".toList], ["b.txt".toList, "game/d/x.txt".toList, "game/e".toList]) := by decide +kernel

theorem exSameNames : SameNames exNew exPrev := by
  refine ⟨rfl, ?_, ?_, ?_⟩
  · intro wp w o h1 h2 h
    have h1' := Dict.mem_of_get? h1
    have h2' := Dict.mem_of_get? h2
    simp only [exNew, exPrev, List.mem_singleton, Prod.mk.injEq] at h1' h2'
    rw [h1'.2, h2'.2] at h
    exact absurd h (by decide)
  · intro wp w o h1 h2
    have h1' := Dict.mem_of_get? h1
    have h2' := Dict.mem_of_get? h2
    simp only [exNew, exPrev, List.mem_singleton, Prod.mk.injEq] at h1' h2'
    rw [h1'.2, h2'.2]
    decide
  · intro wp w h1
    have h1' := Dict.mem_of_get? h1
    simp only [exNew, List.mem_singleton, Prod.mk.injEq] at h1'
    rw [h1'.2]
    decide

/-! ## Cases that meet the hypotheses -/

/-- `C29_missing`: the WAD did not change but contains a file that the previous one did not have: without its content in the previous export, it cannot
be linked -/
example :
    let old : Exporter := { exPrev with wads := [("A.wad.client".toList, ⟨"w2".toList, [exEntry 1 1 "d/x.txt"]⟩)] }
    (exportPlan id id id exNew ⟨"9.2".toList, .nums [9, 2]⟩ (some (old, ⟨"9.1".toList, .nums [9, 1]⟩)) true).toOption.isNone = true := by decide +kernel

end Cdtb
