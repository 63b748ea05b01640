import Verif.Props.C80
/-!
# C80: the export of a patch of a RADS storage
-/
namespace Cdtb
set_option autoImplicit false
open Py Spec

section
variable {cfg : RadsCfg} {site : RadsSite} {served : Str → Option Bytes} {inflate : Bytes → Res Bytes}

theorem lists_filePath (hon : cfg.On site served inflate) {n v : Str} {langs : RadsLangs} {p : Str} (h : site.Lists n v langs p) :
    ∃ a b c, '/' ∉ a ∧ '/' ∉ b ∧ p = "projects/".toList ++ a ++ "/releases/".toList ++ b ++ "/files/".toList ++ c := by
  obtain ⟨m, n, v, es, -, -, -, hes, e, he, rfl⟩ := h
  exact (hon.ok.entry _ _ _ hes e he).2

theorem pairOf_eq (a b c : Str) (ha : '/' ∉ a) (hb : '/' ∉ b) :
    cfg.pairOf ("projects/".toList ++ a ++ "/releases/".toList ++ b ++ "/files/".toList ++ c) =
      .ok (pjoin cfg.base ("projects/".toList ++ a ++ "/releases/".toList ++ b ++ "/files/".toList ++ c), lower c) := by
  have h := C43_relpath "projects".toList a "releases".toList b "files".toList c (by decide) ha (by decide) hb (by decide)
  unfold RadsCfg.pairOf
  have h' : radsRelpath ("projects/".toList ++ a ++ "/releases/".toList ++ b ++ "/files/".toList ++ c) = .ok (lower c) := by
    rw [← h]; congr 1; simp
  rw [h']
  rfl

theorem pairs_eq (hon : cfg.On site served inflate) {sv : SolVer} : ∀ l : List Str, (∀ p ∈ l, site.Lists sv.name sv.version.s .all p) →
    ∃ ps, l.mapM cfg.pairOf = .ok ps ∧ List.Forall₂ (fun p x => RadsPair cfg.base site [sv] x ∧ x.1 = pjoin cfg.base p) l ps
  | [], _ => ⟨[], rfl, .nil⟩
  | p :: l, h => by
    obtain ⟨ps, h1, h2⟩ := pairs_eq hon l (fun p hp => h p (by simp [hp]))
    have hp := h p (by simp)
    obtain ⟨a, b, c, ha, hb, rfl⟩ := lists_filePath hon hp
    refine ⟨_ :: ps, ?_, .cons ⟨⟨sv, by simp, a, b, c, ha, hb, hp, rfl⟩, rfl⟩ h2⟩
    rw [List.mapM_cons, h1, pairOf_eq a b c ha hb]
    rfl

theorem radsElemPaths_spec (hon : cfg.On site served inflate) {w : RadsWorld} (hw : RadsWorldOk served w) {fs : FS}
    (hg : GoodRads cfg.base site served cfg.exe fs) {sv : SolVer} (hsv : sv.Plain) {fs' : FS} {l : List (Str × Str)}
    (h : cfg.elemPaths w fs sv = (fs', .ok l)) :
    Adds (RadsFile cfg.base site served cfg.exe) fs fs' ∧ ∀ x, x ∈ l ↔ RadsPair cfg.base site [sv] x := by
  obtain ⟨h1, h2, h3⟩ := filepaths_spec hon hw hg hsv .all
  unfold RadsCfg.elemPaths at h
  rcases hf : cfg.filepaths w fs sv .all with ⟨fs1, ps, r⟩
  rw [hf] at h h1 h2 h3
  simp only at h h1 h2 h3
  obtain ⟨xs, h4, h5⟩ := pairs_eq hon ps h2
  rw [h4] at h
  simp only [Prod.mk.injEq] at h
  obtain ⟨rfl, h⟩ := h
  cases r with
  | error e => cases h
  | ok u =>
    cases h
    refine ⟨h1, fun x => ⟨fun hx => ?_, fun hx => ?_⟩⟩
    · obtain ⟨p, -, hp, -⟩ := forall₂_mem_right h5 hx
      exact hp
    · obtain ⟨sv', hsv', a, b, c, ha, hb, hl, rfl⟩ := hx
      rw [List.mem_singleton] at hsv'
      subst hsv'
      have hm := h3 rfl _ hl
      clear h1 h2 h3 hf
      obtain ⟨y, hy, -⟩ := forall₂_mem_left h5 hm
      have key : ∀ (ps : List Str) (xs : List (Str × Str)), ps.mapM cfg.pairOf = .ok xs → ∀ p ∈ ps, ∀ y, cfg.pairOf p = .ok y → y ∈ xs := by
        intro ps
        induction ps with
        | nil => intro _ _ p hp; cases hp
        | cons q ps ih =>
          intro xs h p hp y hy
          rw [List.mapM_cons] at h
          cases hq : cfg.pairOf q with
          | error e => rw [hq] at h; cases h
          | ok z =>
            rw [hq] at h
            cases hps : ps.mapM cfg.pairOf with
            | error e => rw [hps] at h; cases h
            | ok zs =>
              rw [hps] at h
              cases h
              rcases List.mem_cons.1 hp with rfl | hp
              · rw [hq] at hy; cases hy; exact List.mem_cons_self
              · exact List.mem_cons_of_mem _ (ih zs hps p hp y hy)
      exact key ps xs h4 _ hm _ (pairOf_eq a b c ha hb)

theorem radsPair_cons {base : Str} {sv : SolVer} {es : List SolVer} {x : Str × Str} :
    RadsPair base site (sv :: es) x ↔ RadsPair base site [sv] x ∨ RadsPair base site es x := by
  constructor
  · rintro ⟨s, hs, h⟩
    rcases List.mem_cons.1 hs with rfl | hs
    · exact Or.inl ⟨s, by simp, h⟩
    · exact Or.inr ⟨s, hs, h⟩
  · rintro (⟨s, hs, h⟩ | ⟨s, hs, h⟩)
    · rw [List.mem_singleton] at hs; exact ⟨s, by simp [hs], h⟩
    · exact ⟨s, by simp [hs], h⟩

theorem siteFiles_adds {P : Str → Bytes → Prop} {base : Str} {es : List SolVer} {fs fs' : FS} (h : SiteFiles base site es fs) (ha : Adds P fs fs') :
    SiteFiles base site es fs' := fun sv hsv p hp => ha.1 _ _ (h sv hsv p hp)

/-- The loop on elements. Hash files are those of `ideal`: with the disk which only gets files of the storage. -/
theorem radsAddElems_spec (hon : cfg.On site served inflate) (cx : Codecs) (dir : Str) {w : RadsWorld} (hw : RadsWorldOk served w) (ideal : FS) :
    ∀ (es : List SolVer) (fs : FS) (cache : Dict Nat (Option Str)) (x : Exporter), (∀ sv ∈ es, sv.Plain) → GoodRads cfg.base site served cfg.exe fs →
      SiteFiles cfg.base site es fs → SiteFiles cfg.base site es ideal →
      (∀ fs', Adds (RadsFile cfg.base site served cfg.exe) fs fs' → SameHashFiles dir fs' ideal) →
      ∀ fs' c raw, cfg.addElems cx dir w fs cache x es = (fs', .ok (c, raw)) →
      Adds (RadsFile cfg.base site served cfg.exe) fs fs' ∧
      ∃ l, (∀ y, y ∈ l ↔ RadsPair cfg.base site es y) ∧ x.addPaths cx dir ideal cache l = .ok (c, raw)
  | [], fs, cache, x, _, _, _, _, _, fs', c, raw, h => by
    cases h
    exact ⟨.refl _ _, [], fun y => ⟨fun h => (by cases h), fun ⟨s, hs, _⟩ => (by cases hs)⟩, rfl⟩
  | sv :: es, fs, cache, x, hes, hg, hs, hi, hh, fs', c, raw, h => by
    unfold RadsCfg.addElems at h
    rcases hp : cfg.elemPaths w fs sv with ⟨fs1, _ | l⟩
    · rw [hp] at h; cases h
    · rw [hp] at h
      simp only at h
      obtain ⟨h1, h2⟩ := radsElemPaths_spec hon hw hg (hes sv (by simp)) hp
      have hag : Agrees dir fs1 ideal l := by
        refine ⟨hh fs1 h1, fun y hy => ?_⟩
        obtain ⟨s, hs', a, b, d, -, -, hl, rfl⟩ := (h2 y).1 hy
        rw [List.mem_singleton] at hs'
        subst hs'
        rw [h1.1 _ _ (hs s (by simp) _ hl), hi s (by simp) _ hl]
      rw [addPaths_congr cx l cache x hag] at h
      cases ha : x.addPaths cx dir ideal cache l with
      | error e => rw [ha] at h; cases h
      | ok r =>
        rw [ha] at h
        obtain ⟨h3, l', h4, h5⟩ := radsAddElems_spec hon cx dir hw ideal es fs1 r.1 r.2 (fun s hs => hes s (by simp [hs])) (adds_good hg h1)
          (siteFiles_adds (fun s hs' => hs s (by simp [hs'])) h1) (fun s hs' => hi s (by simp [hs'])) (fun fs2 h => hh fs2 (h1.trans h)) fs' c raw h
        refine ⟨h1.trans h3, l ++ l', fun y => ?_, ?_⟩
        · rw [List.mem_append, h2, h4]; exact radsPair_cons.symm
        · rw [addPaths_append, ha]; exact h5

/-- **C80, RADS.** When the files of a patch of a RADS storage are collected: `ideal` is any disk with the files of the site and the same hash files (which exist). The exported files,
with their contents, are those of the files which the site lists, whatever the storage had before; when archives of the site can be read, these are the files of archives
and plain files of the site. `l` is a list of the files of the patch, in the order in which they were found. -/
theorem C80_rads (hon : cfg.On site served inflate) (cx : Codecs) (dir : Str) (ext : Nat → Option Str) (cache : Dict Nat (Option Str)) (hc : RightCache ext cache)
    (ws : Nat → RadsWorld) (hws : ∀ i, RadsWorldOk served (ws i)) (w : RadsWorld) (hw : RadsWorldOk served w) (es : List SolVer) (hes : ∀ sv ∈ es, sv.Plain)
    (fs fs' : FS) (hg : GoodRads cfg.base site served cfg.exe fs) (ideal : FS) (hi : SiteFiles cfg.base site es ideal)
    (hgame : ∃ b, fs (pjoin dir "hashes.game.txt".toList) = some (.file b)) (hlcu : ∃ b, fs (pjoin dir "hashes.lcu.txt".toList) = some (.file b))
    (hsame : SameHashFiles dir fs ideal)
    (hr : ∀ x, RadsPair cfg.base site es x → IsWadFile x.1 → ReadableWad cx dir ideal ext x.1) (v : Version) (hv : v.s = "main".toList ∨ ∃ t, v.t = .nums t)
    (c : Dict Nat (Option Str)) (raw : Exporter) (h : cfg.addPatchFiles cx dir cache emptyExporter ws w fs es = (fs', .ok (c, raw))) :
    ∃ l e, (∀ x, x ∈ l ↔ RadsPair cfg.base site es x) ∧ transform raw v = .ok e ∧
      ∀ p b, Spec.Exports e (diskSources cx dir fs') p b ↔ ExportedFile cx dir ideal l v p b := by
  have hh : ∀ fs1, Adds (RadsFile cfg.base site served cfg.exe) fs fs1 → SameHashFiles dir fs1 ideal := by
    intro fs1 ha
    obtain ⟨b, hb⟩ := hgame
    obtain ⟨b', hb'⟩ := hlcu
    exact ⟨by rw [ha.1 _ _ hb, ← hsame.1, hb], by rw [ha.1 _ _ hb', ← hsame.2, hb']⟩
  unfold RadsCfg.addPatchFiles at h
  obtain ⟨⟨h1, h2⟩, -, done, rest, h3, h4, h5, h6⟩ := forElems_spec (fun i fs sv => cfg.downloadSolution (ws i) fs sv .all)
    (fun s => Adds (RadsFile cfg.base site served cfg.exe) fs s ∧ GoodRads cfg.base site served cfg.exe s)
    (fun s sv => ∀ p, site.Lists sv.name sv.version.s .all p → s (storageFspath cfg.base p) = some (.file (site.file p)))
    SolVer.Plain
    (fun i s sv hsv hs => ⟨hs.1.trans (downloadSolution_spec hon (hws i) hs.2 hsv .all).1, adds_good hs.2 (downloadSolution_spec hon (hws i) hs.2 hsv .all).1⟩)
    (fun i s sv sv' hsv hs h p hp => ((downloadSolution_spec hon (hws i) hs.2 hsv .all).1).1 _ _ (h p hp))
    (fun i s sv hsv hs h p hp => (C63_download hon s hs.2 [] (by simp) (ws i) (hws i) sv hsv .all (cfg.downloadSolution (ws i) s sv .all).1
      (Prod.ext rfl h)).2 p hp)
    es hes 0 fs ⟨.refl _ _, hg⟩
  rcases hd : forElems (fun i fs sv => cfg.downloadSolution (ws i) fs sv .all) 0 fs es with ⟨fs1, _ | u⟩
  · rw [hd] at h; cases h
  · rw [hd] at h h1 h2 h4 h5
    have hnil := h5 rfl
    subst hnil
    rw [List.append_nil] at h3
    subst h3
    simp only at h
    obtain ⟨h7, l, h8, h9⟩ := radsAddElems_spec hon cx dir hw ideal es fs1 cache emptyExporter hes h2 (fun sv hsv => h4 sv hsv) hi
      (fun fs2 ha => hh fs2 (h1.trans ha)) fs' c raw h
    have hag : Agrees dir fs' ideal l := by
      refine ⟨hh fs' (h1.trans h7), fun y hy => ?_⟩
      obtain ⟨s, hs', a, b, d, -, -, hl, rfl⟩ := (h8 y).1 hy
      rw [hi s hs' _ hl]
      exact h7.1 _ _ (h4 s hs' _ hl)
    have hr' : ∀ x ∈ l, IsWadFile x.1 → ReadableWad cx dir fs' ext x.1 :=
      fun x hx hwad => readableWad_congr hag.symm.1 (hag.symm.2 x hx) (hr x ((h8 x).1 hx) hwad)
    rw [← addPaths_congr cx l cache emptyExporter hag] at h9
    obtain ⟨e, h10, h11⟩ := C66_data cx dir fs' ext cache l hc hr' c raw h9 v hv
    exact ⟨l, e, h8, h10, fun p b => by rw [h11]; exact ⟨exportedFile_congr hag, exportedFile_congr hag.symm⟩⟩

/-- The last pair of a list with an export path -/
theorem split_last {x : Str × Str} : ∀ {l : List (Str × Str)}, x ∈ l → ∃ a b, l = a ++ x :: b ∧ x ∉ b
  | [], h => by cases h
  | y :: l, h => by
    by_cases hx : x ∈ l
    · obtain ⟨a, b, rfl, hb⟩ := split_last hx
      exact ⟨y :: a, b, rfl, hb⟩
    · rcases List.mem_cons.1 h with rfl | h
      · exact ⟨[], l, rfl, hx⟩
      · exact absurd h hx

theorem lastPlain_iff {l : List (Str × Str)} (hu : ∀ x ∈ l, ∀ y ∈ l, x.2 = y.2 → x.1 = y.1) {src dst : Str} :
    LastPlain l src dst ↔ (src, dst) ∈ l ∧ ¬ IsWadFile src := by
  constructor
  · intro h; exact ⟨lastPlain_mem h, by obtain ⟨a, b, -, h, -⟩ := h; exact h⟩
  · rintro ⟨hm, hw⟩
    obtain ⟨a, b, rfl, hb⟩ := split_last hm
    refine ⟨a, b, rfl, hw, fun x hx h => ?_⟩
    have h1 := hu x (by simp [hx]) (src, dst) hm h
    exact absurd ((Prod.ext h1 h : x = (src, dst)) ▸ hx) hb

theorem lastWad_iff {l : List (Str × Str)} (hu : ∀ x ∈ l, ∀ y ∈ l, x.2 = y.2 → x.1 = y.1) {src dst : Str} :
    LastWad l src dst ↔ (src, dst) ∈ l ∧ IsWadFile src := by
  constructor
  · intro h; exact ⟨lastWad_mem h, by obtain ⟨a, b, -, h, -⟩ := h; exact h⟩
  · rintro ⟨hm, hw⟩
    obtain ⟨a, b, rfl, hb⟩ := split_last hm
    refine ⟨a, b, rfl, hw, fun x hx h => ?_⟩
    have h1 := hu x (by simp [hx]) (src, dst) hm h
    exact absurd ((Prod.ext h1 h : x = (src, dst)) ▸ hx) hb

/-- **C80, RADS orders.** The order in which projects are found (they are in a set) does not matter, as long as no two files of the patch have the same export path: two
exports, from storages with different pasts, have the same files with the same contents. -/
theorem C80_rads_same (hon : cfg.On site served inflate) (cx : Codecs) (dir : Str) (ext : Nat → Option Str) (cache cache' : Dict Nat (Option Str))
    (hc : RightCache ext cache) (hc' : RightCache ext cache')
    (ws ws' : Nat → RadsWorld) (hws : ∀ i, RadsWorldOk served (ws i)) (hws' : ∀ i, RadsWorldOk served (ws' i)) (w w' : RadsWorld) (hw : RadsWorldOk served w)
    (hw' : RadsWorldOk served w') (es : List SolVer) (hes : ∀ sv ∈ es, sv.Plain) (fs1 fs2 fs1' fs2' : FS) (hg : GoodRads cfg.base site served cfg.exe fs1)
    (hg' : GoodRads cfg.base site served cfg.exe fs2) (ideal : FS) (hi : SiteFiles cfg.base site es ideal)
    (hgame : ∃ b, ideal (pjoin dir "hashes.game.txt".toList) = some (.file b)) (hlcu : ∃ b, ideal (pjoin dir "hashes.lcu.txt".toList) = some (.file b))
    (hsame : SameHashFiles dir fs1 ideal) (hsame' : SameHashFiles dir fs2 ideal)
    (hr : ∀ x, RadsPair cfg.base site es x → IsWadFile x.1 → ReadableWad cx dir ideal ext x.1)
    (hu : ∀ x y, RadsPair cfg.base site es x → RadsPair cfg.base site es y → x.2 = y.2 → x.1 = y.1)
    (v : Version) (hv : v.s = "main".toList ∨ ∃ t, v.t = .nums t)
    (c c' : Dict Nat (Option Str)) (raw raw' : Exporter) (h : cfg.addPatchFiles cx dir cache emptyExporter ws w fs1 es = (fs1', .ok (c, raw)))
    (h' : cfg.addPatchFiles cx dir cache' emptyExporter ws' w' fs2 es = (fs2', .ok (c', raw'))) :
    ∃ e e', transform raw v = .ok e ∧ transform raw' v = .ok e' ∧
      ∀ p b, Spec.Exports e (diskSources cx dir fs1') p b ↔ Spec.Exports e' (diskSources cx dir fs2') p b := by
  have hx1 : ∃ b, fs1 (pjoin dir "hashes.game.txt".toList) = some (.file b) := by rw [hsame.1]; exact hgame
  have hx2 : ∃ b, fs1 (pjoin dir "hashes.lcu.txt".toList) = some (.file b) := by rw [hsame.2]; exact hlcu
  have hy1 : ∃ b, fs2 (pjoin dir "hashes.game.txt".toList) = some (.file b) := by rw [hsame'.1]; exact hgame
  have hy2 : ∃ b, fs2 (pjoin dir "hashes.lcu.txt".toList) = some (.file b) := by rw [hsame'.2]; exact hlcu
  obtain ⟨l, e, h1, h2, h3⟩ := C80_rads hon cx dir ext cache hc ws hws w hw es hes fs1 fs1' hg ideal hi hx1 hx2 hsame hr v hv c raw h
  obtain ⟨l', e', h1', h2', h3'⟩ := C80_rads hon cx dir ext cache' hc' ws' hws' w' hw' es hes fs2 fs2' hg' ideal hi hy1 hy2 hsame' hr v hv c' raw' h'
  refine ⟨e, e', h2, h2', fun p b => ?_⟩
  rw [h3, h3']
  have hul : ∀ x ∈ l, ∀ y ∈ l, x.2 = y.2 → x.1 = y.1 := fun x hx y hy => hu x y ((h1 x).1 hx) ((h1 y).1 hy)
  have hul' : ∀ x ∈ l', ∀ y ∈ l', x.2 = y.2 → x.1 = y.1 := fun x hx y hy => hu x y ((h1' x).1 hx) ((h1' y).1 hy)
  unfold ExportedFile
  simp only [lastPlain_iff hul, lastPlain_iff hul', lastWad_iff hul, lastWad_iff hul', h1, h1']

end

/-! ### Cases that meet the hypotheses -/

namespace C80ex

/-- A disk with hash files and an empty storage -/
def radsHashes : FS := fun p => if p = "h/hashes.lcu.txt".toList ∨ p = "h/hashes.game.txt".toList then some (.file []) else none
/-- A disk with the files of the site -/
def radsIdeal : FS := fun p => if p = "/rads/projects/lol_game_client/releases/0.0.1.5/files/League of Legends.exe".toList
  then some (.file [77, 90, 8, 2]) else radsHashes p

theorem radsHashes_root {p : Str} (hp : p.head? = some '/') : radsHashes p = none := by
  unfold radsHashes
  rw [if_neg]
  rintro (h | h) <;> rw [h] at hp <;> exact absurd hp (by decide)

theorem radsGood : GoodRads radsCfg.base radsSite radsServed radsCfg.exe radsHashes := by
  have h1 : ∀ n v x, radsHashes (storageFspath radsCfg.base (solutionFile n v x)) = none := fun n v x =>
    radsHashes_root (p := storageFspath radsCfg.base (solutionFile n v x)) rfl
  have h2 : ∀ n v x, radsHashes (storageFspath radsCfg.base (projectFile n v x)) = none := fun n v x =>
    radsHashes_root (p := storageFspath radsCfg.base (projectFile n v x)) rfl
  refine ⟨?_, ?_, ?_, ?_, ?_⟩
  · intro n v b _ _ h; rw [h1] at h; cases h
  · intro n v b _ _ h; rw [h2] at h; cases h
  · intro n v b _ _ h; rw [h2] at h; cases h
  · rintro p b ⟨x, y, z, -, -, rfl⟩ h
    rw [radsHashes_root (p := storageFspath radsCfg.base _) rfl] at h
    cases h
  · intro n v b _ _ h; rw [h1] at h; cases h

theorem radsLists {p : Str} (h : radsSite.Lists radsGame.name radsGame.version.s .all p) :
    p = "projects/lol_game_client/releases/0.0.1.5/files/League of Legends.exe".toList := by
  obtain ⟨m, q, v, es, h1, h2, h3, h4, e, he, rfl⟩ := h
  obtain ⟨hm, hn, hv⟩ := radsSite_manifests h1
  simp only [SolManifest.versionOf, Option.map_eq_some_iff] at h3
  obtain ⟨x, hx, rfl⟩ := h3
  have hx1 := List.mem_reverse.1 (List.mem_of_find?_eq_some hx)
  have hx2 : x.1 = q := by simpa using List.find?_some hx
  subst hx2
  have key : ∀ m ∈ radsManifests, m.name = radsGame.name → m.version = radsGame.version.s → ∀ x ∈ m.projects,
      x.1 = "lol_game_client".toList ∧ x.2.1 = "0.0.1.5".toList := by decide +kernel
  obtain ⟨k1, k2⟩ := key m hm hn hv x hx1
  have h5 := radsSite_entries h4
  rw [k1, k2] at h5
  have key2 : ∀ y ∈ radsPackages, y.1 = ("lol_game_client".toList, "0.0.1.5".toList) → ∀ e ∈ y.2,
      e.file = "projects/lol_game_client/releases/0.0.1.5/files/League of Legends.exe".toList := by decide +kernel
  exact key2 _ h5 rfl e he

theorem radsSiteFiles : SiteFiles radsCfg.base radsSite [radsGame] radsIdeal := by
  intro sv hsv p hp
  rw [List.mem_singleton] at hsv
  subst hsv
  rw [radsLists hp]
  decide +kernel

theorem radsReadable : ∀ x, RadsPair radsCfg.base radsSite [radsGame] x → IsWadFile x.1 → ReadableWad C62ex.cx "h".toList radsIdeal C66ex.ext x.1 := by
  rintro x ⟨sv, hsv, a, b, c, -, -, hl, rfl⟩ hw
  rw [List.mem_singleton] at hsv
  subst hsv
  simp only [radsLists hl] at hw
  exact absurd (isWadFile_iff.2 hw) (by decide)

/-- No two files have the same export path (`C80_rads_same`). -/
theorem radsUnique : ∀ x y, RadsPair radsCfg.base radsSite [radsGame] x → RadsPair radsCfg.base radsSite [radsGame] y → x.2 = y.2 → x.1 = y.1 := by
  rintro x y ⟨sv, hsv, a, b, c, -, -, hl, rfl⟩ ⟨sv', hsv', a', b', c', -, -, hl', rfl⟩ -
  rw [List.mem_singleton] at hsv hsv'
  subst hsv hsv'
  simp only [radsLists hl, radsLists hl']

theorem radsHashFiles : SameHashFiles "h".toList radsHashes radsIdeal := ⟨by decide +kernel, by decide +kernel⟩

/-- The executable is collected. -/
example : (radsCfg.addPatchFiles C62ex.cx "h".toList [] emptyExporter (fun _ => radsWorld) radsWorld radsHashes [radsGame]).2.toOption.map
    (fun r => r.2.plain.values) = some ["/rads/projects/lol_game_client/releases/0.0.1.5/files/League of Legends.exe".toList] := by decide +kernel

/-- `C80_rads` applies. -/
example (fs' : FS) (c : Dict Nat (Option Str)) (raw : Exporter)
    (h : radsCfg.addPatchFiles C62ex.cx "h".toList [] emptyExporter (fun _ => radsWorld) radsWorld radsHashes [radsGame] = (fs', .ok (c, raw))) :
    ∃ l e, (∀ x, x ∈ l ↔ RadsPair radsCfg.base radsSite [radsGame] x) ∧ transform raw C66ex.v = .ok e ∧
      ∀ p b, Spec.Exports e (diskSources C62ex.cx "h".toList fs') p b ↔ ExportedFile C62ex.cx "h".toList radsIdeal l C66ex.v p b :=
  C80_rads radsOn C62ex.cx "h".toList C66ex.ext [] (fun h e he => by cases he) (fun _ => radsWorld) (fun _ => radsWorldOk) radsWorld radsWorldOk [radsGame]
    (fun sv hsv => by rw [List.mem_singleton] at hsv; subst hsv; constructor <;> decide +kernel) radsHashes fs' radsGood radsIdeal radsSiteFiles
    ⟨[], by decide +kernel⟩ ⟨[], by decide +kernel⟩ radsHashFiles radsReadable C66ex.v (Or.inr ⟨_, rfl⟩) c raw h

end C80ex

end Cdtb
