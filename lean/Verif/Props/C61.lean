import Verif.Lemmas.SymlinkExport
/-!
# C61 A patch exported on top of the previous one reads as a full export

The specification is in `Verif.Spec.Symlinks`.
-/
namespace Cdtb
set_option autoImplicit false
open Py Spec

/-! ## Plans -/

/-- The previous patch -/
def prevDir (x : PatchSrc) : Option PatchSrc → PatchDir
  | some p => p.toPatchDir
  | none => { x.toPatchDir with name := [] }

theorem prevDir_name (x : PatchSrc) (prev : Option PatchSrc) : (prevDir x prev).name = prevName prev := by
  cases prev <;> rfl

theorem filter_source {e p : Exporter} (he : e.Ready) (hp : p.Ready) {q : Str} {y : ExpSource} (h : (e.filterExporter p).Source q y) : e.Source q y := by
  rcases y with ⟨k, s⟩ | ⟨wp, src, f⟩
  · exact ⟨(C27_only_removes e p he.wads hp.wads he.plain k).1 s h.1, h.2⟩
  · obtain ⟨w', h1, h2, h3, h4⟩ := h
    obtain ⟨w, hw, hpath, hsub⟩ := (C27_only_removes e p he.wads hp.wads he.plain wp).2.1 w' h1
    exact ⟨w, hw, hpath ▸ h2, hsub.subset h3, h4⟩

theorem plan_for {env : ExportEnv} (henv : env.Ok) {x : PatchSrc} (hx : x.Valid) (prev : Option PatchSrc) (hprev : ∀ p ∈ prev, p.Valid ∧ Follows x p) :
    ∃ plan, x.plan env prev = .ok plan ∧ PlanFor plan x.toPatchDir (prevDir x prev) ∧ (prev = none → plan.links = []) := by
  obtain ⟨langs, hv⟩ := hx.version
  rcases prev with _ | p
  · obtain ⟨e, plan, h1, h2, h3, h4, h5, h6, _⟩ := C29_no_symlinks env.iter henv.iter env.sortHashes env.sortPaths henv.sortPaths x.raw x.version langs hx.raw hv none (by simp)
    rw [hx.kept] at h1
    cases h1
    refine ⟨plan, h2, ⟨?_, ?_, ?_, ?_, ?_, ?_⟩, fun _ => h3⟩
    · rw [h6 rfl]; exact hx.sound.ready
    · rw [h6 rfl]; exact fun q y h => h
    · rw [h6 rfl, h3]
      exact fun q hq => .inl ⟨hq, by simp⟩
    · rw [h3]; simp
    · rw [h3]; simp
    · rw [h6 rfl]; exact h5
  · obtain ⟨hp, hf⟩ := hprev p rfl
    obtain ⟨e, q, h1, h2, h3⟩ := C29_symlinks env.iter henv.iter env.sortHashes env.sortPaths henv.sortPaths x.raw p.raw x.version p.version langs hx.raw hp.raw hv
      (by rw [← hf.layout]; exact hv) hf.names
    rw [hx.kept] at h1
    rw [hp.kept] at h2
    cases h1
    cases h2
    obtain ⟨plan, h4, _, _, h7, h8, h9, h10, h11⟩ := h3 hx.sound.flat hp.sound.flat
    refine ⟨plan, h4, ⟨?_, ?_, h7, h8, h9, h10⟩, by simp⟩
    · rw [h11]; exact filterExporter_ready _ _ hx.sound.ready hp.sound.ready
    · rw [h11]; exact fun q y h => filter_source hx.sound.ready hp.sound.ready h

theorem export_eq {env : ExportEnv} {root : List Str} {x : PatchSrc} {prev : Option PatchSrc} {plan : Plan} (t : DirTree) (h : x.plan env prev = .ok plan) :
    x.export env root prev t = processTree env.iterPaths env.enc x.conv root x.name (prevDir x prev).name t plan := by
  unfold PatchSrc.export processPatch
  have h' : exportPlan env.iter env.sortHashes env.sortPaths x.raw x.version ((prev.map fun p => (p.name, p.raw, p.version)).map Prod.snd)
      (prev.map fun p => (p.name, p.raw, p.version)).isSome = .ok plan := by
    rw [← h]
    cases prev <;> rfl
  rw [h', prevDir_name]
  cases prev <;> rfl

/-! ## The invariant of histories -/

structure GoodExports (root : List Str) (t : DirTree) (ps : List PatchSrc) : Prop where
  disk : DiskOk t
  rootOk : RootOk t root
  plain : ∀ c ∈ root, PlainName c
  chain : LinkChain t root (ps.map fun p => p.name)
  valid : ∀ p ∈ ps, p.Valid
  reads : ∀ p ∈ ps, ReadsAs t root p.toPatchDir

theorem GoodExports.same {root : List Str} {t t' : DirTree} {ps : List PatchSrc} (h : GoodExports root t ps) (hd : DiskOk t') (hr : RootOk t' root)
    (hs : ∀ p ∈ ps, ∀ r, t'.get? (root ++ p.name :: r) = t.get? (root ++ p.name :: r)) : GoodExports root t' ps := by
  have hsame : SameIn t t' root (ps.map fun p => p.name) := by
    intro v hv r
    obtain ⟨p, hp, rfl⟩ := List.mem_map.1 hv
    exact hs p hp r
  refine ⟨hd, hr, h.plain, h.chain.same hsame hr.noLink, h.valid, ?_⟩
  intro p hp q b h1 h2 h3
  rw [reads_same h.rootOk.noLink hr.noLink h.plain h.chain hsame (List.mem_map.2 ⟨p, hp, rfl⟩) h1 h2]
  exact h.reads p hp q b h1 h2 h3

theorem GoodExports.tail {root : List Str} {t : DirTree} {x : PatchSrc} {ps : List PatchSrc} (h : GoodExports root t (x :: ps)) : GoodExports root t ps :=
  ⟨h.disk, h.rootOk, h.plain, h.chain.2.2.2, fun p hp => h.valid p (by simp [hp]), fun p hp => h.reads p (by simp [hp])⟩

/-- An export, its plan and what is known of it -/
theorem GoodExports.setting {env : ExportEnv} (henv : env.Ok) {root : List Str} {t : DirTree} {ps : List PatchSrc} (h : GoodExports root t ps) {x : PatchSrc}
    (hx : x.Valid) (hn : ∀ p ∈ ps, p.name ≠ x.name) {prev : Option PatchSrc} (hprev : ∀ p ∈ prev, p ∈ ps ∧ Follows x p) :
    ∃ plan, x.plan env prev = .ok plan ∧ Setting t root x.toPatchDir (prevDir x prev) plan (ps.map fun p => p.name) ∧ (prev = none → plan.links = []) := by
  obtain ⟨plan, h1, h2, h3⟩ := plan_for henv hx prev (fun p hp => ⟨h.valid p (hprev p hp).1, (hprev p hp).2⟩)
  refine ⟨plan, h1, ⟨h.plain, h.rootOk, h.chain, ?_, hx.sound, ?_, h2⟩, h3⟩
  · intro hl
    rcases prev with _ | p
    · exact absurd (h3 rfl) hl
    · exact List.mem_map.2 ⟨p, (hprev p rfl).1, rfl⟩
  · intro hm
    obtain ⟨p, hp, he⟩ := List.mem_map.1 hm
    exact hn p hp he

/-- An export, whatever its result -/
theorem GoodExports.step {env : ExportEnv} (henv : env.Ok) {root : List Str} {t t' : DirTree} {ps : List PatchSrc} (h : GoodExports root t ps) {x : PatchSrc}
    (hx : x.Valid) (hn : ∀ p ∈ ps, p.name ≠ x.name) {prev : Option PatchSrc} (hprev : ∀ p ∈ prev, p ∈ ps ∧ Follows x p) (hu : UsableFor t root env x prev)
    {res : Res Unit} (he : x.export env root prev t = (t', res)) :
    DiskOk t' ∧ RootOk t' root ∧ (∀ q, ¬ root ++ [x.name] <+: q → t'.get? q = t.get? q) ∧ LinkChain t' root (x.name :: ps.map fun p => p.name) := by
  obtain ⟨plan, h1, hS, h3⟩ := h.setting henv hx hn hprev
  have hu := hu plan h1
  rw [← prevDir_name x] at hu
  rw [export_eq t h1] at he
  have hfull := fun f hf => (id hf : f ∈ exportFiles x.conv plan.exporter)
  obtain ⟨a0, a1, a2, a3, a4, a5, a6⟩ := run_facts hS.plain hS.rootOk hS.chain hS.prev hS.sound hS.new hS.plan
    (fun q hq => cleaned_out env.iterPaths _ plan.kept plan.links hq) (cleaned_links env.iterPaths henv.iterPaths h.disk hu) hfull (enc := env.enc) (fun f hf => hf) (fun r hr => hr) he
  obtain ⟨b1, b2, b3, _⟩ := chain_extends hS.plain hS.rootOk hS.chain hS.prev hS.sound hS.new hS.plan a1 a5
  have hwf := a0 (cleanAt_wellFormed env.iterPaths henv.iterPaths h.disk.tree _ hu.dir _ _)
  refine ⟨⟨hwf, ?_⟩, b1, a1, b3⟩
  have hw : ∀ f ∈ exportFiles x.conv plan.exporter ++ cdragonFiles env.enc plan, ∀ c ∈ root ++ [x.name] ++ f.1, PlainName c :=
    fun f hf => base_plain hS (writes_plain hS.sound hS.plan env.enc f hf)
  have hclean := cleanAt_names env.iterPaths henv.iterPaths h.disk (root ++ [x.name]) hu.dir plan.kept plan.links
  intro q n hq
  by_cases hb : root ++ [x.name] <+: q
  · obtain ⟨r, rfl⟩ := hb
    rcases n with b | y | -
    · by_cases he : ∃ f ∈ exportFiles x.conv plan.exporter ++ cdragonFiles env.enc plan, root ++ [x.name] ++ r = root ++ [x.name] ++ f.1
      · obtain ⟨f, hf, he⟩ := he
        rw [he]; exact hw f hf
      · exact hclean _ _ ((a2 _ b (fun f hf he' => he ⟨f, hf, he'⟩)).1 hq)
    · obtain ⟨⟨s, hs, rfl⟩, _⟩ := a5 r y hq
      exact base_plain hS (links_parts hS.sound hS.plan hs).1
    · rcases a4 _ hq with h | ⟨f, hf, h1, _⟩ | ⟨s, hs, h1, _⟩
      · exact hclean _ _ h
      · exact fun c hc => hw f hf c (h1.subset hc)
      · exact fun c hc => base_plain hS (links_parts hS.sound hS.plan hs).1 c (h1.subset hc)
  · rw [a1 q hb] at hq
    exact h.disk.names _ _ hq

theorem GoodExports.exported {env : ExportEnv} (henv : env.Ok) {root : List Str} {t t' : DirTree} {ps : List PatchSrc} (h : GoodExports root t ps) {x : PatchSrc}
    (hx : x.Valid) (hn : ∀ p ∈ ps, p.name ≠ x.name) {prev : Option PatchSrc} (hprev : ∀ p ∈ prev, p ∈ ps ∧ Follows x p) (hu : UsableFor t root env x prev)
    (he : x.export env root prev t = (t', .ok ())) : GoodExports root t' (x :: ps) := by
  obtain ⟨hdisk, b1, a1, b3⟩ := h.step henv hx hn hprev hu he
  obtain ⟨plan, h1, hS, h3⟩ := h.setting henv hx hn hprev
  have hu := hu plan h1
  rw [← prevDir_name x] at hu
  rw [export_eq t h1] at he
  have hreads : ReadsAs t' root x.toPatchDir := by
    refine export_reads env.iterPaths henv.iterPaths hS.plain hS.rootOk h.disk hS.chain (fun hl => ?_) hS.sound hS.new hS.plan hu he
    rcases prev with _ | p
    · exact absurd (h3 rfl) hl
    · obtain ⟨hp, hf⟩ := hprev p rfl
      exact ⟨hS.prev hl, (h.valid p hp).sound, hf.content, h.reads p hp⟩
  have hold := h.same hdisk b1 (fun p hp r => a1 _ (not_base_other (hn p hp) r))
  refine ⟨hdisk, b1, h.plain, b3, ?_, ?_⟩
  · intro p hp
    rcases List.mem_cons.1 hp with rfl | hp
    · exact hx
    · exact h.valid p hp
  · intro p hp
    rcases List.mem_cons.1 hp with rfl | hp
    · exact hreads
    · exact hold.reads p hp

theorem History.good {env : ExportEnv} (henv : env.Ok) {root : List Str} {t : DirTree} {ps : List PatchSrc} (h : History env root t ps) : GoodExports root t ps := by
  induction h with
  | start t h1 h2 h3 => exact ⟨h1, h2, h3, trivial, by simp, by simp⟩
  | exported t t' ps x prev _ hx hn hp hu he ih => exact ih.exported henv hx hn hp hu he
  | elsewhere t t' ps _ h1 h2 h3 ih => exact ih.same h1 h2 h3
  | forget t ps x _ ih => exact ih.tail

theorem Stopped.during {env : ExportEnv} (henv : env.Ok) {root : List Str} {t t1 : DirTree} {x : PatchSrc} {prev : Option PatchSrc} {plan : Plan} {names : List Str}
    (hS : Setting t root x.toPatchDir (prevDir x prev) plan names) (ht : DiskOk t) (hu : Usable t root x.toPatchDir (prevName prev) plan)
    (hf : Fits t root x.toPatchDir plan) (h : Stopped env root x prev plan t t1) : During t root x.toPatchDir (prevDir x prev) plan t1 := by
  rw [← prevDir_name x] at hu
  have hx := hS.sound
  have hP := hS.plan
  induction h with
  | cut k m n =>
    rw [← prevDir_name x]
    exact during_run env.enc hS (during_clean env.iterPaths henv.iterPaths hS ht hu hf) (fun f hf => (List.take_sublist _ _).subset hf)
      (fun f hf => (List.take_sublist _ _).subset hf) (fun f hf => (List.take_sublist _ _).subset hf) rfl
  | torn t1 r b b' _ hb ih => exact ih.set_file hS (ih.tidy.file r b hb) (by rw [hb]; simp) (ih.disk.tree.parent _ _ (by simp) hb) (ih.disk.names _ _ hb) b'
  | created t1 f _ hf hn hd ih =>
    refine ih.set_file hS ?_ (by rw [hn]; simp) hd (base_plain hS (writes_plain hx hP env.enc f hf)) []
    rcases List.mem_append.1 hf with h | h
    · exact .inl ⟨f, h, rfl⟩
    · right
      obtain ⟨n, _, hn⟩ := mem_cdragonFiles' h
      rw [hn]
      exact ⟨List.cons_prefix_cons.2 ⟨rfl, List.nil_prefix⟩, by simp⟩
  | mkdir t1 r q _ hq hr hne hn hd ih =>
    have hplain : ∀ c ∈ root ++ [x.name] ++ q, PlainName c := by
      rcases hq with ⟨f, hf, rfl⟩ | ⟨s, hs, rfl⟩
      · exact base_plain hS (writes_plain hx hP env.enc f hf)
      · exact base_plain hS (links_parts hx hP hs).1
    exact ih.set_dir hS hn hd (fun c hc => hplain c (((List.prefix_append_right_inj _).2 hr).subset hc)) (by
      rcases hq with ⟨f, hf, rfl⟩ | ⟨s, hs, rfl⟩
      · rcases List.mem_append.1 hf with h | h
        · exact .inr (.inr (.inl ⟨f, h, hr, hne⟩))
        · obtain ⟨n, _, hn⟩ := mem_cdragonFiles' h
          rw [hn] at hr hne
          rcases cdragon_prefix_cases hr hne with h | h
          · exact .inl h
          · exact .inr (.inr (.inr (.inr (by rw [h]))))
      · exact .inr (.inr (.inr (.inl ⟨s, hs, hr, hne⟩)))) (by
      intro n hn he
      have hcd : ["cdragon".toList] <+: ["cdragon".toList, n] := List.cons_prefix_cons.2 ⟨rfl, List.nil_prefix⟩
      rw [he] at hr hne
      rcases hq with ⟨f, hf, rfl⟩ | ⟨s, hs, rfl⟩
      · rcases List.mem_append.1 hf with h | h
        · exact file_not_cdragon hx hP h (hcd.trans hr)
        · obtain ⟨m, _, hm⟩ := mem_cdragonFiles' h
          rw [hm] at hr hne
          exact hne (hr.eq_of_length (by simp))
      · exact link_not_cdragon hx hP hs (hcd.trans hr))

/-! ## Theorems -/

/-- In all states of the disk, every exported patch reads as a full export of it: a file is read at a path, symlinks being followed, if and only if
it is a file of the patch at this path, and with its content. -/
theorem C61_history (env : ExportEnv) (henv : env.Ok) (root : List Str) (t : DirTree) (ps : List PatchSrc) (h : History env root t ps) :
    ∀ x ∈ ps, ∀ q b, (∀ c ∈ q, PlainName c) → q.length ≤ maxLinks → ¬ ["cdragon".toList] <+: q →
      (ReadsFile t (root ++ x.name :: q) b ↔ x.toPatchDir.Full q b) :=
  fun x hx => (h.good henv).reads x hx

/-- Whatever happens during the export of a patch, nothing changes outside of its directory: previous patches are still there. -/
theorem C61_frame (env : ExportEnv) (henv : env.Ok) (root : List Str) (t t' : DirTree) (ps : List PatchSrc) (h : History env root t ps) (x : PatchSrc)
    (hx : x.Valid) (hn : ∀ p ∈ ps, p.name ≠ x.name) (prev : Option PatchSrc) (hprev : ∀ p ∈ prev, p ∈ ps ∧ Follows x p) (hu : UsableFor t root env x prev)
    (res : Res Unit) (he : x.export env root prev t = (t', res)) :
    (∀ q, ¬ root ++ [x.name] <+: q → t'.get? q = t.get? q) ∧ History env root t' ps := by
  obtain ⟨a, b, c, _⟩ := (h.good henv).step henv hx hn hprev hu he
  exact ⟨c, .elsewhere t t' ps h a b (fun p hp r => c _ (not_base_other (hn p hp) r))⟩

/-- A patch can be exported if there is room for it. -/
theorem C61_succeeds (env : ExportEnv) (henv : env.Ok) (root : List Str) (t : DirTree) (ps : List PatchSrc) (h : History env root t ps) (x : PatchSrc)
    (hx : x.Valid) (hn : ∀ p ∈ ps, p.name ≠ x.name) (prev : Option PatchSrc) (hprev : ∀ p ∈ prev, p ∈ ps ∧ Follows x p) (hu : UsableFor t root env x prev)
    (hf : FitsFor t root env x prev) : ∃ t', x.export env root prev t = (t', .ok ()) ∧ History env root t' (x :: ps) := by
  have hg := h.good henv
  obtain ⟨plan, h1, hS, _⟩ := hg.setting henv hx hn hprev
  have hu' := hu plan h1
  rw [← prevDir_name x] at hu'
  have hok : (x.export env root prev t).2 = .ok () := by
    rw [export_eq t h1]
    exact during_succeeds env.enc hS (during_clean env.iterPaths henv.iterPaths hS hg.disk hu' (hf plan h1)) (fun f hf => hf) (fun f hf => hf) (fun r hr => hr)
  refine ⟨(x.export env root prev t).1, Prod.ext rfl hok, ?_⟩
  exact .exported t _ ps x prev h hx hn hprev hu (Prod.ext rfl hok)

/-- There is room in a new directory. -/
theorem C61_new (env : ExportEnv) (root : List Str) (t : DirTree) (x : PatchSrc) (prev : Option PatchSrc)
    (ht : ∀ r, t.get? (root ++ x.name :: r) = none) : UsableFor t root env x prev ∧ FitsFor t root env x prev := by
  have ht : ∀ r, t.get? (root ++ [x.name] ++ r) = none := fun r => by rw [List.append_assoc]; exact ht r
  have h0 : t.get? (root ++ [x.name]) = none := by simpa using ht []
  refine ⟨fun plan _ => ⟨?_, ?_, ?_, ?_⟩, fun plan _ => ⟨?_, ?_, ?_, ?_⟩⟩
  · intro n hn; rw [h0] at hn; cases hn
  · intro k _ s _ y hy; rw [ht] at hy; cases hy
  · intro k y _ s b hb; rw [ht] at hb; cases hb
  · intro r _ y hy; rw [ht] at hy; cases hy
  · intro r hr; rw [ht] at hr; cases hr
  · intro k y _ s hs; rw [ht] at hs; cases hs
  · intro b hb; rw [ht] at hb; cases hb
  · intro n _ hn; rw [ht] at hn; cases hn

/-- When an export stops after extra files are removed, other patches are not changed, and exporting the patch again gives the right files,
however many times it stops. (The last state is one of those: a patch can be exported again.) -/
theorem C61_retry (env : ExportEnv) (henv : env.Ok) (root : List Str) (t t1 : DirTree) (ps : List PatchSrc) (h : History env root t ps) (x : PatchSrc)
    (hx : x.Valid) (hn : ∀ p ∈ ps, p.name ≠ x.name) (prev : Option PatchSrc) (hprev : ∀ p ∈ prev, p ∈ ps ∧ Follows x p) (hu : UsableFor t root env x prev)
    (hf : FitsFor t root env x prev) (plan : Plan) (hplan : x.plan env prev = .ok plan) (hs : Stopped env root x prev plan t t1) :
    (∀ q, ¬ root ++ [x.name] <+: q → t1.get? q = t.get? q) ∧ History env root t1 ps ∧ UsableFor t1 root env x prev ∧ FitsFor t1 root env x prev ∧
    ∃ t', x.export env root prev t1 = (t', .ok ()) ∧ History env root t' (x :: ps) := by
  have hg := h.good henv
  obtain ⟨plan', h1, hS, _⟩ := hg.setting henv hx hn hprev
  rw [hplan] at h1
  cases h1
  have hD := hs.during henv hS hg.disk (hu plan hplan) (hf plan hplan)
  have hH : History env root t1 ps := .elsewhere t t1 ps h hD.disk hD.tidy.rootOk (fun p hp r => hD.frame _ (not_base_other (hn p hp) r))
  obtain ⟨u, f⟩ := during_usable hS hD
  rw [prevDir_name] at u
  have hu1 : UsableFor t1 root env x prev := by
    intro plan' h'
    rw [hplan] at h'; cases h'
    exact u
  have hf1 : FitsFor t1 root env x prev := by
    intro plan' h'
    rw [hplan] at h'; cases h'
    exact f
  exact ⟨hD.frame, hH, hu1, hf1, C61_succeeds env henv root t1 ps hH x hx hn prev hprev hu1 hf1⟩

/-- An object which is not a symlink, at the place of a symlink, stops the export. -/
theorem C61_blocked (root cur prev : List Str) (t : DirTree) (link : Str) (rest : List Str) (n : FNode) (h : lstat t (root ++ cur ++ splitChar '/' link) = some n)
    (hn : ∀ y, n ≠ .link y) : createSymlinks root cur prev t (link :: rest) = (t, .error .runtime) := by
  unfold createSymlinks createSymlink
  simp only [h]

/-! ## A case -/

/-- The sources of an exporter, with converted paths -/
def sourceList (e : Exporter) : List (Str × ExpSource) :=
  e.plain.flatMap (fun ks => (convertedPaths e.converters ks.1).map fun q => (q, .inl ks)) ++
  e.wads.flatMap fun kw => kw.2.files.flatMap fun f => match f.path with
    | none => []
    | some p => (convertedPaths e.converters p).map fun q => (q, .inr (kw.1, kw.2.path, f))

theorem mem_sourceList {e : Exporter} {q : Str} {y : ExpSource} (h : e.Source q y) : (q, y) ∈ sourceList e := by
  unfold sourceList
  rcases y with ⟨k, s⟩ | ⟨wp, src, f⟩
  · refine List.mem_append_left _ (List.mem_flatMap.2 ⟨(k, s), Dict.mem_of_get? h.1, List.mem_map.2 ⟨q, h.2, rfl⟩⟩)
  · obtain ⟨w, h1, rfl, h3, p, h4, h5⟩ := h
    refine List.mem_append_right _ (List.mem_flatMap.2 ⟨(wp, w), Dict.mem_of_get? h1, List.mem_flatMap.2 ⟨f, h3, ?_⟩⟩)
    rw [h4]
    exact List.mem_map.2 ⟨q, h5, rfl⟩

instance (c : Str) : Decidable (PlainName c) := by unfold PlainName; infer_instance

/-- Content for the case: a file with the checksum -/
def exConv : Conv
  | .inl _, _ => [([], [0])]
  | .inr (_, _, f), _ => [([], [UInt8.ofNat (f.sha256.getD 0)])]

/-- A patch for the case -/
def exSrc (name : String) (raw : Exporter) (n : Nat) : PatchSrc :=
  { name := name.toList, conv := exConv, raw := raw, version := ⟨name.toList, .nums [9, n]⟩,
    exporter := (transform raw ⟨name.toList, .nums [9, n]⟩).toOption.getD raw }

/-- Checks of `Sound` that are done on lists -/
def soundList (conv : Conv) (l : List (Str × ExpSource)) : Bool :=
  l.all fun a => (splitChar '/' a.1).all (fun c => decide (PlainName c)) && decide ((splitChar '/' a.1).length ≤ maxLinks) &&
    !(splitChar '/' "cdragon".toList).isPrefixOf (splitChar '/' a.1) &&
    (conv a.2 a.1).all (fun f => f.1.isEmpty) && decide ((conv a.2 a.1).length ≤ 1) &&
    l.all fun b => (!(splitChar '/' a.1).isPrefixOf (splitChar '/' b.1) || decide (a.1 = b.1)) && (decide (a.1 ≠ b.1) || decide (conv a.2 a.1 = conv b.2 b.1))

theorem sound_of_list {x : PatchDir} (hn : PlainName x.name) (hr : x.exporter.Ready) (h : soundList x.conv (sourceList x.exporter) = true) : x.Sound := by
  unfold soundList at h
  have hd : ∀ a ∈ sourceList x.exporter, (∀ c ∈ splitChar '/' a.1, PlainName c) ∧ (splitChar '/' a.1).length ≤ maxLinks ∧
      ¬ splitChar '/' "cdragon".toList <+: splitChar '/' a.1 ∧ (∀ f ∈ x.conv a.2 a.1, f.1 = []) ∧ (x.conv a.2 a.1).length ≤ 1 ∧
      ∀ b ∈ sourceList x.exporter, (splitChar '/' a.1 <+: splitChar '/' b.1 → a.1 = b.1) ∧ (a.1 = b.1 → x.conv a.2 a.1 = x.conv b.2 b.1) := by
    intro a ha
    have := List.all_eq_true.1 h a ha
    simp only [Bool.and_eq_true, List.all_eq_true, decide_eq_true_eq, Bool.not_eq_true', Bool.or_eq_true, ← Bool.not_eq_true, List.isPrefixOf_iff_prefix, List.isEmpty_iff] at this
    obtain ⟨⟨⟨⟨⟨h1, h2⟩, h3⟩, h4⟩, h5⟩, h6⟩ := this
    refine ⟨h1, h2, h3, h4, h5, fun b hb => ⟨fun hp => ?_, fun he => ?_⟩⟩
    · rcases (h6 b hb).1 with h | h
      · exact absurd hp h
      · exact h
    · rcases (h6 b hb).2 with h | h
      · exact absurd he h
      · exact h
  have hex : ∀ q, x.exporter.Exports q → ∃ y, (q, y) ∈ sourceList x.exporter := by
    intro q hq
    obtain ⟨y, hy⟩ := (exports_iff _ q).1 hq
    exact ⟨y, mem_sourceList hy⟩
  refine ⟨hn, hr, ?_, ?_, ?_, ?_, ?_⟩
  · intro a b ha hb hab
    obtain ⟨y, hy⟩ := hex a ha
    obtain ⟨z, hz⟩ := hex b hb
    exact ((hd _ hy).2.2.2.2.2 _ hz).1 ((under_iff _ _).1 hab)
  · intro q hq
    obtain ⟨y, hy⟩ := hex q hq
    exact ⟨(hd _ hy).1, (hd _ hy).2.1⟩
  · intro q hq hu
    obtain ⟨y, hy⟩ := hex q hq
    exact (hd _ hy).2.2.1 ((under_iff _ _).1 hu)
  · intro q y z hy hz
    exact ((hd _ (mem_sourceList hy)).2.2.2.2.2 _ (mem_sourceList hz)).2 rfl
  · intro q y hy f hf
    obtain ⟨_, h2, _, h4, h5, _⟩ := hd _ (mem_sourceList hy)
    simp only at h2 h4 h5
    refine ⟨by rw [h4 f hf]; simp, by rw [h4 f hf, List.append_nil]; exact h2, ?_⟩
    intro g hg _
    rcases hc : x.conv y q with _ | ⟨a, _ | ⟨b, l⟩⟩
    · rw [hc] at hf; simp at hf
    · rw [hc] at hf hg
      rw [List.mem_singleton.1 hf, List.mem_singleton.1 hg]
    · rw [hc] at h5; simp at h5

def exOld : PatchSrc := exSrc "9.1" exPrev 1
def exCur : PatchSrc := exSrc "9.2" exNew 2
def exEnv : ExportEnv := { iter := id, iterPaths := id, sortHashes := id, sortPaths := id, enc := fun s => s.map fun c => UInt8.ofNat c.toNat }
def exRoot : List Str := ["out".toList]
def exDisk : DirTree := [([], .dir), (["out".toList], .dir)]

theorem exSrc_valid (name : String) (raw : Exporter) (n : Nat) (hraw : raw.plain.WF ∧ raw.wads.WF) (hv : langSubdirs ⟨name.toList, .nums [9, n]⟩ = .ok false)
    (hn : PlainName name.toList) (h : soundList exConv (sourceList (exSrc name raw n).exporter) = true) : (exSrc name raw n).Valid := by
  obtain ⟨e, h1, _, h3, _⟩ := transform_spec raw ⟨name.toList, .nums [9, n]⟩ false hraw.1 hraw.2 hv
  have he : (exSrc name raw n).exporter = e := by
    unfold exSrc
    simp only [h1]
    rfl
  exact ⟨hraw, by rw [he]; exact h1, ⟨false, hv⟩, sound_of_list hn (by show (exSrc name raw n).exporter.Ready; rw [he]; exact h3) h⟩

theorem exOld_valid : exOld.Valid :=
  exSrc_valid _ _ _ ⟨by unfold Dict.WF Dict.keys; decide, by unfold Dict.WF Dict.keys; decide⟩ (by decide +kernel) (by decide +kernel) (by decide +kernel)

theorem exCur_valid : exCur.Valid :=
  exSrc_valid _ _ _ ⟨by unfold Dict.WF Dict.keys; decide, by unfold Dict.WF Dict.keys; decide⟩ (by decide +kernel) (by decide +kernel) (by decide +kernel)

theorem exEnv_ok : exEnv.Ok := ⟨fun _ _ => Iff.rfl, fun _ _ => Iff.rfl, fun _ _ => Iff.rfl⟩

theorem exFollows : Follows exCur exOld := by
  refine ⟨by decide +kernel, exSameNames, ?_⟩
  rintro q (y | ⟨wp, src, f⟩) (z | ⟨wp', src', g⟩) h1 h2 h3
  · rfl
  · exact absurd h3 id
  · exact absurd h3 id
  · show [([], [UInt8.ofNat (f.sha256.getD 0)])] = [([], [UInt8.ofNat (g.sha256.getD 0)])]
    rcases h3.2 with ⟨_, rfl⟩ | ⟨_, h⟩
    · rfl
    · rw [h]

/-- The first patch; the second one can be exported on top of it. -/
theorem exFirst : ∃ t, exOld.export exEnv exRoot none exDisk = (t, .ok ()) ∧ History exEnv exRoot t [exOld] ∧
    UsableFor t exRoot exEnv exCur (some exOld) ∧ FitsFor t exRoot exEnv exCur (some exOld) := by
  have h0 : History exEnv exRoot exDisk [] := by
    refine .start _ ⟨⟨by unfold Dict.WF Dict.keys; decide, ?_⟩, ?_⟩ ?_ ?_
    · intro p n hp hg
      have := Dict.mem_of_get? hg
      simp only [exDisk, List.mem_cons, Prod.mk.injEq, List.not_mem_nil, or_false] at this
      rcases this with ⟨rfl, _⟩ | ⟨rfl, _⟩
      · exact absurd rfl hp
      · rfl
    · intro p n hg
      have := Dict.mem_of_get? hg
      simp only [exDisk, List.mem_cons, Prod.mk.injEq, List.not_mem_nil, or_false] at this
      rcases this with ⟨rfl, _⟩ | ⟨rfl, _⟩
      · simp
      · decide +kernel
    · intro d hd
      obtain ⟨s, hs⟩ := hd
      rcases d with _ | ⟨a, d⟩
      · rfl
      · simp only [exRoot, List.cons_append, List.cons.injEq, List.append_eq_nil_iff] at hs
        rw [hs.1, hs.2.1]
        decide +kernel
    · decide +kernel
  have hnone : ∀ r, exDisk.get? (exRoot ++ exOld.name :: r) = none := by
    intro r
    rcases h : exDisk.get? (exRoot ++ exOld.name :: r) with _ | n
    · rfl
    · have := Dict.mem_of_get? h
      simp only [exDisk, exRoot, List.mem_cons, Prod.mk.injEq, List.not_mem_nil, or_false] at this
      rcases this with ⟨h, _⟩ | ⟨h, _⟩
      · simp at h
      · simp at h
  obtain ⟨u, f⟩ := C61_new exEnv exRoot exDisk exOld none hnone
  obtain ⟨t1, h1, H1⟩ := C61_succeeds exEnv exEnv_ok exRoot exDisk [] h0 exOld exOld_valid (by simp) none (by simp) u f
  have hfr := (C61_frame exEnv exEnv_ok exRoot exDisk t1 [] h0 exOld exOld_valid (by simp) none (by simp) u _ h1).1
  have hne : exOld.name ≠ exCur.name := by decide +kernel
  have hnone2 : ∀ r, t1.get? (exRoot ++ exCur.name :: r) = none := by
    intro r
    rw [hfr _ (not_base_other hne.symm r)]
    rcases h : exDisk.get? (exRoot ++ exCur.name :: r) with _ | n
    · rfl
    · have := Dict.mem_of_get? h
      simp only [exDisk, exRoot, List.mem_cons, Prod.mk.injEq, List.not_mem_nil, or_false] at this
      rcases this with ⟨h, _⟩ | ⟨h, _⟩
      · simp at h
      · simp at h
  exact ⟨t1, h1, H1, C61_new exEnv exRoot t1 exCur (some exOld) hnone2⟩

/-- The first patch, then the second one on top of it -/
theorem exHistory : ∃ t, History exEnv exRoot t [exCur, exOld] ∧ t = (exCur.export exEnv exRoot (some exOld) (exOld.export exEnv exRoot none exDisk).1).1 := by
  obtain ⟨t1, h1, H1, u, f⟩ := exFirst
  have hne : exOld.name ≠ exCur.name := by decide +kernel
  obtain ⟨t2, h2, H2⟩ := C61_succeeds exEnv exEnv_ok exRoot t1 [exOld] H1 exCur exCur_valid (by simpa using hne) (some exOld)
    (by
      intro p hp
      cases hp
      exact ⟨by simp, exFollows⟩) u f
  refine ⟨t2, H2, ?_⟩
  rw [h1]
  simp only [h2]

/-- Its disk -/
def exResult : DirTree := (exCur.export exEnv exRoot (some exOld) (exOld.export exEnv exRoot none exDisk).1).1

/-- A directory did not change: it is a symlink, and files are read through it. -/
example : exResult.get? ["out".toList, "9.2".toList, "game".toList, "e".toList] = some (.link "../../9.1/game/e".toList) ∧
    realpath exResult ["out".toList, "9.2".toList, "game".toList, "e".toList, "z.txt".toList] = some ["out".toList, "9.1".toList, "game".toList, "e".toList, "z.txt".toList] ∧
    exResult.get? ["out".toList, "9.1".toList, "game".toList, "e".toList, "z.txt".toList] = some (.file [3]) ∧
    exResult.get? ["out".toList, "9.2".toList, "game".toList, "d".toList, "y.txt".toList] = some (.file [5]) := by decide +kernel

/-- An empty directory at the place of a symlink (it is left there when an export stops while extra files are removed) is not removed:
all exports of the patch fail. -/
example : let t := ((exOld.export exEnv exRoot none exDisk).1 ++
      [(["out".toList, "9.2".toList], .dir), (["out".toList, "9.2".toList, "game".toList], .dir), (["out".toList, "9.2".toList, "game".toList, "e".toList], .dir)] : DirTree)
    let r := exCur.export exEnv exRoot (some exOld) t
    r.2 = .error .runtime ∧ (exCur.export exEnv exRoot (some exOld) r.1).2 = .error .runtime := by decide +kernel

end Cdtb
