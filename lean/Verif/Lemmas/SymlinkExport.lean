import Verif.Lemmas.SymlinkRun
/-! # Lemmas on the export of a patch: plans, files, symlinks -/
namespace Cdtb
set_option autoImplicit false
open Py Spec

/-- What is needed of a plan (see C29) -/
structure PlanFor (plan : Plan) (x p : PatchDir) : Prop where
  ready : plan.exporter.Ready
  sub : ∀ q y, plan.exporter.Source q y → x.exporter.Source q y
  parts : ∀ q, x.exporter.Exports q →
    (plan.exporter.Exports q ∧ ∀ r ∈ plan.links, ¬ Under r q) ∨
    (¬ plan.exporter.Exports q ∧ (∃ r ∈ plan.links, Under r q ∧ ∀ s ∈ plan.links, Under s q → s = r) ∧
      p.exporter.Exports q ∧ ∀ y, x.exporter.Source q y → SameSource p.exporter q y)
  back : ∀ q, p.exporter.Exports q → (∃ r ∈ plan.links, Under r q) → x.exporter.Exports q
  covers : ∀ r ∈ plan.links, ∃ q, x.exporter.Exports q ∧ Under r q
  kept : ∀ q, q ∈ plan.kept ↔ plan.exporter.Exports q ∨ q = "cdragon".toList

/-! ## Sources -/

theorem source_exports {e : Exporter} {q : Str} {y : ExpSource} (h : e.Source q y) : e.Exports q := (exports_iff e q).2 ⟨y, h⟩

theorem sameSource_unchanged {p : Exporter} {q : Str} {y : ExpSource} (h : SameSource p q y) : ∃ z, p.Source q z ∧ Unchanged y z := by
  rcases y with ⟨k, s⟩ | ⟨wp, src, f⟩
  · exact ⟨.inl (k, s), h, rfl⟩
  · rcases h with h | ⟨src', g, h1, h2, h3⟩
    · exact ⟨.inr (wp, src, f), h, rfl, .inl ⟨rfl, rfl⟩⟩
    · exact ⟨.inr (wp, src', g), h1, rfl, .inr ⟨h2.symm, h3.symm⟩⟩

theorem mem_convFiles {conv : Conv} {y : ExpSource} {q : Str} {f : List Str × Bytes} :
    f ∈ convFiles conv y q ↔ ∃ g ∈ conv y q, f = (splitChar '/' q ++ g.1, g.2) := by
  unfold convFiles
  rw [List.mem_map]
  constructor
  · rintro ⟨g, hg, rfl⟩; exact ⟨g, hg, rfl⟩
  · rintro ⟨g, hg, rfl⟩; exact ⟨g, hg, rfl⟩

theorem mem_exportFiles (conv : Conv) (e : Exporter) (h : e.Ready) (f : List Str × Bytes) :
    f ∈ exportFiles conv e ↔ ∃ q y, e.Source q y ∧ f ∈ convFiles conv y q := by
  unfold exportFiles
  rw [List.mem_append, List.mem_flatMap, List.mem_flatMap]
  constructor
  · rintro (⟨⟨k, s⟩, hm, hf⟩ | ⟨⟨wp, w⟩, hm, hf⟩)
    · obtain ⟨q, hq, hf⟩ := List.mem_flatMap.1 hf
      exact ⟨q, .inl (k, s), ⟨Dict.get?_of_mem h.plain hm, hq⟩, hf⟩
    · obtain ⟨g, hg, hf⟩ := List.mem_flatMap.1 hf
      rcases hp : g.path with _ | p
      · rw [hp] at hf; simp at hf
      · rw [hp] at hf
        obtain ⟨q, hq, hf⟩ := List.mem_flatMap.1 hf
        exact ⟨q, .inr (wp, w.path, g), ⟨w, Dict.get?_of_mem h.wads hm, rfl, hg, p, hp, hq⟩, hf⟩
  · rintro ⟨q, ⟨k, s⟩ | ⟨wp, src, g⟩, hs, hf⟩
    · exact .inl ⟨(k, s), Dict.mem_of_get? hs.1, List.mem_flatMap.2 ⟨q, hs.2, hf⟩⟩
    · obtain ⟨w, hw, rfl, hg, p, hp, hq⟩ := hs
      refine .inr ⟨(wp, w), Dict.mem_of_get? hw, List.mem_flatMap.2 ⟨g, hg, ?_⟩⟩
      rw [hp]
      exact List.mem_flatMap.2 ⟨q, hq, hf⟩

/-- Two files of an export, one at or above the other, are the same. -/
theorem full_flat {x : PatchDir} (hx : x.Sound) {q q' : List Str} {b b' : Bytes} (h : x.Full q b) (h' : x.Full q' b') (hqq : q <+: q') : q = q' ∧ b = b' := by
  obtain ⟨p, y, s, hs, hm, rfl⟩ := h
  obtain ⟨p', y', s', hs', hm', rfl⟩ := h'
  have hpp : p = p' := by
    rcases List.prefix_or_prefix_of_prefix ((List.prefix_append (splitChar '/' p) s).trans hqq) (List.prefix_append (splitChar '/' p') s') with h | h
    · exact hx.flat p p' (source_exports hs) (source_exports hs') ((under_iff _ _).2 h)
    · exact (hx.flat p' p (source_exports hs') (source_exports hs) ((under_iff _ _).2 h)).symm
  subst hpp
  rw [hx.one p y' y hs' hs] at hm'
  rw [List.prefix_append_right_inj] at hqq
  have := (hx.content p y hs _ hm).2.2 _ hm' hqq
  simp only [Prod.mk.injEq] at this
  exact ⟨by rw [this.1], this.2⟩

/-! ## Paths in directories of patches -/

theorem realpath_chain {t : DirTree} {root : List Str} {vs : List Str} (hroot : NoLink t root) (hpr : ∀ c ∈ root, PlainName c) (h : LinkChain t root vs)
    {v : Str} (hv : v ∈ vs) {q : List Str} (hq : ∀ c ∈ q, PlainName c) (hlen : q.length ≤ maxLinks) :
    ∃ j ∈ vs, NoLink t (root ++ j :: q) ∧ ∀ t' : DirTree, SameIn t t' root vs → NoLink t' root → realpath t' (root ++ v :: q) = some (root ++ j :: q) := by
  have hv0 : ∀ x, t.get? (root ++ [v]) ≠ some (.link x) := by
    intro x hx
    exact absurd rfl (h.link hv hx).1
  have hn : NoLink t (root ++ [v]) := noLink_split hroot (fun s hs x => by rw [List.prefix_nil.1 hs]; exact hv0 x)
  obtain ⟨j, hj, h1, h2⟩ := chain_walk h q v hv [] (by simpa using hq) hn
  refine ⟨j, hj, by simpa using h1, fun t' hs hr => ?_⟩
  rw [realpath_root hr hpr (h.names v hv) (fun x => by rw [hs v hv]; exact hv0 x)]
  have := realGo_mono hlen (h2 t' hs hr)
  simpa using this

theorem reads_same {t t' : DirTree} {root : List Str} {vs : List Str} (hroot : NoLink t root) (hroot' : NoLink t' root) (hpr : ∀ c ∈ root, PlainName c)
    (h : LinkChain t root vs) (hs : SameIn t t' root vs) {v : Str} (hv : v ∈ vs) {q : List Str} (hq : ∀ c ∈ q, PlainName c) (hlen : q.length ≤ maxLinks)
    (b : Bytes) : ReadsFile t' (root ++ v :: q) b ↔ ReadsFile t (root ++ v :: q) b := by
  obtain ⟨j, hj, _, h2⟩ := realpath_chain hroot hpr h hv hq hlen
  unfold ReadsFile
  rw [h2 t' hs hroot', h2 t (fun _ _ _ => rfl) hroot]
  simp only [Option.some.injEq, exists_eq_left']
  rw [hs j hj]

/-! ## The directory after cleaning -/

section
variable {root : List Str} {x p : PatchDir} {plan : Plan} {t : DirTree}

theorem join_split_parts {q : List Str} (h0 : q ≠ []) (hq : ∀ c ∈ q, PlainName c) : splitChar '/' (join ['/'] q) = q :=
  splitChar_join h0 (fun c hc => (hq c hc).2.2.2)

theorem cleaned_out (iter : List (List Str) → List (List Str)) (base : List Str) (kept links : List Str) {q : List Str} (hq : ¬ base <+: q) :
    (cleanAt iter t base kept links).get? q = t.get? q := by
  rw [get?_cleanAt, if_neg hq]

theorem cleaned_in (iter : List (List Str) → List (List Str)) (hiter : ∀ l q, q ∈ iter l ↔ q ∈ l) (ht : DiskOk t) (base : List Str)
    (hdir : ∀ n, t.get? base = some n → n = .dir) (kept links : List Str) (r : List Str) (n : FNode) (hn : n ≠ .dir) :
    (cleanAt iter t base kept links).get? (base ++ r) = some n ↔ t.get? (base ++ r) = some n ∧ ¬ Extra kept links r n := by
  rw [get?_cleanAt, if_pos (List.prefix_append _ _), List.drop_left]
  have := (C28_clean iter hiter (subtree t base) (subtree_wellFormed ht.tree base)
    (fun n hn => hdir n (by rw [get?_subtree] at hn; simpa using hn)) kept links).1 r n hn
  rw [this, get?_subtree]

theorem names_below (ht : DiskOk t) {base r : List Str} {n : FNode} (h : t.get? (base ++ r) = some n) : ∀ c ∈ r, PlainName c :=
  fun c hc => ht.names _ n h c (List.mem_append_right _ hc)

theorem cleaned_link {prev : Str} (iter : List (List Str) → List (List Str)) (hiter : ∀ l q, q ∈ iter l ↔ q ∈ l) (ht : DiskOk t)
    (hu : Usable t root x prev plan) {r : List Str} {y : Str}
    (h : (cleanAt iter t (root ++ [x.name]) plan.kept plan.links).get? (root ++ [x.name] ++ r) = some (.link y)) :
    t.get? (root ++ [x.name] ++ r) = some (.link y) ∧ ∃ s ∈ plan.links, r = splitChar '/' s := by
  obtain ⟨h1, h2⟩ := (cleaned_in iter hiter ht _ hu.dir plan.kept plan.links r (.link y) (by simp)).1 h
  refine ⟨h1, ?_⟩
  have hr0 : r ≠ [] := by
    rintro rfl
    have := hu.dir (.link y) (by simpa using h1)
    cases this
  have hpr := names_below ht h1
  by_cases hin : InsideKept plan.kept r
  · exfalso
    obtain ⟨k, hk0, ⟨s, rfl⟩, hkr, hk⟩ := hin
    have hks : splitChar '/' (join ['/'] k) = k := join_split_parts hk0 (fun c hc => hpr c (List.mem_append_left _ hc))
    have hs0 : s ≠ [] := by
      rintro rfl
      exact hkr (by simp)
    refine hu.nolink _ hk s hs0 y ?_
    rw [hks]; exact h1
  · have : join ['/'] r ∈ plan.links := by
      by_contra hc
      exact h2 ⟨hin, hc⟩
    exact ⟨_, this, (join_split_parts hr0 hpr).symm⟩

theorem cleaned_file {prev : Str} (iter : List (List Str) → List (List Str)) (hiter : ∀ l q, q ∈ iter l ↔ q ∈ l) (ht : DiskOk t)
    (hu : Usable t root x prev plan) {r : List Str} {b : Bytes}
    (h : (cleanAt iter t (root ++ [x.name]) plan.kept plan.links).get? (root ++ [x.name] ++ r) = some (.file b)) :
    t.get? (root ++ [x.name] ++ r) = some (.file b) ∧ ∃ k ∈ plan.kept, splitChar '/' k <+: r := by
  obtain ⟨h1, h2⟩ := (cleaned_in iter hiter ht _ hu.dir plan.kept plan.links r (.file b) (by simp)).1 h
  refine ⟨h1, ?_⟩
  have hr0 : r ≠ [] := by
    rintro rfl
    have := hu.dir (.file b) (by simpa using h1)
    cases this
  have hpr := names_below ht h1
  by_cases hin : InsideKept plan.kept r
  · obtain ⟨k, hk0, ⟨s, rfl⟩, hkr, hk⟩ := hin
    have hks : splitChar '/' (join ['/'] k) = k := join_split_parts hk0 (fun c hc => hpr c (List.mem_append_left _ hc))
    exact ⟨_, hk, by rw [hks]; exact List.prefix_append _ _⟩
  · have : join ['/'] r ∈ plan.kept := by
      by_contra hc
      exact h2 ⟨hin, hc⟩
    exact ⟨_, this, by rw [join_split_parts hr0 hpr]⟩

/-! ## Files and symlinks of a plan -/

theorem split_cdragon : splitChar '/' "cdragon".toList = ["cdragon".toList] := by decide +kernel

theorem mem_cdragonFiles {enc : Str → Bytes} {f : List Str × Bytes} (h : f ∈ cdragonFiles enc plan) : ∃ n, f.1 = ["cdragon".toList, n] ∧ PlainName n := by
  unfold cdragonFiles at h
  rcases List.mem_append.1 h with h | h
  · split at h
    · simp at h
    · rw [List.mem_singleton.1 h]
      exact ⟨_, rfl, by decide +kernel, by decide +kernel, by decide +kernel, by decide +kernel⟩
  · rcases List.mem_cons.1 h with rfl | h
    · exact ⟨_, rfl, by decide +kernel, by decide +kernel, by decide +kernel, by decide +kernel⟩
    · rw [List.mem_singleton.1 h]
      exact ⟨_, rfl, by decide +kernel, by decide +kernel, by decide +kernel, by decide +kernel⟩

theorem cdragonFiles_fun {enc : Str → Bytes} : ∀ f ∈ cdragonFiles enc plan, ∀ g ∈ cdragonFiles enc plan, f.1 = g.1 → f.2 = g.2 := by
  have h1 : "files.links.txt".toList ≠ "files.unknown.txt".toList := by decide +kernel
  have h2 : "files.links.txt".toList ≠ "files.exported.txt".toList := by decide +kernel
  have h3 : "files.unknown.txt".toList ≠ "files.exported.txt".toList := by decide +kernel
  unfold cdragonFiles
  generalize "files.links.txt".toList = a at *
  generalize "files.unknown.txt".toList = b at *
  generalize "files.exported.txt".toList = c at *
  intro f hf g hg he
  split at hf
  · next hl =>
    rw [if_pos hl] at hg
    simp only [List.nil_append, List.mem_cons, List.not_mem_nil, or_false] at hf hg
    rcases hf with rfl | rfl <;> rcases hg with rfl | rfl <;> simp_all
  · next hl =>
    rw [if_neg hl] at hg
    simp only [List.cons_append, List.nil_append, List.mem_cons, List.not_mem_nil, or_false] at hf hg
    rcases hf with rfl | rfl | rfl <;> rcases hg with rfl | rfl | rfl <;> simp_all

theorem cdragonFiles_plain {enc : Str → Bytes} {f : List Str × Bytes} (h : f ∈ cdragonFiles enc plan) : ∀ c ∈ f.1, PlainName c := by
  obtain ⟨n, hn, hp⟩ := mem_cdragonFiles h
  intro c hc
  rw [hn] at hc
  rcases List.mem_cons.1 hc with rfl | hc
  · exact ⟨by decide +kernel, by decide +kernel, by decide +kernel, by decide +kernel⟩
  · rw [List.mem_singleton.1 hc]; exact hp

theorem plan_file_full (hP : PlanFor plan x p) {f : List Str × Bytes} (hf : f ∈ exportFiles x.conv plan.exporter) :
    ∃ q y s, plan.exporter.Source q y ∧ (s, f.2) ∈ x.conv y q ∧ f.1 = splitChar '/' q ++ s := by
  obtain ⟨q, y, hs, hf⟩ := (mem_exportFiles _ _ hP.ready f).1 hf
  obtain ⟨g, hg, rfl⟩ := mem_convFiles.1 hf
  exact ⟨q, y, g.1, hs, hg, rfl⟩

theorem full_of_plan (hP : PlanFor plan x p) {f : List Str × Bytes} (hf : f ∈ exportFiles x.conv plan.exporter) : x.Full f.1 f.2 := by
  obtain ⟨q, y, s, h1, h2, h3⟩ := plan_file_full hP hf
  exact ⟨q, y, s, hP.sub q y h1, h2, h3⟩

/-- A symlink is not inside what is exported. -/
theorem link_above (hx : x.Sound) (hP : PlanFor plan x p) {r : Str} (hr : r ∈ plan.links) {q : Str} (hq : x.exporter.Exports q) {s : List Str}
    (h : splitChar '/' r <+: splitChar '/' q ++ s) : Under r q := by
  rcases List.prefix_or_prefix_of_prefix h (List.prefix_append (splitChar '/' q) s) with h | h
  · exact (under_iff _ _).2 h
  · obtain ⟨q', hq', hu⟩ := hP.covers r hr
    have : q = q' := hx.flat q q' hq hq' ((under_iff _ _).2 (h.trans ((under_iff _ _).1 hu)))
    rw [this]; exact hu

theorem links_parts (hx : x.Sound) (hP : PlanFor plan x p) {r : Str} (hr : r ∈ plan.links) :
    (∀ c ∈ splitChar '/' r, PlainName c) ∧ (splitChar '/' r).length ≤ maxLinks := by
  obtain ⟨q, hq, hu⟩ := hP.covers r hr
  have hu := (under_iff _ _).1 hu
  obtain ⟨h1, h2⟩ := hx.plain q hq
  exact ⟨fun c hc => h1 c (hu.subset hc), hu.length_le.trans h2⟩

theorem links_flat (hx : x.Sound) (hP : PlanFor plan x p) {r s : Str} (hr : r ∈ plan.links) (hs : s ∈ plan.links)
    (h : splitChar '/' s <+: splitChar '/' r) : s = r := by
  obtain ⟨q, hq, hu⟩ := hP.covers r hr
  have hus : Under s q := (under_iff _ _).2 (h.trans ((under_iff _ _).1 hu))
  rcases hP.parts q hq with ⟨_, h1⟩ | ⟨_, ⟨r0, _, _, h2⟩, _⟩
  · exact absurd hu (h1 r hr)
  · rw [h2 r hr hu, h2 s hs hus]

theorem not_cdragon (hx : x.Sound) {q : Str} (hq : x.exporter.Exports q) (s : List Str) : ¬ ["cdragon".toList] <+: splitChar '/' q ++ s := by
  intro h
  apply hx.apart q hq
  rw [under_iff, split_cdragon]
  obtain ⟨c, l, hc⟩ := List.exists_cons_of_ne_nil (splitChar_ne_nil '/' q)
  rw [hc] at h ⊢
  rw [List.cons_append, List.cons_prefix_cons] at h
  rw [List.cons_prefix_cons]
  exact ⟨h.1, by simp⟩

theorem writes_links (hx : x.Sound) (hP : PlanFor plan x p) (enc : Str → Bytes) :
    ∀ f ∈ exportFiles x.conv plan.exporter ++ cdragonFiles enc plan, ∀ r ∈ plan.links, ¬ splitChar '/' r <+: f.1 := by
  intro f hf r hr hrf
  rcases List.mem_append.1 hf with hf | hf
  · obtain ⟨q, y, s, h1, _, h3⟩ := plan_file_full hP hf
    have hq := source_exports (hP.sub q y h1)
    rw [h3] at hrf
    have hu := link_above hx hP hr hq hrf
    rcases hP.parts q hq with ⟨_, h⟩ | ⟨h, _⟩
    · exact h r hr hu
    · exact h (source_exports h1)
  · obtain ⟨n, hn, _⟩ := mem_cdragonFiles hf
    obtain ⟨q, hq, hu⟩ := hP.covers r hr
    rw [hn] at hrf
    obtain ⟨c, l, hc⟩ := List.exists_cons_of_ne_nil (splitChar_ne_nil '/' r)
    rw [hc] at hrf
    have h1 := (List.cons_prefix_cons.1 hrf).1
    subst h1
    have hu := (under_iff _ _).1 hu
    rw [hc] at hu
    refine not_cdragon hx hq [] ?_
    rw [List.append_nil]
    exact (List.cons_prefix_cons.2 ⟨rfl, List.nil_prefix⟩ : ["cdragon".toList] <+: "cdragon".toList :: l).trans hu

theorem writes_plain (hx : x.Sound) (hP : PlanFor plan x p) (enc : Str → Bytes) :
    ∀ f ∈ exportFiles x.conv plan.exporter ++ cdragonFiles enc plan, ∀ c ∈ f.1, PlainName c := by
  intro f hf c hc
  rcases List.mem_append.1 hf with hf | hf
  · obtain ⟨q, y, s, h1, h2, h3⟩ := plan_file_full hP hf
    have hsrc := hP.sub q y h1
    rw [h3] at hc
    rcases List.mem_append.1 hc with h | h
    · exact (hx.plain q (source_exports hsrc)).1 c h
    · exact (hx.content q y hsrc _ h2).1 c h
  · exact cdragonFiles_plain hf c hc

theorem writes_fun (hx : x.Sound) (hP : PlanFor plan x p) (enc : Str → Bytes) :
    ∀ f ∈ exportFiles x.conv plan.exporter ++ cdragonFiles enc plan, ∀ g ∈ exportFiles x.conv plan.exporter ++ cdragonFiles enc plan, f.1 = g.1 → f.2 = g.2 := by
  have key : ∀ f ∈ exportFiles x.conv plan.exporter, ∀ g ∈ cdragonFiles enc plan, f.1 ≠ g.1 := by
    intro f hf g hg he
    obtain ⟨q, y, s, h1, _, h3⟩ := plan_file_full hP hf
    obtain ⟨n, hn, _⟩ := mem_cdragonFiles hg
    refine not_cdragon hx (source_exports (hP.sub q y h1)) s ?_
    rw [← h3, he, hn]
    exact List.cons_prefix_cons.2 ⟨rfl, List.nil_prefix⟩
  intro f hf g hg he
  rcases List.mem_append.1 hf with hf | hf <;> rcases List.mem_append.1 hg with hg | hg
  · exact (full_flat hx (full_of_plan hP hf) (full_of_plan hP hg) (by rw [he])).2
  · exact absurd he (key f hf g hg)
  · exact absurd he.symm (key g hg f hf)
  · exact cdragonFiles_fun f hf g hg he

/-! ## One export -/

theorem RootOk.noLink {t : DirTree} (h : RootOk t root) : NoLink t root := fun d hd x hx => by rw [h d hd] at hx; cases hx

theorem not_base_root {cur : Str} {d : List Str} (hd : d <+: root) : ¬ root ++ [cur] <+: d := by
  intro h
  have h1 := h.length_le
  have h2 := hd.length_le
  simp at h1; omega

theorem not_base_other {cur v : Str} (h : v ≠ cur) (r : List Str) : ¬ root ++ [cur] <+: root ++ v :: r := by
  rw [List.prefix_append_right_inj, List.cons_prefix_cons]
  rintro ⟨rfl, _⟩
  exact h rfl

/-- What is known of symlinks of the patch: they lead where the same path of the previous patch leads. -/
def SameAsPrev (t : DirTree) (root : List Str) (cur prev : Str) (r : List Str) (y : Str) : Prop :=
  ∃ src, realpath t (root ++ [prev] ++ r) = some src ∧ y = relpath src (root ++ [cur] ++ r).dropLast

theorem run_facts {names : List Str} {F G : List (List Str × Bytes)} {l : List Str} {enc : Str → Bytes} {t t0 t' : DirTree} {res : Res Unit}
    (hpr : ∀ c ∈ root, PlainName c) (hroot : RootOk t root) (hchain : LinkChain t root names) (hpn : plan.links ≠ [] → p.name ∈ names)
    (hx : x.Sound) (hn : x.name ∉ names) (hP : PlanFor plan x p)
    (ht0 : ∀ q, ¬ root ++ [x.name] <+: q → t0.get? q = t.get? q)
    (hl0 : ∀ r y, t0.get? (root ++ [x.name] ++ r) = some (.link y) → (∃ s ∈ plan.links, r = splitChar '/' s) ∧ SameAsPrev t root x.name p.name r y)
    (hF : ∀ f ∈ F, f ∈ exportFiles x.conv plan.exporter) (hG : ∀ f ∈ G, f ∈ cdragonFiles enc plan) (hl : ∀ r ∈ l, r ∈ plan.links)
    (h : runTree root x.name p.name t0 F l G = (t', res)) :
    (t0.WellFormed → t'.WellFormed) ∧
    (∀ q, ¬ root ++ [x.name] <+: q → t'.get? q = t.get? q) ∧
    (∀ q b, (∀ f ∈ F ++ G, q ≠ root ++ [x.name] ++ f.1) → (t'.get? q = some (.file b) ↔ t0.get? q = some (.file b))) ∧
    (∀ q, t0.get? q = some .dir → t'.get? q = some .dir) ∧
    (∀ q, t'.get? q = some .dir → t0.get? q = some .dir ∨ (∃ f ∈ F ++ G, q <+: root ++ [x.name] ++ f.1 ∧ q ≠ root ++ [x.name] ++ f.1) ∨
      ∃ r ∈ l, q <+: root ++ [x.name] ++ splitChar '/' r ∧ q ≠ root ++ [x.name] ++ splitChar '/' r) ∧
    (∀ r y, t'.get? (root ++ [x.name] ++ r) = some (.link y) → (∃ s ∈ plan.links, r = splitChar '/' s) ∧ SameAsPrev t root x.name p.name r y) ∧
    (res = .ok () → (∀ r ∈ l, ∃ y, t'.get? (root ++ [x.name] ++ splitChar '/' r) = some (.link y)) ∧
      ∀ f ∈ F ++ G, t'.get? (root ++ [x.name] ++ f.1) = some (.file f.2)) := by
  have hsub : ∀ f ∈ F ++ G, f ∈ exportFiles x.conv plan.exporter ++ cdragonFiles enc plan := by
    intro f hf
    rcases List.mem_append.1 hf with h | h
    · exact List.mem_append_left _ (hF f h)
    · exact List.mem_append_right _ (hG f h)
  have hp0 : ∀ c ∈ root ++ [x.name], PlainName c := by
    intro c hc
    rcases List.mem_append.1 hc with h | h
    · exact hpr c h
    · rw [List.mem_singleton.1 h]; exact hx.name
  have hne : ∀ v ∈ names, v ≠ x.name := by
    rintro v hv rfl
    exact hn hv
  have hroot0 : RootOk t0 root := fun d hd => by rw [ht0 d (not_base_root hd)]; exact hroot d hd
  obtain ⟨a0, a1, a2, a3, a4, a5, a6⟩ := runTree_ok hp0 plan.links (fun r hr => (links_parts hx hP hr).1)
    (fun r hr s hs h => by rw [links_flat hx hP hr hs h]) (SameAsPrev t root x.name p.name)
    (by
      intro t1 h1 r hr src hsrc
      refine ⟨src, ?_, rfl⟩
      have hfr : ∀ q, ¬ root ++ [x.name] <+: q → t1.get? q = t.get? q := fun q hq => by rw [h1 q hq, ht0 q hq]
      obtain ⟨hr1, hr2⟩ := links_parts hx hP hr
      obtain ⟨j, _, _, h2⟩ := realpath_chain hroot.noLink hpr hchain (hpn (List.ne_nil_of_mem hr)) hr1 hr2
      have e1 := h2 t1 (fun v hv r => hfr _ (not_base_other (hne v hv) r)) (by
        intro d hd y hy
        rw [hfr d (not_base_root hd), hroot d hd] at hy; cases hy)
      have e2 := h2 t (fun _ _ _ => rfl) hroot.noLink
      rw [show root ++ [p.name] ++ splitChar '/' r = root ++ p.name :: splitChar '/' r by simp] at hsrc ⊢
      rw [e1] at hsrc
      rw [e2, hsrc])
    hroot0 hl0 F G (fun f hf => writes_plain hx hP enc f (hsub f hf)) (fun f hf => writes_links hx hP enc f (hsub f hf)) l hl h
  refine ⟨a0, fun q hq => by rw [a1 q hq, ht0 q hq], a2, a3, a4, a5, fun hres => ⟨(a6 hres).1, (a6 hres).2 ?_⟩⟩
  intro f hf g hg
  exact writes_fun hx hP enc f (hsub f hf) g (hsub g hg)

theorem cleaned_links (iter : List (List Str) → List (List Str)) (hiter : ∀ l q, q ∈ iter l ↔ q ∈ l) (ht : DiskOk t)
    (hu : Usable t root x p.name plan) (r : List Str) (y : Str)
    (h : (cleanAt iter t (root ++ [x.name]) plan.kept plan.links).get? (root ++ [x.name] ++ r) = some (.link y)) :
    (∃ s ∈ plan.links, r = splitChar '/' s) ∧ SameAsPrev t root x.name p.name r y := by
  obtain ⟨h1, s, hs, rfl⟩ := cleaned_link iter hiter ht hu h
  exact ⟨⟨s, hs, rfl⟩, hu.target s hs y h1⟩

/-- The symlinks of the patch extend the chain. -/
theorem chain_extends {names : List Str} {t' : DirTree} (hpr : ∀ c ∈ root, PlainName c) (hroot : RootOk t root) (hchain : LinkChain t root names) (hpn : plan.links ≠ [] → p.name ∈ names)
    (hx : x.Sound) (hn : x.name ∉ names) (hP : PlanFor plan x p)
    (hfr : ∀ q, ¬ root ++ [x.name] <+: q → t'.get? q = t.get? q)
    (hl : ∀ r y, t'.get? (root ++ [x.name] ++ r) = some (.link y) → (∃ s ∈ plan.links, r = splitChar '/' s) ∧ SameAsPrev t root x.name p.name r y) :
    RootOk t' root ∧ SameIn t t' root names ∧ LinkChain t' root (x.name :: names) ∧
    ∀ s ∈ plan.links, ∀ y, t'.get? (root ++ [x.name] ++ splitChar '/' s) = some (.link y) →
      ∃ j ∈ names, y = join ['/'] (linkTarget (splitChar '/' s) j) ∧ NoLink t' (root ++ j :: splitChar '/' s) ∧
        realpath t' (root ++ p.name :: splitChar '/' s) = some (root ++ j :: splitChar '/' s) := by
  have hne : ∀ v ∈ names, v ≠ x.name := by
    rintro v hv rfl
    exact hn hv
  have hroot' : RootOk t' root := fun d hd => by rw [hfr d (not_base_root hd)]; exact hroot d hd
  have hsame : SameIn t t' root names := fun v hv r => hfr _ (not_base_other (hne v hv) r)
  have key : ∀ s ∈ plan.links, ∀ y, t'.get? (root ++ [x.name] ++ splitChar '/' s) = some (.link y) →
      ∃ j ∈ names, y = join ['/'] (linkTarget (splitChar '/' s) j) ∧ NoLink t' (root ++ j :: splitChar '/' s) ∧
        realpath t' (root ++ p.name :: splitChar '/' s) = some (root ++ j :: splitChar '/' s) := by
    intro s hs y hy
    obtain ⟨_, src, h1, rfl⟩ := hl _ y hy
    obtain ⟨hs1, hs2⟩ := links_parts hx hP hs
    obtain ⟨j, hj, h3, h2⟩ := realpath_chain hroot.noLink hpr hchain (hpn (List.ne_nil_of_mem hs)) hs1 hs2
    rw [show root ++ [p.name] ++ splitChar '/' s = root ++ p.name :: splitChar '/' s by simp, h2 t (fun _ _ _ => rfl) hroot.noLink] at h1
    cases h1
    refine ⟨j, hj, ?_, NoLink.same hsame hroot'.noLink hj h3, h2 t' hsame hroot'.noLink⟩
    have hs0 : splitChar '/' s ≠ [] := splitChar_ne_nil _ _
    rw [dropLast_append_ne hs0, show root ++ [x.name] ++ (splitChar '/' s).dropLast = root ++ x.name :: (splitChar '/' s).dropLast by simp]
    exact relpath_root root (fun h => hne j hj h.symm) hs0
  refine ⟨hroot', hsame, ⟨hn, hx.name, ?_, hchain.same hsame hroot'.noLink⟩, key⟩
  intro r y hy
  rw [show root ++ x.name :: r = root ++ [x.name] ++ r by simp] at hy
  obtain ⟨⟨s, hs, rfl⟩, _⟩ := hl r y hy
  obtain ⟨j, hj, h1, h2, _⟩ := key s hs y hy
  exact ⟨splitChar_ne_nil _ _, (links_parts hx hP hs).1, j, hj, h1, h2⟩

/-- What is read below a symlink is what is read in the previous patch. -/
theorem reads_link {names : List Str} {t' : DirTree} (hpr : ∀ c ∈ root, PlainName c) (hroot' : RootOk t' root) (hchain' : LinkChain t' root (x.name :: names))
    (hpn : p.name ∈ names) (hx : x.Sound) (hP : PlanFor plan x p)
    (hl : ∀ r y, t'.get? (root ++ [x.name] ++ r) = some (.link y) → ∃ s ∈ plan.links, r = splitChar '/' s)
    {s : Str} (hs : s ∈ plan.links) {j : Str} (hj : j ∈ names)
    (hy : t'.get? (root ++ [x.name] ++ splitChar '/' s) = some (.link (join ['/'] (linkTarget (splitChar '/' s) j))))
    (hnl : NoLink t' (root ++ j :: splitChar '/' s)) (hrp : realpath t' (root ++ p.name :: splitChar '/' s) = some (root ++ j :: splitChar '/' s))
    (rest : List Str) (hrest : ∀ c ∈ splitChar '/' s ++ rest, PlainName c) (hlen : (splitChar '/' s ++ rest).length ≤ maxLinks) :
    realpath t' (root ++ x.name :: (splitChar '/' s ++ rest)) = realpath t' (root ++ p.name :: (splitChar '/' s ++ rest)) := by
  have hv0 : ∀ v ∈ x.name :: names, ∀ y, t'.get? (root ++ [v]) ≠ some (.link y) := fun v hv y hy => absurd rfl (hchain'.link hv hy).1
  have hpn' : p.name ∈ x.name :: names := by simp [hpn]
  obtain ⟨o1, _, _, e1⟩ := realpath_chain hroot'.noLink hpr hchain' (List.mem_cons_self) hrest hlen
  obtain ⟨o2, _, _, e2⟩ := realpath_chain hroot'.noLink hpr hchain' hpn' hrest hlen
  have e1 := e1 t' (fun _ _ _ => rfl) hroot'.noLink
  have e2 := e2 t' (fun _ _ _ => rfl) hroot'.noLink
  obtain ⟨o, _, _, e3⟩ := chain_walk hchain' rest j (by simp [hj]) (splitChar '/' s) hrest hnl
  have e3 := e3 t' (fun _ _ _ => rfl) hroot'.noLink
  rw [e1, e2]
  rw [realpath_root hroot'.noLink hpr hx.name (hv0 _ (by simp))] at e1
  rw [realpath_root hroot'.noLink hpr (hchain'.names _ hpn') (hv0 _ hpn')] at e2 hrp
  have f2 := realGo_append maxLinks rest.length (splitChar '/' s) (root ++ [p.name]) _ rest _ hrp e3
  have g2 := realGo_mono (Nat.le_add_right maxLinks rest.length) e2
  rw [f2] at g2
  obtain ⟨d, c, hdc⟩ : ∃ d c, splitChar '/' s = d ++ [c] :=
    ⟨_, _, (List.dropLast_concat_getLast (splitChar_ne_nil '/' s)).symm⟩
  have f1 : realGo t' (rest.length + 1) (root ++ [x.name]) (splitChar '/' s ++ rest) = some (root ++ o :: (splitChar '/' s ++ rest)) := by
    rw [hdc, List.append_assoc, realGo_plain (rest.length + 1) (root ++ [x.name]) d ([c] ++ rest)]
    · rw [show root ++ [x.name] ++ d = root ++ x.name :: d by simp, List.singleton_append,
        realGo_linkTarget (j := j) _ _ (hchain'.names j (by simp [hj])) (by rw [← hdc]; exact fun e he => hrest e (List.mem_append_left _ he)) (by rw [← hdc]; exact hnl)
          (by rw [← hdc, show root ++ x.name :: splitChar '/' s = root ++ [x.name] ++ splitChar '/' s by simp]; exact hy), ← hdc, e3]
      rw [hdc]; simp
    · intro e he
      exact hrest e (by rw [hdc]; simp [he])
    · intro q hq hq0 y hy'
      obtain ⟨s', hs', rfl⟩ := hl q y hy'
      have := links_flat hx hP hs hs' (by rw [hdc]; exact hq.trans (List.prefix_append _ _))
      subst this
      have hle := hq.length_le
      rw [hdc, List.length_append, List.length_singleton] at hle
      omega
  have m1 := realGo_mono (Nat.le_max_left (rest.length + 1) maxLinks) f1
  have m2 := realGo_mono (Nat.le_max_right (rest.length + 1) maxLinks) e1
  rw [m1] at m2
  rw [← Option.some.inj g2, ← Option.some.inj m2]

/-- Below a symlink, both patches have the same files. -/
theorem full_link (hx : x.Sound) (hp : p.Sound) (hP : PlanFor plan x p) (hc : SameContent x p) {r : Str} (hr : r ∈ plan.links) {q : List Str}
    (hq : splitChar '/' r <+: q) (b : Bytes) : p.Full q b ↔ x.Full q b := by
  have same : ∀ k, x.exporter.Exports k → Under r k → (∀ y, x.exporter.Source k y → ∀ z, p.exporter.Source k z → x.conv y k = p.conv z k) ∧ p.exporter.Exports k := by
    intro k hk hu
    rcases hP.parts k hk with ⟨_, h⟩ | ⟨_, _, h1, h2⟩
    · exact absurd hu (h r hr)
    · refine ⟨?_, h1⟩
      intro y hy z hz
      obtain ⟨z', hz', hun⟩ := sameSource_unchanged (h2 y hy)
      rw [hc k y z' hy hz' hun]
      exact hp.one k z' z hz' hz
  constructor
  · rintro ⟨k, z, s, hz, hm, rfl⟩
    have hpk := source_exports hz
    have hu : Under r k := by
      rcases List.prefix_or_prefix_of_prefix hq (List.prefix_append (splitChar '/' k) s) with h | h
      · exact (under_iff _ _).2 h
      · obtain ⟨k', hk', hu'⟩ := hP.covers r hr
        have hpk' := (same k' hk' hu').2
        have : k = k' := hp.flat k k' hpk hpk' ((under_iff _ _).2 (h.trans ((under_iff _ _).1 hu')))
        rw [this]; exact hu'
    have hxk := hP.back k hpk ⟨r, hr, hu⟩
    obtain ⟨y, hy⟩ := (exports_iff _ k).1 hxk
    refine ⟨k, y, s, hy, ?_, rfl⟩
    rw [(same k hxk hu).1 y hy z hz]; exact hm
  · rintro ⟨k, y, s, hy, hm, rfl⟩
    have hxk := source_exports hy
    have hu := link_above hx hP hr hxk hq
    obtain ⟨h1, h2⟩ := same k hxk hu
    obtain ⟨z, hz⟩ := (exports_iff _ k).1 h2
    refine ⟨k, z, s, hz, ?_, rfl⟩
    rw [← h1 y hy z hz]; exact hm

/-- The directory of the patch, after a successful export -/
theorem export_reads {names : List Str} {enc : Str → Bytes} {t t' : DirTree} (iter : List (List Str) → List (List Str))
    (hiter : ∀ l q, q ∈ iter l ↔ q ∈ l) (hpr : ∀ c ∈ root, PlainName c)
    (hroot : RootOk t root) (ht : DiskOk t) (hchain : LinkChain t root names) (hpn : plan.links ≠ [] → p.name ∈ names ∧ p.Sound ∧ SameContent x p ∧ ReadsAs t root p)
    (hx : x.Sound) (hn : x.name ∉ names) (hP : PlanFor plan x p) (hu : Usable t root x p.name plan)
    (h : processTree iter enc x.conv root x.name p.name t plan = (t', .ok ())) : ReadsAs t' root x := by
  obtain ⟨_, a1, a2, a3, a4, a5, a6⟩ := run_facts hpr hroot hchain (fun h => (hpn h).1) hx hn hP
    (fun q hq => cleaned_out iter _ plan.kept plan.links hq) (cleaned_links iter hiter ht hu) (fun f hf => hf) (enc := enc) (fun f hf => hf) (fun r hr => hr) h
  obtain ⟨a6, a7⟩ := a6 rfl
  obtain ⟨hroot', hsame, hchain', hkey⟩ := chain_extends hpr hroot hchain (fun h => (hpn h).1) hx hn hP a1 a5
  intro q b hq hlen hcd
  by_cases hex : ∃ r ∈ plan.links, splitChar '/' r <+: q
  · obtain ⟨r, hr, hrq⟩ := hex
    obtain ⟨hpn1, hps, hcont, hprev⟩ := hpn (List.ne_nil_of_mem hr)
    obtain ⟨y, hy⟩ := a6 r hr
    obtain ⟨j, hj, rfl, hnl, hrp⟩ := hkey r hr y hy
    rw [← full_link hx hps hP hcont hr hrq b, ← hprev q b hq hlen hcd]
    rw [← reads_same hroot.noLink hroot'.noLink hpr hchain hsame hpn1 hq hlen]
    obtain ⟨rest, rfl⟩ := hrq
    unfold ReadsFile
    rw [reads_link hpr hroot' hchain' hpn1 hx hP (fun r y hy => (a5 r y hy).1) hr hj hy hnl hrp rest hq hlen]
  · have hno : NoLink t' (root ++ [x.name] ++ q) := by
      apply noLink_base hroot'
      intro s hs y hy
      obtain ⟨⟨r, hr, rfl⟩, _⟩ := a5 s y hy
      exact hex ⟨r, hr, hs⟩
    have hpq : ∀ c ∈ root ++ [x.name] ++ q, PlainName c := by
      intro c hc
      rcases List.mem_append.1 hc with h | h
      · rcases List.mem_append.1 h with h | h
        · exact hpr c h
        · rw [List.mem_singleton.1 h]; exact hx.name
      · exact hq c h
    have hR : ReadsFile t' (root ++ x.name :: q) b ↔ t'.get? (root ++ [x.name] ++ q) = some (.file b) := by
      unfold ReadsFile
      rw [show root ++ x.name :: q = root ++ [x.name] ++ q by simp, realpath_noLink hpq hno]
      simp
    rw [hR]
    have hgen : ∀ f ∈ cdragonFiles enc plan, q ≠ f.1 := by
      intro f hf he
      obtain ⟨n, hn', _⟩ := mem_cdragonFiles hf
      apply hcd
      rw [he, hn']
      exact List.cons_prefix_cons.2 ⟨rfl, List.nil_prefix⟩
    constructor
    · intro hb
      by_cases hw : ∃ f ∈ exportFiles x.conv plan.exporter, q = f.1
      · obtain ⟨f, hf, rfl⟩ := hw
        have := a7 f (List.mem_append_left _ hf)
        rw [hb] at this
        simp only [Option.some.injEq, FNode.file.injEq] at this
        rw [this]
        exact full_of_plan hP hf
      · exfalso
        have h0 := (a2 (root ++ [x.name] ++ q) b (by
          intro f hf he
          have he := List.append_cancel_left he
          rcases List.mem_append.1 hf with h | h
          · exact hw ⟨f, h, he⟩
          · exact hgen f h he)).1 hb
        obtain ⟨h1, k, hk, s, rfl⟩ := cleaned_file iter hiter ht hu h0
        rcases (hP.kept k).1 hk with hk | rfl
        · obtain ⟨y, hy⟩ := (exports_iff _ k).1 hk
          obtain ⟨f, hf, rfl⟩ := hu.stale k y hy s b h1
          exact hw ⟨(splitChar '/' k ++ f.1, f.2), (mem_exportFiles _ _ hP.ready _).2 ⟨k, y, hy, mem_convFiles.2 ⟨f, hf, rfl⟩⟩, rfl⟩
        · apply hcd
          rw [split_cdragon]
          exact List.prefix_append _ _
    · rintro ⟨k, y, s, hy, hm, rfl⟩
      rcases hP.parts k (source_exports hy) with ⟨h1, _⟩ | ⟨_, ⟨r, hr, hur, _⟩, _⟩
      · obtain ⟨z, hz⟩ := (exports_iff _ k).1 h1
        rw [hx.one k y z hy (hP.sub k z hz)] at hm
        exact a7 (splitChar '/' k ++ s, b) (List.mem_append_left _ ((mem_exportFiles _ _ hP.ready _).2 ⟨k, z, hz, mem_convFiles.2 ⟨(s, b), hm, rfl⟩⟩))
      · exact absurd ⟨r, hr, ((under_iff _ _).1 hur).trans (List.prefix_append _ _)⟩ hex

/-! ## Room for the export -/

/-- Only what the export writes is in its directory. -/
structure Tidy (t : DirTree) (root : List Str) (x : PatchDir) (plan : Plan) : Prop where
  rootOk : RootOk t root
  file : ∀ r b, t.get? (root ++ [x.name] ++ r) = some (.file b) → (∃ f ∈ exportFiles x.conv plan.exporter, r = f.1) ∨
    ["cdragon".toList] <+: r ∧ r ≠ ["cdragon".toList]
  link : ∀ r y, t.get? (root ++ [x.name] ++ r) = some (.link y) → ∃ s ∈ plan.links, r = splitChar '/' s
  dir : ∀ r, t.get? (root ++ [x.name] ++ r) = some .dir → r = [] ∨ (∃ k, plan.exporter.Exports k ∧ r <+: splitChar '/' k ∧ r ≠ splitChar '/' k) ∨
    (∃ f ∈ exportFiles x.conv plan.exporter, r <+: f.1 ∧ r ≠ f.1) ∨ (∃ s ∈ plan.links, r <+: splitChar '/' s ∧ r ≠ splitChar '/' s) ∨ ["cdragon".toList] <+: r
  gen : ∀ n ∈ ["files.links.txt".toList, "files.unknown.txt".toList, "files.exported.txt".toList],
      t.get? (root ++ [x.name] ++ ["cdragon".toList, n]) ≠ some .dir

/-- The names of generated files -/
theorem mem_cdragonFiles' {enc : Str → Bytes} {f : List Str × Bytes} (h : f ∈ cdragonFiles enc plan) :
    ∃ n ∈ ["files.links.txt".toList, "files.unknown.txt".toList, "files.exported.txt".toList], f.1 = ["cdragon".toList, n] := by
  unfold cdragonFiles at h
  rcases List.mem_append.1 h with h | h
  · split at h
    · simp at h
    · rw [List.mem_singleton.1 h]
      exact ⟨_, List.mem_cons_self, rfl⟩
  · rcases List.mem_cons.1 h with rfl | h
    · exact ⟨_, List.mem_cons_of_mem _ List.mem_cons_self, rfl⟩
    · rw [List.mem_singleton.1 h]
      exact ⟨_, List.mem_cons_of_mem _ (List.mem_cons_of_mem _ List.mem_cons_self), rfl⟩

theorem link_not_cdragon (hx : x.Sound) (hP : PlanFor plan x p) {r : Str} (hr : r ∈ plan.links) : ¬ ["cdragon".toList] <+: splitChar '/' r := by
  intro h
  obtain ⟨q, hq, hu⟩ := hP.covers r hr
  have := not_cdragon hx hq []
  rw [List.append_nil] at this
  exact this (h.trans ((under_iff _ _).1 hu))

theorem file_not_cdragon (hx : x.Sound) (hP : PlanFor plan x p) {f : List Str × Bytes} (hf : f ∈ exportFiles x.conv plan.exporter) : ¬ ["cdragon".toList] <+: f.1 := by
  obtain ⟨q, y, s, h1, _, h3⟩ := plan_file_full hP hf
  rw [h3]
  exact not_cdragon hx (source_exports (hP.sub q y h1)) s

/-- No exported path is at or above a symlink. -/
theorem export_not_above_link (hx : x.Sound) (hP : PlanFor plan x p) {r : Str} (hr : r ∈ plan.links) {k : Str} (hk : plan.exporter.Exports k) {s : List Str}
    (h : splitChar '/' k ++ s <+: splitChar '/' r) : False := by
  obtain ⟨y, hy⟩ := (exports_iff _ k).1 hk
  have hxk := source_exports (hP.sub k y hy)
  obtain ⟨q, hq, hu⟩ := hP.covers r hr
  have : k = q := hx.flat k q hxk hq ((under_iff _ _).2 (((List.prefix_append _ s).trans h).trans ((under_iff _ _).1 hu)))
  subst this
  rcases hP.parts k hxk with ⟨_, h⟩ | ⟨h, _⟩
  · exact h r hr hu
  · exact h hk

theorem file_not_above_link (hx : x.Sound) (hP : PlanFor plan x p) {f : List Str × Bytes} (hf : f ∈ exportFiles x.conv plan.exporter) {r : Str} (hr : r ∈ plan.links)
    (h : f.1 <+: splitChar '/' r) : False := by
  obtain ⟨q, y, s, h1, _, h3⟩ := plan_file_full hP hf
  rw [h3] at h
  exact export_not_above_link hx hP hr (source_exports h1) h

theorem file_ne_nil (hP : PlanFor plan x p) {f : List Str × Bytes} (hf : f ∈ exportFiles x.conv plan.exporter) : f.1 ≠ [] := by
  obtain ⟨q, y, s, _, _, h3⟩ := plan_file_full hP hf
  rw [h3]
  simp [splitChar_ne_nil]

/-- No file is above another exported path, nor at the place of one. -/
theorem file_not_above_export (hx : x.Sound) (hP : PlanFor plan x p) {f : List Str × Bytes} (hf : f ∈ exportFiles x.conv plan.exporter) {k : Str}
    (hk : plan.exporter.Exports k) (h : f.1 <+: splitChar '/' k) : f.1 = splitChar '/' k := by
  obtain ⟨q, y, s, h1, _, h3⟩ := plan_file_full hP hf
  obtain ⟨z, hz⟩ := (exports_iff _ k).1 hk
  rw [h3] at h
  have : q = k := hx.flat q k (source_exports (hP.sub q y h1)) (source_exports (hP.sub k z hz)) ((under_iff _ _).2 ((List.prefix_append _ s).trans h))
  subst this
  have hle := h.length_le
  rw [List.length_append] at hle
  have : s = [] := List.length_eq_zero_iff.1 (by omega)
  rw [h3, this, List.append_nil]

theorem cdragon_prefix_cases {r : List Str} {n : Str} (h : r <+: ["cdragon".toList, n]) (hne : r ≠ ["cdragon".toList, n]) : r = [] ∨ r = ["cdragon".toList] := by
  rcases r with _ | ⟨a, _ | ⟨b, r⟩⟩
  · exact .inl rfl
  · rw [List.cons_prefix_cons] at h
    rw [h.1]; exact .inr rfl
  · rw [List.cons_prefix_cons, List.cons_prefix_cons] at h
    obtain ⟨h1, h2, h3⟩ := h
    rw [h1, h2, List.prefix_nil.1 h3] at hne
    exact absurd rfl hne

/-- Ancestors of a written path are directories, or they do not exist. -/
theorem tidy_above {t : DirTree} (hx : x.Sound) (hP : PlanFor plan x p) (enc : Str → Bytes) (hT : Tidy t root x plan) {q : List Str}
    (hq : (∃ f ∈ exportFiles x.conv plan.exporter ++ cdragonFiles enc plan, q = f.1) ∨ ∃ r ∈ plan.links, q = splitChar '/' r) (d : List Str) (hd : d <+: root ++ [x.name] ++ q)
    (hne : d ≠ root ++ [x.name] ++ q) : t.get? d = some .dir ∨ t.get? d = none := by
  rcases List.prefix_or_prefix_of_prefix hd (List.prefix_append (root ++ [x.name]) q) with h | ⟨s, rfl⟩
  · by_cases he : d = root ++ [x.name]
    · subst he
      rcases hn : t.get? (root ++ [x.name]) with _ | n
      · exact .inr rfl
      · left
        rcases n with b | y | -
        · exfalso
          rcases hT.file [] b (by simpa using hn) with ⟨f, hf, h⟩ | ⟨h, _⟩
          · exact file_ne_nil hP hf h.symm
          · simp at h
        · exfalso
          obtain ⟨s, _, h⟩ := hT.link [] y (by simpa using hn)
          exact splitChar_ne_nil _ _ h.symm
        · rfl
    · have := prefix_dropLast h he
      rw [List.dropLast_concat] at this
      exact .inl (hT.rootOk d this)
  · rw [List.prefix_append_right_inj] at hd
    have hne : s ≠ q := by rintro rfl; exact hne rfl
    rcases hn : t.get? (root ++ [x.name] ++ s) with _ | n
    · exact .inr rfl
    · left
      rcases n with b | y | -
      · exfalso
        rcases hT.file s b hn with ⟨f, hf, rfl⟩ | ⟨h1, h2⟩
        · rcases hq with ⟨g, hg, rfl⟩ | ⟨r, hr, rfl⟩
          · rcases List.mem_append.1 hg with hg | hg
            · exact hne (full_flat hx (full_of_plan hP hf) (full_of_plan hP hg) hd).1
            · obtain ⟨n, _, hn⟩ := mem_cdragonFiles' hg
              rw [hn] at hd hne
              rcases cdragon_prefix_cases hd hne with h | h
              · exact file_ne_nil hP hf h
              · exact file_not_cdragon hx hP hf (by rw [h])
          · exact file_not_above_link hx hP hf hr hd
        · rcases hq with ⟨g, hg, rfl⟩ | ⟨r, hr, rfl⟩
          · rcases List.mem_append.1 hg with hg | hg
            · exact file_not_cdragon hx hP hg (h1.trans hd)
            · obtain ⟨n, _, hn⟩ := mem_cdragonFiles' hg
              rw [hn] at hd hne
              rcases cdragon_prefix_cases hd hne with h | h
              · rw [h] at h1; simp at h1
              · exact h2 h
          · exact link_not_cdragon hx hP hr (h1.trans hd)
      · exfalso
        obtain ⟨r', hr', rfl⟩ := hT.link s y hn
        rcases hq with ⟨g, hg, rfl⟩ | ⟨r, hr, rfl⟩
        · exact writes_links hx hP enc g hg r' hr' hd
        · exact hne (by rw [links_flat hx hP hr hr' hd])
      · rfl

/-- There is no directory at the place of a file. -/
theorem tidy_file {t : DirTree} (hx : x.Sound) (hP : PlanFor plan x p) (enc : Str → Bytes) (hT : Tidy t root x plan) {f : List Str × Bytes}
    (hf : f ∈ exportFiles x.conv plan.exporter ++ cdragonFiles enc plan) : t.get? (root ++ [x.name] ++ f.1) ≠ some .dir := by
  intro hd
  rcases List.mem_append.1 hf with hf | hf
  · rcases hT.dir f.1 hd with h | ⟨k, hk, h1, h2⟩ | ⟨g, hg, h1, h2⟩ | ⟨s, hs, h1, h2⟩ | h
    · exact file_ne_nil hP hf h
    · exact h2 (file_not_above_export hx hP hf hk h1)
    · exact h2 (full_flat hx (full_of_plan hP hf) (full_of_plan hP hg) h1).1
    · exact file_not_above_link hx hP hf hs h1
    · exact file_not_cdragon hx hP hf h
  · obtain ⟨n, hn, he⟩ := mem_cdragonFiles' hf
    rw [he] at hd
    exact hT.gen n hn hd

/-- There is only the symlink at the place of a symlink. -/
theorem tidy_link {t : DirTree} (hx : x.Sound) (hP : PlanFor plan x p) (hT : Tidy t root x plan) {r : Str} (hr : r ∈ plan.links) :
    t.get? (root ++ [x.name] ++ splitChar '/' r) = none ∨ ∃ y, t.get? (root ++ [x.name] ++ splitChar '/' r) = some (.link y) := by
  rcases hn : t.get? (root ++ [x.name] ++ splitChar '/' r) with _ | n
  · exact .inl rfl
  · right
    rcases n with b | y | -
    · exfalso
      rcases hT.file _ b hn with ⟨f, hf, h⟩ | ⟨h, _⟩
      · exact file_not_above_link hx hP hf hr (by rw [h])
      · exact link_not_cdragon hx hP hr h
    · exact ⟨y, rfl⟩
    · exfalso
      rcases hT.dir _ hn with h | ⟨k, hk, h1, h2⟩ | ⟨g, hg, h1, h2⟩ | ⟨s, hs, h1, h2⟩ | h
      · exact splitChar_ne_nil _ _ h
      · obtain ⟨z, hz⟩ := (exports_iff _ k).1 hk
        rcases hP.parts k (source_exports (hP.sub k z hz)) with ⟨_, h⟩ | ⟨h, _⟩
        · exact h r hr ((under_iff _ _).2 h1)
        · exact h hk
      · exact writes_links hx hP (fun _ => []) g (List.mem_append_left _ hg) r hr h1
      · exact h2 (by rw [links_flat hx hP hs hr h1])
      · exact link_not_cdragon hx hP hr h

/-- The state during an export, started at `t` -/
structure During (t : DirTree) (root : List Str) (x p : PatchDir) (plan : Plan) (t1 : DirTree) : Prop where
  frame : ∀ q, ¬ root ++ [x.name] <+: q → t1.get? q = t.get? q
  links : ∀ r y, t1.get? (root ++ [x.name] ++ r) = some (.link y) → (∃ s ∈ plan.links, r = splitChar '/' s) ∧ SameAsPrev t root x.name p.name r y
  tidy : Tidy t1 root x plan
  disk : DiskOk t1

/-- What is fixed during an export -/
structure Setting (t : DirTree) (root : List Str) (x p : PatchDir) (plan : Plan) (names : List Str) : Prop where
  plain : ∀ c ∈ root, PlainName c
  rootOk : RootOk t root
  chain : LinkChain t root names
  prev : plan.links ≠ [] → p.name ∈ names
  sound : x.Sound
  new : x.name ∉ names
  plan : PlanFor plan x p

theorem base_plain {names : List Str} (hS : Setting t root x p plan names) {q : List Str} (hq : ∀ c ∈ q, PlainName c) : ∀ c ∈ root ++ [x.name] ++ q, PlainName c := by
  intro c hc
  rcases List.mem_append.1 hc with h | h
  · rcases List.mem_append.1 h with h | h
    · exact hS.plain c h
    · rw [List.mem_singleton.1 h]; exact hS.sound.name
  · exact hq c h

theorem during_run {names : List Str} {F G : List (List Str × Bytes)} {l : List Str} (enc : Str → Bytes) {t1 t' : DirTree} {res : Res Unit}
    (hS : Setting t root x p plan names) (hD : During t root x p plan t1)
    (hF : ∀ f ∈ F, f ∈ exportFiles x.conv plan.exporter) (hG : ∀ f ∈ G, f ∈ cdragonFiles enc plan) (hl : ∀ r ∈ l, r ∈ plan.links)
    (h : runTree root x.name p.name t1 F l G = (t', res)) : During t root x p plan t' := by
  have hx := hS.sound
  have hP := hS.plan
  obtain ⟨a0, a1, a2, a3, a4, a5, _⟩ := run_facts hS.plain hS.rootOk hS.chain hS.prev hS.sound hS.new hS.plan hD.frame hD.links hF hG hl h
  have hT := hD.tidy
  refine ⟨a1, a5, ⟨fun d hd => by rw [a1 d (not_base_root hd)]; exact hS.rootOk d hd, ?_, fun r y hy => (a5 r y hy).1, ?_, ?_⟩, a0 hD.disk.tree, ?_⟩
  · intro r b hb
    by_cases hw : ∃ f ∈ F ++ G, r = f.1
    · obtain ⟨f, hf, rfl⟩ := hw
      rcases List.mem_append.1 hf with h | h
      · exact .inl ⟨f, hF f h, rfl⟩
      · right
        obtain ⟨n, _, hn⟩ := mem_cdragonFiles' (hG f h)
        rw [hn]
        exact ⟨List.cons_prefix_cons.2 ⟨rfl, List.nil_prefix⟩, by simp⟩
    · exact hT.file r b ((a2 _ b (fun f hf he => hw ⟨f, hf, List.append_cancel_left he⟩)).1 hb)
  · intro r hd
    rcases a4 _ hd with h | ⟨f, hf, h1, h2⟩ | ⟨s, hs, h1, h2⟩
    · exact hT.dir r h
    · rw [List.prefix_append_right_inj] at h1
      have h2 : r ≠ f.1 := by rintro rfl; exact h2 rfl
      rcases List.mem_append.1 hf with h | h
      · exact .inr (.inr (.inl ⟨f, hF f h, h1, h2⟩))
      · obtain ⟨n, _, hn⟩ := mem_cdragonFiles' (hG f h)
        rw [hn] at h1 h2
        rcases cdragon_prefix_cases h1 h2 with h | h
        · exact .inl h
        · exact .inr (.inr (.inr (.inr (by rw [h]))))
    · rw [List.prefix_append_right_inj] at h1
      exact .inr (.inr (.inr (.inl ⟨s, hl s hs, h1, by rintro rfl; exact h2 rfl⟩)))
  · intro n hn hd
    have hcd : ["cdragon".toList] <+: ["cdragon".toList, n] := List.cons_prefix_cons.2 ⟨rfl, List.nil_prefix⟩
    rcases a4 _ hd with h | ⟨f, hf, h1, h2⟩ | ⟨s, hs, h1, h2⟩
    · exact hT.gen n hn h
    · rw [List.prefix_append_right_inj] at h1
      rcases List.mem_append.1 hf with h | h
      · exact file_not_cdragon hx hP (hF f h) (hcd.trans h1)
      · obtain ⟨m, _, hm⟩ := mem_cdragonFiles' (hG f h)
        rw [hm] at h1 h2
        exact h2 (by rw [h1.eq_of_length (by simp)])
    · rw [List.prefix_append_right_inj] at h1
      exact link_not_cdragon hx hP (hl s hs) (hcd.trans h1)
  · have hw : ∀ f ∈ F ++ G, ∀ c ∈ root ++ [x.name] ++ f.1, PlainName c := by
      intro f hf
      refine base_plain hS (writes_plain hx hP enc f ?_)
      rcases List.mem_append.1 hf with h | h
      · exact List.mem_append_left _ (hF f h)
      · exact List.mem_append_right _ (hG f h)
    intro q n hq
    by_cases hb : root ++ [x.name] <+: q
    · obtain ⟨r, rfl⟩ := hb
      rcases n with b | y | -
      · by_cases he : ∃ f ∈ F ++ G, root ++ [x.name] ++ r = root ++ [x.name] ++ f.1
        · obtain ⟨f, hf, he⟩ := he
          rw [he]; exact hw f hf
        · exact hD.disk.names _ _ ((a2 _ b (fun f hf he' => he ⟨f, hf, he'⟩)).1 hq)
      · obtain ⟨⟨s, hs, rfl⟩, _⟩ := a5 r y hq
        exact base_plain hS (links_parts hx hP hs).1
      · rcases a4 _ hq with h | ⟨f, hf, h1, _⟩ | ⟨s, hs, h1, _⟩
        · exact hD.disk.names _ _ h
        · exact fun c hc => hw f hf c (h1.subset hc)
        · exact fun c hc => base_plain hS (links_parts hx hP (hl s hs)).1 c (h1.subset hc)
    · rw [a1 q hb, ← hD.frame q hb] at hq
      exact hD.disk.names _ _ hq

theorem during_writes {names : List Str} (enc : Str → Bytes) (hS : Setting t root x p plan names) (F : List (List Str × Bytes))
    (hF : ∀ f ∈ F, f ∈ exportFiles x.conv plan.exporter ++ cdragonFiles enc plan) {t1 : DirTree} (hD : During t root x p plan t1) :
    (writeFiles (root ++ [x.name]) t1 F).2 = .ok () := by
  induction F generalizing t1 with
  | nil => rfl
  | cons f F ih =>
    have hf := hF f (by simp)
    have hok : (writeTree t1 (root ++ [x.name] ++ f.1) f.2).2 = .ok () := by
      apply write_succeeds
      · exact base_plain hS (writes_plain hS.sound hS.plan enc f hf)
      · simp
      · exact tidy_above hS.sound hS.plan enc hD.tidy (.inl ⟨f, hf, rfl⟩)
      · exact tidy_file hS.sound hS.plan enc hD.tidy hf
      · intro y hy
        obtain ⟨s, hs, he⟩ := hD.tidy.link _ y hy
        exact writes_links hS.sound hS.plan enc f hf s hs (by rw [he])
    obtain ⟨q, b⟩ := f
    unfold writeFiles
    rcases hw : writeTree t1 (root ++ [x.name] ++ q) b with ⟨t2, r⟩
    rw [hw] at hok
    simp only at hok
    subst hok
    have h1 : writeFiles (root ++ [x.name]) t1 [(q, b)] = (t2, .ok ()) := by
      unfold writeFiles
      rw [hw]
      rfl
    refine ih (fun g hg => hF g (by simp [hg])) ?_
    rcases List.mem_append.1 hf with h | h
    · refine during_run (F := [(q, b)]) (l := []) (G := []) (res := .ok ()) enc hS hD (fun g hg => by rw [List.mem_singleton.1 hg]; exact h) (by simp) (by simp) ?_
      unfold runTree
      rw [h1]
      rfl
    · refine during_run (F := []) (l := []) (G := [(q, b)]) (res := .ok ()) enc hS hD (by simp) (fun g hg => by rw [List.mem_singleton.1 hg]; exact h) (by simp) ?_
      unfold runTree
      rw [show writeFiles (root ++ [x.name]) t1 [] = (t1, .ok ()) from rfl]
      exact h1

theorem during_links {names : List Str} (hS : Setting t root x p plan names) (l : List Str)
    (hl : ∀ r ∈ l, r ∈ plan.links) {t1 : DirTree} (hD : During t root x p plan t1) :
    (createSymlinks root [x.name] [p.name] t1 l).2 = .ok () := by
  induction l generalizing t1 with
  | nil => rfl
  | cons r l ih =>
    have hr := hl r (by simp)
    obtain ⟨hr1, hr2⟩ := links_parts hS.sound hS.plan hr
    have hok : (createSymlink root [x.name] [p.name] t1 r).2 = .ok () := by
      apply createSymlink_succeeds
      · exact base_plain hS hr1
      · exact tidy_above hS.sound hS.plan (fun _ => []) hD.tidy (.inr ⟨r, hr, rfl⟩)
      · exact tidy_link hS.sound hS.plan hD.tidy hr
      · intro t2 h1 h2
        have hs : splitChar '/' r ≠ [] := splitChar_ne_nil _ _
        rw [dropLast_append_ne hs] at h1
        have hfr : ∀ q, ¬ root ++ [x.name] <+: q → t2.get? q = t.get? q := fun q hq => by
          rw [frame_base hD.tidy.rootOk h2 (fun s => s = (splitChar '/' r).dropLast) (fun q hq => h1 q (hq _ rfl)) q hq, hD.frame q hq]
        have hne : ∀ v ∈ names, v ≠ x.name := by
          rintro v hv rfl
          exact hS.new hv
        obtain ⟨j, _, _, h3⟩ := realpath_chain hS.rootOk.noLink hS.plain hS.chain (hS.prev (List.ne_nil_of_mem hr)) hr1 hr2
        have := h3 t2 (fun v hv r => hfr _ (not_base_other (hne v hv) r)) (by
          intro d hd y hy
          rw [hfr d (not_base_root hd), hS.rootOk d hd] at hy; cases hy)
        rw [show root ++ [p.name] ++ splitChar '/' r = root ++ p.name :: splitChar '/' r by simp]
        exact ⟨_, this⟩
    unfold createSymlinks
    rcases hw : createSymlink root [x.name] [p.name] t1 r with ⟨t2, r2⟩
    rw [hw] at hok
    simp only at hok
    subst hok
    refine ih (fun s hs => hl s (by simp [hs])) ?_
    refine during_run (F := []) (l := [r]) (G := []) (res := .ok ()) (fun _ => []) hS hD (by simp) (by simp) (fun g hg => by rw [List.mem_singleton.1 hg]; exact hr) ?_
    unfold runTree
    rw [show writeFiles (root ++ [x.name]) t1 [] = (t1, .ok ()) from rfl]
    simp only [createSymlinks, hw, writeFiles]

theorem during_succeeds {names : List Str} {F G : List (List Str × Bytes)} {l : List Str} (enc : Str → Bytes) {t1 : DirTree}
    (hS : Setting t root x p plan names) (hD : During t root x p plan t1)
    (hF : ∀ f ∈ F, f ∈ exportFiles x.conv plan.exporter) (hG : ∀ f ∈ G, f ∈ cdragonFiles enc plan) (hl : ∀ r ∈ l, r ∈ plan.links) :
    (runTree root x.name p.name t1 F l G).2 = .ok () := by
  unfold runTree
  have h1 := during_writes enc hS F (fun f hf => List.mem_append_left _ (hF f hf)) hD
  rcases hw : writeFiles (root ++ [x.name]) t1 F with ⟨t2, r⟩
  rw [hw] at h1
  simp only at h1
  subst h1
  have hD2 : During t root x p plan t2 := by
    refine during_run (F := F) (l := []) (G := []) (res := .ok ()) enc hS hD hF (by simp) (by simp) ?_
    unfold runTree
    rw [hw]
    rfl
  simp only
  have h2 := during_links hS l hl hD2
  rcases hc : createSymlinks root [x.name] [p.name] t2 l with ⟨t3, r⟩
  rw [hc] at h2
  simp only at h2
  subst h2
  have hD3 : During t root x p plan t3 := by
    refine during_run (F := []) (l := l) (G := []) (res := .ok ()) enc hS hD2 (by simp) (by simp) hl ?_
    unfold runTree
    rw [show writeFiles (root ++ [x.name]) t2 [] = (t2, .ok ()) from rfl]
    simp only [hc, writeFiles]
  exact during_writes enc hS G (fun f hf => List.mem_append_right _ (hG f hf)) hD3

/-! ## The start of an export -/

theorem tidy_clean {names : List Str} (iter : List (List Str) → List (List Str)) (hiter : ∀ l q, q ∈ iter l ↔ q ∈ l)
    (hS : Setting t root x p plan names) (ht : DiskOk t) (hu : Usable t root x p.name plan) (hf : Fits t root x plan) :
    Tidy (cleanAt iter t (root ++ [x.name]) plan.kept plan.links) root x plan := by
  have hP := hS.plan
  have hC := C28_clean iter hiter (subtree t (root ++ [x.name])) (subtree_wellFormed ht.tree _)
    (fun n hn => hu.dir n (by rw [get?_subtree] at hn; simpa using hn)) plan.kept plan.links
  have hin : ∀ r, (cleanAt iter t (root ++ [x.name]) plan.kept plan.links).get? (root ++ [x.name] ++ r) =
      (cleanOutput iter (subtree t (root ++ [x.name])) plan.kept plan.links).get? r := by
    intro r
    rw [get?_cleanAt, if_pos (List.prefix_append _ _), List.drop_left]
  have hdirt : ∀ r, (cleanAt iter t (root ++ [x.name]) plan.kept plan.links).get? (root ++ [x.name] ++ r) = some .dir →
      t.get? (root ++ [x.name] ++ r) = some .dir := by
    intro r hd
    rw [hin] at hd
    have := hC.2.1 r hd
    rwa [get?_subtree] at this
  have hfile : ∀ r b, (cleanAt iter t (root ++ [x.name]) plan.kept plan.links).get? (root ++ [x.name] ++ r) = some (.file b) →
      (∃ f ∈ exportFiles x.conv plan.exporter, r = f.1) ∨ ["cdragon".toList] <+: r ∧ r ≠ ["cdragon".toList] := by
    intro r b hb
    obtain ⟨h1, k, hk, s, rfl⟩ := cleaned_file iter hiter ht hu hb
    rcases (hP.kept k).1 hk with hk | rfl
    · obtain ⟨y, hy⟩ := (exports_iff _ k).1 hk
      obtain ⟨f, hf, rfl⟩ := hu.stale k y hy s b h1
      exact .inl ⟨(splitChar '/' k ++ f.1, f.2), (mem_exportFiles _ _ hP.ready _).2 ⟨k, y, hy, mem_convFiles.2 ⟨f, hf, rfl⟩⟩, rfl⟩
    · rw [split_cdragon] at h1 ⊢
      right
      refine ⟨List.prefix_append _ _, ?_⟩
      intro he
      rw [he] at h1
      exact hf.gen.1 b h1
  have hlink : ∀ r y, (cleanAt iter t (root ++ [x.name]) plan.kept plan.links).get? (root ++ [x.name] ++ r) = some (.link y) → ∃ s ∈ plan.links, r = splitChar '/' s :=
    fun r y hy => (cleaned_links iter hiter ht hu r y hy).1
  refine ⟨?_, hfile, hlink, ?_, ?_⟩
  · intro d hd
    rw [cleaned_out iter _ _ _ (not_base_root hd)]
    exact hS.rootOk d hd
  · -- directories
    obtain ⟨M, hM⟩ : ∃ M : Nat, ∀ q n, t.get? q = some n → q.length ≤ M := by
      refine ⟨(t.map (fun e => e.1.length)).sum, ?_⟩
      intro q n hq
      have := Dict.mem_of_get? hq
      have hsum : ∀ (l : List Nat) a, a ∈ l → a ≤ l.sum := by
        intro l
        induction l with
        | nil => simp
        | cons b l ih =>
          intro a ha
          rw [List.sum_cons]
          rcases List.mem_cons.1 ha with h | h
          · omega
          · have := ih a h; omega
      exact hsum _ _ (List.mem_map.2 ⟨_, this, rfl⟩)
    have key : ∀ (n : Nat) (r : List Str), M < r.length + n → (cleanAt iter t (root ++ [x.name]) plan.kept plan.links).get? (root ++ [x.name] ++ r) = some .dir →
        r = [] ∨ (∃ k, plan.exporter.Exports k ∧ r <+: splitChar '/' k ∧ r ≠ splitChar '/' k) ∨
        (∃ f ∈ exportFiles x.conv plan.exporter, r <+: f.1 ∧ r ≠ f.1) ∨ (∃ s ∈ plan.links, r <+: splitChar '/' s ∧ r ≠ splitChar '/' s) ∨ ["cdragon".toList] <+: r := by
      intro n
      induction n with
      | zero =>
        intro r hr hd
        have := hM _ _ (hdirt r hd)
        simp at this; omega
      | succ n ih =>
        intro r hr hd
        rcases hf.noempty r (hdirt r hd) with h | ⟨k, hk, s, rfl⟩ | ⟨k, hk, h1, h2⟩ | ⟨c, m, hc⟩
        · exact .inl h
        · rcases (hP.kept k).1 hk with hk | rfl
          · obtain ⟨y, hy⟩ := (exports_iff _ k).1 hk
            obtain ⟨f, hf', h1, h2⟩ := hf.room k y hy s (hdirt _ hd)
            refine .inr (.inr (.inl ⟨(splitChar '/' k ++ f.1, f.2), (mem_exportFiles _ _ hP.ready _).2 ⟨k, y, hy, mem_convFiles.2 ⟨f, hf', rfl⟩⟩, ?_, ?_⟩))
            · exact (List.prefix_append_right_inj _).2 h1
            · intro he
              exact h2 (List.append_cancel_left he)
          · rw [split_cdragon]
            exact .inr (.inr (.inr (.inr (List.prefix_append _ _))))
        · rcases List.mem_append.1 hk with hk | hk
          · rcases (hP.kept k).1 hk with hk | rfl
            · exact .inr (.inl ⟨k, hk, h1, h2⟩)
            · rw [split_cdragon] at h1 h2
              left
              rcases r with _ | ⟨a, r⟩
              · rfl
              · rw [List.cons_prefix_cons] at h1
                rw [h1.1, List.prefix_nil.1 h1.2] at h2
                exact absurd rfl h2
          · exact .inr (.inr (.inr (.inl ⟨k, hk, h1, h2⟩)))
        · -- it was not empty
          have hdo : (cleanOutput iter (subtree t (root ++ [x.name])) plan.kept plan.links).get? r = some .dir := by rw [← hin]; exact hd
          have hnc : ¬ NoChild (cleanOutput iter (subtree t (root ++ [x.name])) plan.kept plan.links) r := by
            intro hno
            have := hC.2.2.2.2 r hdo hno (r ++ [c]) (by simp) (by simp)
            rw [get?_subtree, ← List.append_assoc] at this
            rw [← List.append_assoc, hc] at *
            cases this
          unfold NoChild at hnc
          simp only [not_forall] at hnc
          obtain ⟨q, hq0, hqr, hq⟩ := hnc
          obtain ⟨m', hm'⟩ := Option.ne_none_iff_exists'.1 hq
          obtain ⟨a, rfl⟩ : ∃ a, q = r ++ [a] := ⟨q.getLast hq0, by rw [← hqr, List.dropLast_concat_getLast]⟩
          rw [← hin] at hm'
          have hpre : r <+: r ++ [a] := List.prefix_append _ _
          have hpne : ∀ q, r ++ [a] <+: q → r <+: q ∧ r ≠ q := by
            intro q hq'
            refine ⟨hpre.trans hq', ?_⟩
            intro he
            have := hq'.length_le
            rw [← he, List.length_append, List.length_singleton] at this
            omega
          have hcdr : ["cdragon".toList] <+: r ++ [a] → r = [] ∨ ["cdragon".toList] <+: r := by
            intro h
            rcases r with _ | ⟨e, r⟩
            · exact .inl rfl
            · rw [List.cons_append, List.cons_prefix_cons] at h
              exact .inr (List.cons_prefix_cons.2 ⟨h.1, List.nil_prefix⟩)
          rcases m' with b | y | -
          · rcases hfile _ b hm' with ⟨f, hf', he⟩ | ⟨h, _⟩
            · exact .inr (.inr (.inl ⟨f, hf', hpne _ (by rw [he])⟩))
            · rcases hcdr h with h | h
              · exact .inl h
              · exact .inr (.inr (.inr (.inr h)))
          · obtain ⟨s, hs, he⟩ := hlink _ y hm'
            exact .inr (.inr (.inr (.inl ⟨s, hs, hpne _ (by rw [he])⟩)))
          · rcases ih (r ++ [a]) (by simp; omega) hm' with h | ⟨k, hk, h1, _⟩ | ⟨f, hf', h1, _⟩ | ⟨s, hs, h1, _⟩ | h
            · simp at h
            · exact .inr (.inl ⟨k, hk, hpne _ h1⟩)
            · exact .inr (.inr (.inl ⟨f, hf', hpne _ h1⟩))
            · exact .inr (.inr (.inr (.inl ⟨s, hs, hpne _ h1⟩)))
            · rcases hcdr h with h | h
              · exact .inl h
              · exact .inr (.inr (.inr (.inr h)))
    intro r hd
    exact key (M + 1) r (by omega) hd
  · intro n hn hd
    exact hf.gen.2 n hn (hdirt _ hd)

theorem cleanAt_names (iter : List (List Str) → List (List Str)) (hiter : ∀ l q, q ∈ iter l ↔ q ∈ l) (ht : DiskOk t) (base : List Str)
    (hdir : ∀ n, t.get? base = some n → n = .dir) (kept links : List Str) :
    ∀ q n, (cleanAt iter t base kept links).get? q = some n → ∀ c ∈ q, PlainName c := by
  intro q n hq
  by_cases hb : base <+: q
  · obtain ⟨r, rfl⟩ := hb
    refine ht.names _ n ?_
    rw [get?_cleanAt, if_pos (List.prefix_append _ _), List.drop_left] at hq
    have hC := C28_clean iter hiter (subtree t base) (subtree_wellFormed ht.tree _)
      (fun n hn => hdir n (by rw [get?_subtree] at hn; simpa using hn)) kept links
    rw [← get?_subtree]
    by_cases hn : n = .dir
    · subst hn
      exact hC.2.1 r hq
    · exact ((hC.1 r n hn).1 hq).1
  · rw [cleaned_out iter _ kept links hb] at hq
    exact ht.names _ _ hq

theorem during_clean {names : List Str} (iter : List (List Str) → List (List Str)) (hiter : ∀ l q, q ∈ iter l ↔ q ∈ l)
    (hS : Setting t root x p plan names) (ht : DiskOk t) (hu : Usable t root x p.name plan) (hf : Fits t root x plan) :
    During t root x p plan (cleanAt iter t (root ++ [x.name]) plan.kept plan.links) :=
  ⟨fun q hq => cleaned_out iter _ plan.kept plan.links hq, cleaned_links iter hiter ht hu, tidy_clean iter hiter hS ht hu hf,
    cleanAt_wellFormed iter hiter ht.tree _ hu.dir _ _, cleanAt_names iter hiter ht _ hu.dir _ _⟩

theorem names_set {t : DirTree} (ht : ∀ q n, t.get? q = some n → ∀ c ∈ q, PlainName c) {o : List Str} (ho : ∀ c ∈ o, PlainName c) (m : FNode) :
    ∀ q n, (t.set o m).get? q = some n → ∀ c ∈ q, PlainName c := by
  intro q n hq
  by_cases h : q = o
  · rw [h]; exact ho
  · rw [Dict.get?_set_ne _ _ h] at hq
    exact ht q n hq

theorem During.set_file {names : List Str} {t1 : DirTree} (hS : Setting t root x p plan names) (hD : During t root x p plan t1) {r : List Str}
    (hr : (∃ f ∈ exportFiles x.conv plan.exporter, r = f.1) ∨ ["cdragon".toList] <+: r ∧ r ≠ ["cdragon".toList])
    (hnd : t1.get? (root ++ [x.name] ++ r) ≠ some .dir) (hpar : t1.get? (root ++ [x.name] ++ r).dropLast = some .dir)
    (hpl : ∀ c ∈ root ++ [x.name] ++ r, PlainName c) (b : Bytes) :
    During t root x p plan (t1.set (root ++ [x.name] ++ r) (.file b)) := by
  have hT := hD.tidy
  have hne : ∀ q, ¬ root ++ [x.name] <+: q → q ≠ root ++ [x.name] ++ r := by
    rintro q hq rfl
    exact hq (List.prefix_append _ _)
  refine ⟨?_, ?_, ⟨?_, ?_, ?_, ?_, ?_⟩, wellFormed_set hD.disk.tree _ (by simp) hpar hnd, names_set hD.disk.names hpl _⟩
  · intro q hq
    rw [Dict.get?_set_ne _ _ (hne q hq)]
    exact hD.frame q hq
  · intro s y hy
    by_cases h : root ++ [x.name] ++ s = root ++ [x.name] ++ r
    · rw [h, Dict.get?_set_self] at hy
      cases hy
    · rw [Dict.get?_set_ne _ _ h] at hy
      exact hD.links s y hy
  · intro d hd
    rw [Dict.get?_set_ne _ _ (hne d (not_base_root hd))]
    exact hT.rootOk d hd
  · intro s c hc
    by_cases h : root ++ [x.name] ++ s = root ++ [x.name] ++ r
    · rw [List.append_cancel_left h]
      exact hr
    · rw [Dict.get?_set_ne _ _ h] at hc
      exact hT.file s c hc
  · intro s y hy
    by_cases h : root ++ [x.name] ++ s = root ++ [x.name] ++ r
    · rw [h, Dict.get?_set_self] at hy
      cases hy
    · rw [Dict.get?_set_ne _ _ h] at hy
      exact hT.link s y hy
  · intro s hs
    by_cases h : root ++ [x.name] ++ s = root ++ [x.name] ++ r
    · rw [h, Dict.get?_set_self] at hs
      cases hs
    · rw [Dict.get?_set_ne _ _ h] at hs
      exact hT.dir s hs
  · intro n hn hs
    by_cases h : root ++ [x.name] ++ ["cdragon".toList, n] = root ++ [x.name] ++ r
    · rw [h, Dict.get?_set_self] at hs
      cases hs
    · rw [Dict.get?_set_ne _ _ h] at hs
      exact hT.gen n hn hs

theorem During.set_dir {names : List Str} {t1 : DirTree} (hS : Setting t root x p plan names) (hD : During t root x p plan t1) {r : List Str}
    (hn : t1.get? (root ++ [x.name] ++ r) = none) (hpar : t1.get? (root ++ [x.name] ++ r).dropLast = some .dir)
    (hpl : ∀ c ∈ root ++ [x.name] ++ r, PlainName c)
    (hr : r = [] ∨ (∃ k, plan.exporter.Exports k ∧ r <+: splitChar '/' k ∧ r ≠ splitChar '/' k) ∨
      (∃ f ∈ exportFiles x.conv plan.exporter, r <+: f.1 ∧ r ≠ f.1) ∨ (∃ s ∈ plan.links, r <+: splitChar '/' s ∧ r ≠ splitChar '/' s) ∨ ["cdragon".toList] <+: r)
    (hg : ∀ n ∈ ["files.links.txt".toList, "files.unknown.txt".toList, "files.exported.txt".toList], r ≠ ["cdragon".toList, n]) :
    During t root x p plan (t1.set (root ++ [x.name] ++ r) .dir) := by
  have hT := hD.tidy
  have hne : ∀ q, ¬ root ++ [x.name] <+: q → q ≠ root ++ [x.name] ++ r := by
    rintro q hq rfl
    exact hq (List.prefix_append _ _)
  refine ⟨?_, ?_, ⟨?_, ?_, ?_, ?_, ?_⟩, wellFormed_set hD.disk.tree _ (by simp) hpar (by rw [hn]; simp), names_set hD.disk.names hpl _⟩
  · intro q hq
    rw [Dict.get?_set_ne _ _ (hne q hq)]
    exact hD.frame q hq
  · intro s y hy
    by_cases h : root ++ [x.name] ++ s = root ++ [x.name] ++ r
    · rw [h, Dict.get?_set_self] at hy
      cases hy
    · rw [Dict.get?_set_ne _ _ h] at hy
      exact hD.links s y hy
  · intro d hd
    rw [Dict.get?_set_ne _ _ (hne d (not_base_root hd))]
    exact hT.rootOk d hd
  · intro s c hc
    by_cases h : root ++ [x.name] ++ s = root ++ [x.name] ++ r
    · rw [h, Dict.get?_set_self] at hc
      cases hc
    · rw [Dict.get?_set_ne _ _ h] at hc
      exact hT.file s c hc
  · intro s y hy
    by_cases h : root ++ [x.name] ++ s = root ++ [x.name] ++ r
    · rw [h, Dict.get?_set_self] at hy
      cases hy
    · rw [Dict.get?_set_ne _ _ h] at hy
      exact hT.link s y hy
  · intro s hs
    by_cases h : root ++ [x.name] ++ s = root ++ [x.name] ++ r
    · rw [List.append_cancel_left h]
      exact hr
    · rw [Dict.get?_set_ne _ _ h] at hs
      exact hT.dir s hs
  · intro n hn hs
    by_cases h : root ++ [x.name] ++ ["cdragon".toList, n] = root ++ [x.name] ++ r
    · exact hg n hn (List.append_cancel_left h).symm
    · rw [Dict.get?_set_ne _ _ h] at hs
      exact hT.gen n hn hs

theorem during_usable {names : List Str} {t1 : DirTree} (hS : Setting t root x p plan names) (hD : During t root x p plan t1) :
    Usable t1 root x p.name plan ∧ Fits t1 root x plan := by
  have hx := hS.sound
  have hP := hS.plan
  have hT := hD.tidy
  have hcd : ∀ k, plan.exporter.Exports k → ∀ s, ¬ ["cdragon".toList] <+: splitChar '/' k ++ s := by
    intro k hk
    obtain ⟨y, hy⟩ := (exports_iff _ k).1 hk
    exact not_cdragon hx (source_exports (hP.sub k y hy))
  have hsame : ∀ k y, plan.exporter.Source k y → ∀ s, ∀ f ∈ exportFiles x.conv plan.exporter, splitChar '/' k ++ s <+: f.1 →
      ∃ g ∈ x.conv y k, f.1 = splitChar '/' k ++ g.1 := by
    intro k y hy s f hf hpre
    obtain ⟨q, z, a, h1, h2, h3⟩ := plan_file_full hP hf
    have hq := source_exports (hP.sub q z h1)
    have hk := source_exports (hP.sub k y hy)
    have e : k = q := by
      rw [h3] at hpre
      rcases List.prefix_or_prefix_of_prefix ((List.prefix_append _ s).trans hpre) (List.prefix_append _ a) with h | h
      · exact hx.flat _ _ hk hq ((under_iff _ _).2 h)
      · exact (hx.flat _ _ hq hk ((under_iff _ _).2 h)).symm
    subst e
    rw [hx.one k z y (hP.sub _ _ h1) (hP.sub _ _ hy)] at h2
    exact ⟨_, h2, h3⟩
  refine ⟨⟨?_, ?_, ?_, ?_⟩, ?_, ?_, ?_, ?_⟩
  · intro n hn
    have hn' : t1.get? (root ++ [x.name] ++ []) = some n := by rw [List.append_nil]; exact hn
    rcases n with b | y | -
    · rcases hT.file [] b hn' with ⟨f, hf, he⟩ | ⟨h, _⟩
      · exact absurd he.symm (file_ne_nil hP hf)
      · simp at h
    · obtain ⟨s, hs, he⟩ := hT.link [] y hn'
      exact absurd he.symm (splitChar_ne_nil _ _)
    · rfl
  · intro k hk s hs y hy
    obtain ⟨r, hr, he⟩ := hT.link _ y hy
    rcases (hP.kept k).1 hk with hk | rfl
    · exact export_not_above_link hx hP hr hk (by rw [he])
    · rw [split_cdragon] at he
      exact link_not_cdragon hx hP hr (by rw [← he]; exact List.prefix_append _ _)
  · intro k y hy s b hb
    rcases hT.file _ b hb with ⟨f, hf, he⟩ | ⟨h, _⟩
    · obtain ⟨g, hg, h2⟩ := hsame k y hy s f hf (by rw [he])
      exact ⟨g, hg, (List.append_cancel_left (he.trans h2)).symm⟩
    · exact absurd h (hcd k (source_exports hy) s)
  · intro r hr y hy
    obtain ⟨_, src, h1, h2⟩ := hD.links _ y hy
    refine ⟨src, ?_, h2⟩
    have hne : ∀ v ∈ names, v ≠ x.name := by
      rintro v hv rfl
      exact hS.new hv
    obtain ⟨hr1, hr2⟩ := links_parts hx hP hr
    obtain ⟨j, _, _, h3⟩ := realpath_chain hS.rootOk.noLink hS.plain hS.chain (hS.prev (List.ne_nil_of_mem hr)) hr1 hr2
    have e1 := h3 t1 (fun v hv r => hD.frame _ (not_base_other (hne v hv) r)) hT.rootOk.noLink
    have e2 := h3 t (fun _ _ _ => rfl) hS.rootOk.noLink
    rw [show root ++ [p.name] ++ splitChar '/' r = root ++ p.name :: splitChar '/' r by simp] at h1 ⊢
    rw [e1, ← h1, e2]
  · intro r hd
    rcases hT.dir r hd with h | ⟨k, hk, h1, h2⟩ | ⟨f, hf, h1, h2⟩ | ⟨s, hs, h1, h2⟩ | h
    · exact .inl h
    · exact .inr (.inr (.inl ⟨k, List.mem_append_left _ ((hP.kept k).2 (.inl hk)), h1, h2⟩))
    · obtain ⟨q, y, s, h3, _, h5⟩ := plan_file_full hP hf
      have hkq := (hP.kept q).2 (.inl (source_exports h3))
      rw [h5] at h1
      rcases List.prefix_or_prefix_of_prefix h1 (List.prefix_append _ s) with h | h
      · by_cases he : r = splitChar '/' q
        · exact .inr (.inl ⟨q, hkq, by rw [he]⟩)
        · exact .inr (.inr (.inl ⟨q, List.mem_append_left _ hkq, h, he⟩))
      · exact .inr (.inl ⟨q, hkq, h⟩)
    · exact .inr (.inr (.inl ⟨s, List.mem_append_right _ hs, h1, h2⟩))
    · exact .inr (.inl ⟨"cdragon".toList, (hP.kept _).2 (.inr rfl), by rw [split_cdragon]; exact h⟩)
  · intro k y hy s hd
    rcases hT.dir _ hd with h | ⟨q, hq, h1, h2⟩ | ⟨f, hf, h1, h2⟩ | ⟨r, hr, h1, _⟩ | h
    · simp [splitChar_ne_nil] at h
    · obtain ⟨z, hz⟩ := (exports_iff _ q).1 hq
      have e : k = q := hx.flat _ _ (source_exports (hP.sub k y hy)) (source_exports (hP.sub q z hz)) ((under_iff _ _).2 ((List.prefix_append _ s).trans h1))
      subst e
      have := h1.length_le
      rw [List.length_append] at this
      have : s = [] := List.length_eq_zero_iff.1 (by omega)
      rw [this, List.append_nil] at h2
      exact absurd rfl h2
    · obtain ⟨g, hg, h3⟩ := hsame k y hy s f hf h1
      rw [h3] at h1 h2
      exact ⟨g, hg, (List.prefix_append_right_inj _).1 h1, by rintro rfl; exact h2 rfl⟩
    · exact (export_not_above_link hx hP hr (source_exports hy) h1).elim
    · exact absurd h (hcd k (source_exports hy) s)
  · intro b hb
    rcases hT.file _ b hb with ⟨f, hf, he⟩ | ⟨_, h⟩
    · exact file_not_cdragon hx hP hf (by rw [he])
    · exact h rfl
  · exact hT.gen

end
end Cdtb
