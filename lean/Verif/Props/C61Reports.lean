import Verif.Props.C61
/-!
# C61: the lists that are written with an export
-/
namespace Cdtb
set_option autoImplicit false
open Py Spec

/-- The text of a list: one item per line -/
def Spec.linesOf (l : List Str) : Str := (l.map fun x => x ++ "\n".toList).flatten

theorem plan_unknown {iter : List Str → List Str} {sortN : List Nat → List Nat} {sortS : List Str → List Str} {raw : Exporter} {v : Version}
    {prev : Option (Exporter × Version)} {symlinks : Bool} {plan : Plan} (h : exportPlan iter sortN sortS raw v prev symlinks = .ok plan) :
    plan.unknown = sortN raw.unknownHashes := by
  unfold exportPlan at h
  simp only [bind, Except.bind, pure, Except.pure] at h
  repeat' split at h
  all_goals first
    | cases h; done
    | (cases h; rfl)
    | skip

theorem plan_sorted {iter : List Str → List Str} {sortN : List Nat → List Nat} {sortS : List Str → List Str} {raw : Exporter} {v : Version}
    {prev : Option (Exporter × Version)} {symlinks : Bool} {plan : Plan} (h : exportPlan iter sortN sortS raw v prev symlinks = .ok plan) :
    (∃ l, plan.exported = sortS l) ∧ (plan.linkLines = sortS plan.links ∨ plan.links = [] ∧ plan.linkLines = []) := by
  unfold exportPlan at h
  simp only [bind, Except.bind, pure, Except.pure] at h
  repeat' split at h
  all_goals first
    | cases h; done
    | (cases h; exact ⟨⟨_, rfl⟩, by first | exact Or.inl rfl | exact Or.inr ⟨rfl, rfl⟩⟩)
    | skip

theorem plan_exported {env : ExportEnv} (henv : env.Ok) {x : PatchSrc} (hx : x.Valid) {prev : Option PatchSrc} (hprev : ∀ p ∈ prev, p.Valid ∧ Follows x p)
    {plan : Plan} (h : x.plan env prev = .ok plan) : ∀ q, q ∈ plan.exported ↔ x.exporter.Exports q ∨ (prev = none ∧ q = "cdragon".toList) := by
  obtain ⟨langs, hv⟩ := hx.version
  rcases prev with _ | p
  · obtain ⟨e, plan', h1, h2, h3, h4, -⟩ := C29_no_symlinks env.iter henv.iter env.sortHashes env.sortPaths henv.sortPaths x.raw x.version langs hx.raw hv none (by simp)
    rw [hx.kept] at h1
    cases h1
    have h' : exportPlan env.iter env.sortHashes env.sortPaths x.raw x.version none false = .ok plan := h
    rw [h2] at h'
    cases h'
    simpa using h4
  · obtain ⟨hp, hf⟩ := hprev p rfl
    obtain ⟨e, q, h1, h2, h3⟩ := C29_symlinks env.iter henv.iter env.sortHashes env.sortPaths henv.sortPaths x.raw p.raw x.version p.version langs hx.raw hp.raw hv
      (by rw [← hf.layout]; exact hv) hf.names
    rw [hx.kept] at h1
    rw [hp.kept] at h2
    cases h1
    cases h2
    obtain ⟨plan', h4, h5, -⟩ := h3 hx.sound.flat hp.sound.flat
    have h' : exportPlan env.iter env.sortHashes env.sortPaths x.raw x.version (some (p.raw, p.version)) true = .ok plan := h
    rw [h4] at h'
    cases h'
    simpa using h5

theorem cdragonFiles_has (enc : Str → Bytes) (plan : Plan) :
    (["cdragon".toList, "files.exported.txt".toList], lineFile enc plan.exported) ∈ cdragonFiles enc plan ∧
    (["cdragon".toList, "files.unknown.txt".toList], lineFile enc (plan.unknown.map (hexW 16))) ∈ cdragonFiles enc plan ∧
    (plan.links ≠ [] → (["cdragon".toList, "files.links.txt".toList], lineFile enc plan.linkLines) ∈ cdragonFiles enc plan) := by
  unfold cdragonFiles
  refine ⟨List.mem_append_right _ (List.mem_cons_of_mem _ (List.mem_cons_self ..)), List.mem_append_right _ (List.mem_cons_self ..), fun h => List.mem_append_left _ ?_⟩
  rw [if_neg (by rwa [List.isEmpty_iff])]
  exact List.mem_cons_self ..

theorem cdragonFiles_names {enc : Str → Bytes} {plan : Plan} (hl : plan.links = []) {f : List Str × Bytes} (h : f ∈ cdragonFiles enc plan) :
    f.1 ≠ ["cdragon".toList, "files.links.txt".toList] := by
  unfold cdragonFiles at h
  rw [if_pos (by rw [hl]; rfl), List.nil_append] at h
  rcases List.mem_cons.1 h with rfl | h
  · exact show ["cdragon".toList, "files.unknown.txt".toList] ≠ ["cdragon".toList, "files.links.txt".toList] by decide +kernel
  · rw [List.mem_singleton.1 h]
    exact show ["cdragon".toList, "files.exported.txt".toList] ≠ ["cdragon".toList, "files.links.txt".toList] by decide +kernel

/-- The lists written by an export that succeeds: `files.exported.txt` has the paths of all the files of the patch, changed or not (and `cdragon`, when there is no
previous patch), `files.unknown.txt` has the hashes of all entries without path, and `files.links.txt` has the symlinks of the directory. Each list is in the order
of the sort that is used. When there is no
symlink, `files.links.txt` is not written: one that was there before may stay. -/
theorem C61_reports (env : ExportEnv) (henv : env.Ok) (hsort : ∀ l n, n ∈ env.sortHashes l ↔ n ∈ l) (R : Str → Str → Prop)
    (hR : ∀ l, (env.sortPaths l).Pairwise R) (N : Nat → Nat → Prop) (hN : ∀ l, (env.sortHashes l).Pairwise N) (root : List Str) (t t' : DirTree) (ps : List PatchSrc)
    (h : History env root t ps) (x : PatchSrc) (hx : x.Valid) (hn : ∀ p ∈ ps, p.name ≠ x.name) (prev : Option PatchSrc)
    (hprev : ∀ p ∈ prev, p ∈ ps ∧ Follows x p) (hu : UsableFor t root env x prev) (he : x.export env root prev t = (t', .ok ())) :
    (∃ l, t'.get? (root ++ [x.name, "cdragon".toList, "files.exported.txt".toList]) = some (.file (env.enc (linesOf l))) ∧ l.Pairwise R ∧
      ∀ q, q ∈ l ↔ x.exporter.Exports q ∨ (prev = none ∧ q = "cdragon".toList)) ∧
    (∃ l : List Nat, t'.get? (root ++ [x.name, "cdragon".toList, "files.unknown.txt".toList]) = some (.file (env.enc (linesOf (l.map (hexW 16))))) ∧ l.Pairwise N ∧
      ∀ n, n ∈ l ↔ ∃ w ∈ x.raw.wads.values, ∃ f ∈ w.files, f.pathHash = n ∧ (f.path = none ∨ f.path = some [])) ∧
    ∃ l, l.Pairwise R ∧ (∀ r, r ∈ l ↔ ∃ y, t'.get? (root ++ [x.name] ++ splitChar '/' r) = some (.link y)) ∧
      (∀ q y, t'.get? (root ++ [x.name] ++ q) = some (.link y) → ∃ r ∈ l, q = splitChar '/' r) ∧
      (l ≠ [] → t'.get? (root ++ [x.name, "cdragon".toList, "files.links.txt".toList]) = some (.file (env.enc (linesOf l)))) ∧
      (l = [] → ∀ b, t'.get? (root ++ [x.name, "cdragon".toList, "files.links.txt".toList]) = some (.file b) →
        t.get? (root ++ [x.name, "cdragon".toList, "files.links.txt".toList]) = some (.file b)) := by
  have hg := h.good henv
  obtain ⟨plan, h1, hS, h3⟩ := hg.setting henv hx hn hprev
  have hu := hu plan h1
  rw [← prevDir_name x] at hu
  rw [export_eq t h1] at he
  obtain ⟨a0, a1, a2, a3, a4, a5, a6⟩ := run_facts hS.plain hS.rootOk hS.chain hS.prev hS.sound hS.new hS.plan
    (fun q hq => cleaned_out env.iterPaths _ plan.kept plan.links hq) (cleaned_links env.iterPaths henv.iterPaths hg.disk hu) (fun f hf => hf) (enc := env.enc)
    (fun f hf => hf) (fun r hr => hr) he
  obtain ⟨a6, a7⟩ := a6 rfl
  have hlines : ∀ l, lineFile env.enc l = env.enc (linesOf l) := by
    intro l
    unfold lineFile linesOf
    rw [List.flatMap_def]
    rfl
  have hat : ∀ n : Str, root ++ [x.name, "cdragon".toList, n] = root ++ [x.name] ++ ["cdragon".toList, n] := by simp
  simp only [hat]
  obtain ⟨⟨le, hle⟩, hll⟩ := plan_sorted h1
  have hmem : ∀ r, r ∈ plan.linkLines ↔ r ∈ plan.links := by
    rcases hll with hll | ⟨hl, hll⟩
    · intro r; rw [hll, henv.sortPaths]
    · intro r; rw [hl, hll]
  have hempty : plan.linkLines = [] ↔ plan.links = [] := by
    simp only [List.eq_nil_iff_forall_not_mem, hmem]
  refine ⟨⟨plan.exported, ?_, by rw [hle]; exact hR _, plan_exported henv hx (fun p hp => ⟨hg.valid p (hprev p hp).1, (hprev p hp).2⟩) h1⟩, ⟨plan.unknown, ?_, by rw [plan_unknown h1]; exact hN _, ?_⟩, plan.linkLines, ?_, ?_, ?_, ?_, ?_⟩
  · rw [← hlines]
    exact a7 _ (List.mem_append_right _ (cdragonFiles_has env.enc plan).1)
  · rw [← hlines]
    exact a7 _ (List.mem_append_right _ (cdragonFiles_has env.enc plan).2.1)
  · intro n
    rw [plan_unknown h1, hsort]
    unfold Exporter.unknownHashes
    simp only [List.mem_flatMap, List.mem_map, List.mem_filter]
    constructor
    · rintro ⟨w, hw, f, ⟨hf, hp⟩, rfl⟩
      refine ⟨w, hw, f, hf, rfl, ?_⟩
      rcases hq : f.path with _ | _ | _ <;> simp_all [noPath]
    · rintro ⟨w, hw, f, hf, rfl, hp⟩
      exact ⟨w, hw, f, ⟨hf, by rcases hp with hp | hp <;> simp [hp, noPath]⟩, rfl⟩
  · rcases hll with hll | ⟨-, hll⟩
    · rw [hll]; exact hR _
    · rw [hll]; exact .nil
  · intro r
    rw [hmem]
    constructor
    · exact a6 r
    · rintro ⟨y, hy⟩
      obtain ⟨⟨s, hs, hrs⟩, -⟩ := a5 _ _ hy
      rw [← join_splitChar '/' r, hrs, join_splitChar]
      exact hs
  · intro q y hy
    obtain ⟨s, hs, hq⟩ := (a5 q y hy).1
    exact ⟨s, (hmem s).2 hs, hq⟩
  · intro hl
    rw [← hlines]
    exact a7 _ (List.mem_append_right _ ((cdragonFiles_has env.enc plan).2.2 fun h => hl (hempty.2 h)))
  · intro hl b hb
    refine ((cleaned_in env.iterPaths henv.iterPaths hg.disk _ hu.dir plan.kept plan.links _ (.file b) (by simp)).1 ((a2 _ b fun f hf hq => ?_).1 hb)).1
    have hq := (List.append_cancel_left hq).symm
    rcases List.mem_append.1 hf with hf | hf
    · obtain ⟨q, y, s, k1, -, k3⟩ := plan_file_full hS.plan hf
      refine not_cdragon hS.sound (source_exports (hS.plan.sub q y k1)) s ?_
      rw [← k3, hq]
      exact List.cons_prefix_cons.2 ⟨rfl, List.nil_prefix⟩
    · exact cdragonFiles_names (hempty.1 hl) hf hq

/-! ## A case -/

/-- The export of the case of C61: three symlinks, and a file that changed -/
example : exResult.get? (["out", "9.2", "cdragon", "files.links.txt"].map String.toList) =
      some (.file (exEnv.enc (linesOf (["b.txt", "game/d/x.txt", "game/e"].map String.toList)))) ∧
    exResult.get? (["out", "9.2", "cdragon", "files.exported.txt"].map String.toList) =
      some (.file (exEnv.enc (linesOf (["b.txt", "game/d/x.txt", "game/d/y.txt", "game/e/z.txt"].map String.toList)))) ∧
    exResult.get? (["out", "9.1", "cdragon", "files.links.txt"].map String.toList) = none := by decide +kernel

/-- The hypotheses are met by this export. -/
example : ∃ t t', exCur.export exEnv exRoot (some exOld) t = (t', .ok ()) ∧
    ∃ l, t'.get? (exRoot ++ [exCur.name, "cdragon".toList, "files.exported.txt".toList]) = some (.file (exEnv.enc (linesOf l))) ∧
      l.Pairwise (fun _ _ => True) ∧ ∀ q, q ∈ l ↔ exCur.exporter.Exports q ∨ (some exOld = none ∧ q = "cdragon".toList) := by
  obtain ⟨t, -, H, u, f⟩ := exFirst
  have hne : exOld.name ≠ exCur.name := by decide +kernel
  have hp : ∀ p ∈ some exOld, p ∈ [exOld] ∧ Follows exCur p := by
    intro p hp
    cases hp
    exact ⟨by simp, exFollows⟩
  obtain ⟨t', h, -⟩ := C61_succeeds exEnv exEnv_ok exRoot t [exOld] H exCur exCur_valid (by simpa using hne) (some exOld) hp u f
  exact ⟨t, t', h, (C61_reports exEnv exEnv_ok (fun _ _ => Iff.rfl) (fun _ _ => True) (fun l => List.pairwise_of_forall fun _ _ => trivial) (fun _ _ => True)
    (fun l => List.pairwise_of_forall fun _ _ => trivial) exRoot t t' [exOld] H exCur exCur_valid (by simpa using hne) (some exOld) hp u h).1⟩

/-- There are such sorts. -/
example : ∃ sort : List Nat → List Nat, (∀ l n, n ∈ sort l ↔ n ∈ l) ∧ ∀ l, (sort l).Pairwise (· ≤ ·) :=
  ⟨fun l => l.mergeSort (fun a b => decide (a ≤ b)), fun l n => List.mem_mergeSort, fun l => by
    have := List.pairwise_mergeSort (le := fun a b : Nat => decide (a ≤ b)) (by intro a b c; simp; omega) (by intro a b; simp; omega) l
    simpa using this⟩

end Cdtb
