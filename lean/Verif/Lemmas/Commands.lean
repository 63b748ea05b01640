import Verif.Spec.Commands
import Verif.Props.C35
import Verif.Props.C63
import Verif.Props.C54
import Verif.Props.C69
/-!
# Lemmas on the commands on components
-/
namespace Cdtb
set_option autoImplicit false
open Py Spec

/-- A loop keeps an invariant, and a property acquired by an element is kept: on success all elements have it, on failure those before the failing one -/
theorem forElems_spec {E S : Type} (f : Nat → S → E → S × Res Unit) (I : S → Prop) (P : S → E → Prop) (ok : E → Prop)
    (hinv : ∀ i s e, ok e → I s → I (f i s e).1)
    (hkeep : ∀ i s e e', ok e → I s → P s e' → P (f i s e).1 e')
    (hok : ∀ i s e, ok e → I s → (f i s e).2 = .ok () → P (f i s e).1 e)
    (es : List E) : (∀ e ∈ es, ok e) → ∀ i s, I s → I (forElems f i s es).1 ∧ (∀ e', P s e' → P (forElems f i s es).1 e') ∧
      ∃ done rest, es = done ++ rest ∧ (∀ e ∈ done, P (forElems f i s es).1 e) ∧
        ((forElems f i s es).2 = .ok () → rest = []) ∧ (∀ x, (forElems f i s es).2 = .error x → rest ≠ []) := by
  induction es with
  | nil => intro _ i s hs; exact ⟨hs, fun _ h => h, [], [], rfl, by simp, by simp, by simp [forElems]⟩
  | cons e es ih =>
    intro hes i s hs
    have he := hes e (by simp)
    have h1 := hinv i s e he hs
    have h2 := fun e' => hkeep i s e e' he hs
    have h3 := hok i s e he hs
    simp only [forElems]
    rcases hf : f i s e with ⟨s', r⟩
    rw [hf] at h1 h2 h3
    cases r with
    | error x => exact ⟨h1, h2, [], e :: es, rfl, by simp, by simp, by simp⟩
    | ok u =>
      simp only at h1 h2 h3 ⊢
      obtain ⟨g1, g2, done, rest, g3, g4, g5, g6⟩ := ih (fun e he => hes e (by simp [he])) (i + 1) s' h1
      refine ⟨g1, fun e' h => g2 e' (h2 e' h), e :: done, rest, by rw [g3]; rfl, ?_, g5, g6⟩
      intro a ha
      rcases List.mem_cons.1 ha with rfl | ha
      · exact g2 _ (h3 trivial)
      · exact g4 a ha

theorem parseComponentArgs_mem {parse : Str → Res Component} {comps : List Str} {es : List Elem} (h : parseComponentArgs parse comps = .ok es)
    (c : Str) (hc : c ∈ comps) (e : Elem) (he : ArgDesignates parse c e) : e ∈ es := by
  unfold parseComponentArgs at h
  simp only [bind, Except.bind] at h
  split at h
  · simp at h
  rename_i l hl
  cases h
  rw [mapM_eq_ok] at hl
  obtain ⟨x, hx, hxl⟩ := forall₂_mem_left hl hc
  rw [List.mem_flatten]
  refine ⟨x, hx, ?_⟩
  unfold parseComponentArg at hxl
  cases he with
  | patch h1 h2 => rw [h1] at hxl; cases hxl; exact h2
  | element h1 => rw [h1] at hxl; cases hxl; simp

section
variable {cfg : PCfg} {w : Cdn} {catalog : Int → Str → List Nat}

/-- A file with its content on disk -/
def Held (cfg : PCfg) (w : Cdn) (catalog : Int → Str → List Nat) (d : Disk) (x : Int × PFile) : Prop :=
  d.content (cfg.extractPath x.1 x.2) = some (rightContent w catalog x.1 x.2)

theorem elemExtractFile_held {d : Disk} (hg : GoodDisk cfg w catalog d) {v : Int} {g : PFile} {flt : ExtractFaults}
    (hsz : g.size = some (rightContent w catalog v g).length) {x : Int × PFile} (h : Held cfg w catalog d x) :
    Held cfg w catalog (cfg.elemExtractFile v false d g flt).1 x := by
  obtain ⟨v', f⟩ := x
  by_cases hq : cfg.extractPath v' f = cfg.extractPath v g
  · obtain ⟨rfl, hn⟩ := extractPath_inj hq
    have hr : rightContent w catalog v' f = rightContent w catalog v' g := by unfold rightContent; rw [hn]
    have hex : cfg.isExtracted v' d g = true := by
      unfold PCfg.isExtracted
      unfold Held at h
      simp only at h
      rw [← hq, h, hsz, hr]
      simp
    have : cfg.elemExtractFile v' false d g flt = (d, .ok ()) := by
      unfold PCfg.elemExtractFile; simp [hex]
    rw [this]; exact h
  · unfold Held at h ⊢
    simp only at h ⊢
    rw [content_eq_some] at h ⊢
    unfold Disk.resolve at h ⊢
    rw [elemExtractFile_links hq]
    apply elemExtractFile_keep _ h
    cases hx : d.links (cfg.extractPath v' f) with
    | none => exact hq
    | some t =>
      obtain ⟨x, rfl⟩ := good_storeLinks hg v' f t hx
      exact store_ne_extract cfg x v g

theorem extractAll_held (hsha : NoCollision cfg.sha1 catalog) {v : Int} {flts : Nat → ExtractFaults} (hrm : ∀ i, (flts i).write.remove = false)
    (l : List PFile) (hgen : ∀ f ∈ l, Genuine cfg w f (catalog v (fmtOpt f.name)))
    (hsz : ∀ f ∈ l, f.size = some (rightContent w catalog v f).length) (i : Nat) (d : Disk) (hg : GoodDisk cfg w catalog d) :
    GoodDisk cfg w catalog (cfg.extractAll v false flts i d l).1 ∧
    (∀ x, Held cfg w catalog d x → Held cfg w catalog (cfg.extractAll v false flts i d l).1 x) ∧
    ((cfg.extractAll v false flts i d l).2 = .ok () → ∀ f ∈ l, Held cfg w catalog (cfg.extractAll v false flts i d l).1 (v, f)) := by
  induction l generalizing i d with
  | nil => exact ⟨hg, fun _ h => h, by simp⟩
  | cons g l ih =>
    have hgg := hgen g (by simp)
    have k := fun x => elemExtractFile_held (flt := flts i) hg (hsz g (by simp)) (x := x)
    obtain ⟨s1, s2⟩ := good_step hsha hg (op := .extract v false g (flts i)) ⟨hgg, hrm i⟩
    have s2 := s2 v false g (flts i) rfl
    simp only [POp.run] at s1 s2
    simp only [PCfg.extractAll]
    rcases he : cfg.elemExtractFile v false d g (flts i) with ⟨d', r⟩
    rw [he] at s1 s2 k
    cases r with
    | error e => exact ⟨s1, k, by simp⟩
    | ok u =>
      obtain ⟨g1, g2, g3⟩ := ih (fun f hf => hgen f (by simp [hf])) (fun f hf => hsz f (by simp [hf])) (i + 1) d' s1
      refine ⟨g1, fun x hx => g2 x (k x hx), fun hr f hf => ?_⟩
      rcases List.mem_cons.1 hf with rfl | hf
      · exact g2 _ (s2 rfl)
      · exact g3 hr f hf

theorem realFiles_mem {m : Manifest} {langs : Langs} {sel : List PFile} (h : m.realFiles langs = .ok sel) (f : PFile) :
    f ∈ sel ↔ f ∈ m.files.values ∧ Selected langs f ∧ f.isLink = false := by
  unfold Manifest.realFiles at h
  simp only [bind, Except.bind] at h
  split at h
  · simp at h
  rename_i l hl
  cases h
  by_cases ho : langs = .other
  · subst ho; rw [(C39_select m .all).2] at hl; simp at hl
  · obtain ⟨p, hp, he⟩ := (C39_select m langs).1 ho
    rw [he] at hl
    cases hl
    simp only [List.mem_filter, hp, Bool.not_eq_true', and_assoc]

theorem extract_held (hsha : NoCollision cfg.sha1 catalog) {e : PElem} (hm : TrueManifest cfg w catalog e) (langs : Langs)
    {flts : Nat → ExtractFaults} (hrm : ∀ i, (flts i).write.remove = false) (d : Disk) (hg : GoodDisk cfg w catalog d) :
    GoodDisk cfg w catalog (cfg.extract e.release e.manif langs false flts d).1 ∧
    (∀ x, Held cfg w catalog d x → Held cfg w catalog (cfg.extract e.release e.manif langs false flts d).1 x) ∧
    ((cfg.extract e.release e.manif langs false flts d).2 = .ok () →
      ElemStored cfg w catalog langs (cfg.extract e.release e.manif langs false flts d).1 e) := by
  unfold PCfg.extract
  cases hs : e.manif.realFiles langs with
  | error x => exact ⟨hg, fun _ h => h, by simp⟩
  | ok sel =>
    simp only
    cases hf : sortFiles sel with
    | error x => exact ⟨hg, fun _ h => h, by simp⟩
    | ok files =>
      simp only
      have hmem := fun f => (sortFiles_perm hf).mem_iff (a := f)
      have hval : ∀ f ∈ files, f ∈ e.manif.files.values := fun f h => ((realFiles_mem hs f).1 ((hmem f).1 h)).1
      obtain ⟨g1, g2, g3⟩ := extractAll_held hsha hrm files (fun f h => hm.chunks f (hval f h)) (fun f h => hm.size f (hval f h)) 0 d hg
      refine ⟨g1, g2, fun hr f h1 h2 h3 => g3 hr f ?_⟩
      exact (hmem f).2 ((realFiles_mem hs f).2 ⟨h1, h2, h3⟩)

theorem pool_held (hsha : NoCollision cfg.sha1 catalog) {r : PRun} (hr : FairRun cfg w r) {ids : List Nat} (hnd : ids.Nodup) (hlt : ∀ i ∈ ids, i < 2 ^ 64)
    (d : Disk) (hg : GoodDisk cfg w catalog d) :
    GoodDisk cfg w catalog { d with fs := (cfg.downloadPool r.response r.faults ids d.fs (r.sched ids)).fs } ∧
    ∀ x, Held cfg w catalog d x → Held cfg w catalog { d with fs := (cfg.downloadPool r.response r.faults ids d.fs (r.sched ids)).fs } x := by
  have hsep := bundles_separate cfg r.response r.faults ids hlt
  obtain ⟨h1, -⟩ := C06_schedule_independent (ι := {i // i ∈ ids}) cfg.base (fun i => bundleRel i.1) (fun i => r.response i.1) (fun i => r.faults i.1) d.fs
    hsep ids.attach (fun i => List.mem_attach ids i) (List.nodup_attach.2 hnd) (r.sched ids)
    (fun i => C06_no_blocking _ hsep d.fs (r.sched ids) i (hr.turns ids i))
  have hfs : (cfg.downloadPool r.response r.faults ids d.fs (r.sched ids)).fs = downloads cfg.base d.fs (ids.map (bundleCall r.response r.faults)) := by
    refine Eq.trans h1 ?_
    congr 1
    conv_rhs => rw [← List.attach_map_subtype_val ids, List.map_map]
    rfl
  rw [hfs]
  constructor
  · rw [← downloads_afterOps]
    apply good_history hsha hg
    intro op hop
    obtain ⟨i, _, rfl⟩ := List.mem_map.1 hop
    exact ⟨fun x hx => hr.served i x hx, hr.remove i⟩
  · intro x hx
    unfold Held at hx ⊢
    rw [content_eq_some] at hx ⊢
    refine downloads_keep ?_ hx
    intro c hc
    obtain ⟨i, _, rfl⟩ := List.mem_map.1 hc
    rfl

theorem downloadBundles_held (hsha : NoCollision cfg.sha1 catalog) {r : PRun} (hr : FairRun cfg w r) {e : PElem} (hm : TrueManifest cfg w catalog e)
    (skip : Bool) (langs : Langs) (d : Disk) (hg : GoodDisk cfg w catalog d) :
    GoodDisk cfg w catalog (cfg.downloadBundles skip langs r d e).1 ∧
    ∀ x, Held cfg w catalog d x → Held cfg w catalog (cfg.downloadBundles skip langs r d e).1 x := by
  unfold PCfg.downloadBundles
  cases hb : cfg.bundleIds e.release e.manif langs skip d with
  | error x => exact ⟨hg, fun _ h => h⟩
  | ok need =>
    simp only
    cases hi : sortIds need with
    | error x => exact ⟨hg, fun _ h => h⟩
    | ok ids =>
      simp only
      unfold PCfg.bundleIds at hb
      simp only [bind, Except.bind] at hb
      split at hb
      · simp at hb
      rename_i files hfiles
      cases hb
      obtain ⟨a, -, c⟩ := sortIds_mem hi
      apply pool_held hsha hr (c (List.nodup_dedup _)) _ d hg
      intro i hmi
      have := (a i).1 hmi
      unfold fileBundles at this
      rw [List.mem_dedup, List.mem_flatMap] at this
      obtain ⟨f, hf, hc⟩ := this
      obtain ⟨ch, hch, hcb⟩ := List.mem_map.1 hc
      exact hm.bundles f ((realFiles_mem hfiles f).1 (List.mem_of_mem_filter hf)).1 ch hch i hcb

theorem downloadElem_held (hsha : NoCollision cfg.sha1 catalog) {r : PRun} (hr : FairRun cfg w r) {e : PElem} (hm : TrueManifest cfg w catalog e)
    (langs : Langs) (d : Disk) (hg : GoodDisk cfg w catalog d) :
    GoodDisk cfg w catalog (cfg.downloadElem langs r d e).1 ∧
    (∀ x, Held cfg w catalog d x → Held cfg w catalog (cfg.downloadElem langs r d e).1 x) ∧
    ((cfg.downloadElem langs r d e).2 = .ok () → ElemStored cfg w catalog langs (cfg.downloadElem langs r d e).1 e) := by
  obtain ⟨h1, h2⟩ := downloadBundles_held hsha hr hm true langs d hg
  unfold PCfg.downloadElem
  rcases hb : cfg.downloadBundles true langs r d e with ⟨d', x⟩
  rw [hb] at h1 h2
  cases x with
  | error x => exact ⟨h1, h2, by simp⟩
  | ok u =>
    obtain ⟨g1, g2, g3⟩ := extract_held hsha hm langs hr.removeOut d' h1
    exact ⟨g1, fun x hx => g2 x (h2 x hx), g3⟩

end

end Cdtb
