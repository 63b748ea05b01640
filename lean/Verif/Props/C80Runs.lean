import Verif.Props.C80
import Verif.Props.C76Runs
/-!
# C80, continued: when nothing fails, a patch is downloaded and its files are collected, whatever happened before
-/
namespace Cdtb
set_option autoImplicit false
open Py Spec

section
variable {cfg : PCfg} {w : Cdn} {catalog : Int → Str → List Nat} {elems : PElem → Prop}

theorem history_clear (hsha : NoCollision cfg.sha1 catalog) (hn : GoodOutputs cfg elems) (hm : ∀ e, elems e → TrueManifest cfg w catalog e) :
    ∀ (l : List (Langs × (Nat → PRun) × List PElem)) (d : Disk), (∀ r ∈ l, (∀ i, FairRun cfg w (r.2.1 i)) ∧ ∀ e ∈ r.2.2, elems e) →
      GoodDisk cfg w catalog d → ClearWay cfg (IsOutput elems) d →
      GoodDisk cfg w catalog (cfg.history l d) ∧ ClearWay cfg (IsOutput elems) (cfg.history l d)
  | [], _, _, hg, hu => ⟨hg, hu⟩
  | r :: l, d, h, hg, hu => by
    obtain ⟨h1, h2, -⟩ := downloadElems_clear hsha hn hm r.1 r.2.1 (h r (by simp)).1 r.2.2 (h r (by simp)).2 0 d hg hu
    exact history_clear hsha hn hm l _ (fun x hx => h x (by simp [hx])) h1 h2

/-- **C80, success.** Any downloads were made in the storage; requests and the disk failed in any way, threads were interleaved in any way. When nothing fails, the
files of a patch are collected (its archives, as the CDN has them, being readable), and what is to be exported is what the CDN has. -/
theorem C80_succeeds (hsha : NoCollision cfg.sha1 catalog) (hn : GoodOutputs cfg elems) (hm : ∀ e, elems e → TrueManifest cfg w catalog e)
    (d0 : Disk) (hg : GoodDisk cfg w catalog d0) (hu : ClearWay cfg (IsOutput elems) d0)
    (past : List (Langs × (Nat → PRun) × List PElem)) (hpast : ∀ r ∈ past, (∀ i, FairRun cfg w (r.2.1 i)) ∧ ∀ e ∈ r.2.2, elems e)
    (cx : Codecs) (dir : Str) (ext : Nat → Option Str) (cache : Dict Nat (Option Str)) (hc : RightCache ext cache)
    (ws : Nat → PRun) (hws : ∀ i, PerfectRun cfg w (ws i)) (es : List PElem) (hes : ∀ e ∈ es, elems e) (hf : OnlyFiles es)
    (ideal : FS) (hi : CdnFiles cfg w catalog es ideal) (hh : SameHashFiles dir (cfg.downloadElems .all ws (cfg.history past d0) es).1.view ideal)
    (hr : ∀ x ∈ storedPaths cfg es, IsWadFile x.1 → ReadableWad cx dir ideal ext x.1) (v : Version) (hv : v.s = "main".toList ∨ ∃ t, v.t = .nums t) :
    ∃ d' c raw e, cfg.addPatchFiles cx dir cache emptyExporter ws (cfg.history past d0) es = (d', .ok (c, raw)) ∧ RightCache ext c ∧ transform raw v = .ok e ∧
      ∀ p b, Spec.Exports e (diskSources cx dir d'.view) p b ↔ ExportedFile cx dir ideal (storedPaths cfg es) v p b := by
  obtain ⟨g, u⟩ := history_clear hsha hn hm past d0 hpast hg hu
  obtain ⟨-, -, h⟩ := downloadElems_clear hsha hn hm .all ws (fun i => (hws i).fair) es hes 0 _ g u
  have h : (cfg.downloadElems .all ws (cfg.history past d0) es).2 = .ok () := h hws nofun
  obtain ⟨c, raw, e, h1⟩ := C80_export hsha cx dir ext cache hc ws (fun i => (hws i).fair) es (fun e he => hm e (hes e he)) hf _ _ g (Prod.ext rfl h)
    ideal hi hh hr v hv
  exact ⟨_, c, raw, e, h1⟩

end

/-! Non-vacuity: the storages of `C80ex`, after a download where requests failed. -/

namespace C80ex

theorem outputs {v : Int} {f : PFile} (h : IsOutput (· = elem) v f) : v = 12 ∧ (f = wad ∨ f = dds) := by
  obtain ⟨e, rfl, rfl, h, -⟩ := h
  exact ⟨rfl, files h⟩

/-- The configuration, with digests of a fixed size -/
def cfg1 (b : Bool) : PCfg := { cfg b with sha1 := fun t => if t = "0000000000000005".toList then "5".toList else "6".toList }

theorem noCollision1 (b : Bool) : NoCollision (cfg1 b).sha1 catalog := by
  intro v n v' n' t t' h h' he
  have key : ∀ v n t, IdsText (catalog v n) t → (t = "0000000000000006".toList ∨ t = "0000000000000005".toList) := by
    intro v n t h
    unfold catalog at h
    split at h
    · left; exact IdsText_unique h (idsText_map [6] (by decide))
    · right; exact IdsText_unique h (idsText_map [5] (by decide))
  rcases key v n t h with rfl | rfl <;> rcases key v' n' t' h' with rfl | rfl
  · rfl
  · exact absurd he (by cases b <;> decide +kernel)
  · exact absurd he (by cases b <;> decide +kernel)
  · rfl

theorem good_outputs (b : Bool) : GoodOutputs (cfg1 b) (· = elem) where
  named v f h := by
    obtain ⟨rfl, rfl | rfl⟩ := outputs h <;> cases b <;> exact ⟨by decide +kernel, by decide +kernel⟩
  parents v f v' f' h h' := by
    obtain ⟨rfl, rfl | rfl⟩ := outputs h <;> obtain ⟨rfl, rfl | rfl⟩ := outputs h' <;> cases b <;> decide +kernel
  distinct e h := by subst h; decide +kernel
  digest := ⟨0, fun x => by unfold cfg1; simp only; split <;> rfl⟩
  noslash := fun x => by unfold cfg1; simp only; split <;> decide

theorem clear (b : Bool) : ClearWay (cfg1 b) (IsOutput (· = elem)) disk := by
  have key : ∀ q : Str, q.head? = some '/' → ∀ n, disk.fs q ≠ some n := fun q hq n h => by
    rw [show disk.fs q = none from hash_root hq] at h; cases h
  have hd : ∀ (p q : Str), p.head? = some '/' → q ∈ dirPrefixes (dirname p) → ∀ n, disk.fs q ≠ some n := by
    intro p q hp hq n h
    have h2 : disk.fs q = none := by
      show hash q = none
      unfold hash
      rw [if_neg]
      rintro rfl
      obtain ⟨r, rfl⟩ := dirPrefixes_dirname_prefix hq
      exact absurd hp (by simp)
    rw [h2] at h; cases h
  refine ⟨?_, ?_, ?_, ?_, ?_, ?_⟩
  · exact fun v f _ q hq => ⟨fun x => hd ((cfg1 b).extractPath v f) q rfl hq _, rfl⟩
  · exact fun v f _ => key ((cfg1 b).extractPath v f) rfl _
  · exact fun x q hq y => hd ((cfg1 b).storePath ((cfg1 b).sha1 x)) q rfl hq _
  · exact fun x => key ((cfg1 b).storePath ((cfg1 b).sha1 x)) rfl _
  · exact fun i q hq y => hd ((cfg1 b).bundlePath i) q rfl hq _
  · exact fun i => key ((cfg1 b).bundlePath i) rfl _

theorem perfect1 (b : Bool) : PerfectRun (cfg1 b) cdn (run b) := ⟨fun _ => rfl, fun _ => rfl, fun _ => rfl, (fair b).turns⟩

theorem manifest1 (b : Bool) : TrueManifest (cfg1 b) cdn catalog elem := by
  refine ⟨?_, (manifest b).2, (manifest b).3⟩
  intro f hf
  rcases files hf with rfl | rfl
  · exact .cons ⟨rfl, by decide, 11, _, rfl, rfl, by cases b <;> decide +kernel⟩ .nil
  · exact .cons ⟨rfl, by decide, 11, _, rfl, rfl, by cases b <;> decide +kernel⟩ .nil

theorem good1 (b : Bool) : GoodDisk (cfg1 b) cdn catalog disk := by
  have hb : ∀ i, disk.fs ((cfg1 b).bundlePath i) = none := fun i => hash_root (p := (cfg1 b).bundlePath i) rfl
  have hs : ∀ t, disk.fs ((cfg1 b).storePath t) = none := fun t => hash_root (p := (cfg1 b).storePath t) rfl
  have hx : ∀ v f, disk.fs ((cfg1 b).extractPath v f) = none := fun v f => hash_root (p := (cfg1 b).extractPath v f) rfl
  refine ⟨?_, ?_, ?_, ?_⟩
  · intro i x h; rw [hb] at h; cases h
  · intro v n t x _ h; rw [hs] at h; cases h
  · intro _ v f; exact ⟨fun c h => (by rw [hx] at h; cases h), fun t h => (by cases h)⟩
  · intro _ v f; exact ⟨rfl, fun c h => by rw [hx] at h; cases h⟩

/-- Requests which fail -/
def badRun80 (b : Bool) : PRun := { run b with response := fun _ => .error (.http 404) }

theorem bad1 (b : Bool) : FairRun (cfg1 b) cdn (badRun80 b) := ⟨fun _ _ h => (by cases h), fun _ => rfl, fun _ => rfl, (fair b).turns⟩

/-- A first download fails; then nothing fails: the files are collected. -/
example (b : Bool) : ((cfg1 b).downloadElems .all (fun _ => badRun80 b) disk [elem]).2 = .error (.http 404) ∧
    ∃ d' c raw e, (cfg1 b).addPatchFiles C62ex.cx "h".toList [] emptyExporter (fun _ => run b)
        ((cfg1 b).history [(.all, fun _ => badRun80 b, [elem])] disk) [elem] = (d', .ok (c, raw)) ∧ transform raw C66ex.v = .ok e ∧
      ∀ p x, Spec.Exports e (diskSources C62ex.cx "h".toList d'.view) p x ↔ ExportedFile C62ex.cx "h".toList ideal (storedPaths (cfg1 b) [elem]) C66ex.v p x := by
  refine ⟨by cases b <;> decide +kernel, ?_⟩
  obtain ⟨d', c, raw, e, h1, -, h2, h3⟩ := C80_succeeds (noCollision1 b) (good_outputs b) (fun e he => by subst he; exact manifest1 b) disk (good1 b) (clear b)
    [(.all, fun _ => badRun80 b, [elem])] (fun r hr => by
      rw [List.mem_singleton] at hr
      subst hr
      exact ⟨fun _ => bad1 b, fun e he => List.mem_singleton.1 he⟩) C62ex.cx "h".toList C66ex.ext [] (fun h e he => by cases he) (fun _ => run b)
    (fun _ => perfect1 b) [elem] (fun e he => List.mem_singleton.1 he) only ideal (cdnFiles b)
    (by cases b <;> exact ⟨by decide +kernel, by decide +kernel⟩) (readable b) C66ex.v (Or.inr ⟨_, rfl⟩)
  exact ⟨d', c, raw, e, h1, h2, h3⟩

end C80ex
end Cdtb
