import Verif.Lemmas.Patcher
import Mathlib.Data.List.Induction
/-!
# C33  Bundle chunks are located exactly

A bundle is built by adding chunks (id, compressed size, uncompressed size) one after the other.
-/
namespace Cdtb
set_option autoImplicit false
open Py Spec

theorem addChunks_append (b : PBundle) (l l' : List (Option Nat × Option Nat × Option Nat)) :
    b.addChunks (l ++ l') = (b.addChunks l).bind (fun b' => b'.addChunks l') := by
  induction l generalizing b with
  | nil => rfl
  | cons x l ih =>
    obtain ⟨i, s, t⟩ := x
    simp only [List.cons_append, PBundle.addChunks]
    cases h : b.addChunk i s t with
    | error e => rfl
    | ok b' => exact ih b'

/-- The chunks of a bundle made of the given (id, size, target size) -/
theorem addChunks_offsets (id : Option Nat) (cs : List (Nat × Nat × Nat)) :
    (PBundle.mk id []).addChunks (cs.map fun c => (some c.1, some c.2.1, some c.2.2)) =
      .ok ⟨id, (List.range cs.length).map (fun k =>
        let c := cs.getD k (0, 0, 0)
        ⟨some c.1, id, ((cs.take k).map (·.2.1)).sum, some c.2.1, some c.2.2⟩)⟩ := by
  induction cs using List.reverseRecOn with
  | nil => rfl
  | append_singleton cs c ih =>
    rw [List.map_append, addChunks_append, ih]
    simp only [Except.bind, List.map_cons, List.map_nil, PBundle.addChunks]
    have hpre : (List.range cs.length).map (fun k =>
          let x := (cs ++ [c]).getD k (0, 0, 0)
          (⟨some x.1, id, (((cs ++ [c]).take k).map (·.2.1)).sum, some x.2.1, some x.2.2⟩ : PChunk)) =
        (List.range cs.length).map (fun k =>
          let x := cs.getD k (0, 0, 0)
          (⟨some x.1, id, ((cs.take k).map (·.2.1)).sum, some x.2.1, some x.2.2⟩ : PChunk)) := by
      apply List.map_congr_left
      intro k hk
      have hk := List.mem_range.1 hk
      simp only [List.getD_eq_getElem?_getD]
      rw [List.getElem?_append_left hk, List.take_append_of_le_length (by omega)]
    rw [List.length_append, List.length_singleton, List.range_succ, List.map_append, hpre]
    unfold PBundle.addChunk
    rcases List.eq_nil_or_concat cs with rfl | ⟨cs', c', rfl⟩
    · rfl
    · rw [List.concat_eq_append]
      simp only [List.length_append, List.length_singleton, List.range_succ, List.map_append, List.map_cons, List.map_nil,
        List.getLast?_append, List.getLast?_singleton, Option.some_or, Option.or_some]
      have e : ∀ (l : List (Nat × Nat × Nat)) a b, List.take (l.length + 1) (l ++ [a] ++ [b]) = l ++ [a] := by
        intro l a b; rw [List.take_left' (by simp)]
      simp only [Pure.pure, Except.pure, bind, Except.bind, e]
      simp

/-- Offsets are the running sums of the compressed sizes: the `k`-th chunk starts where the previous
ones, put one after the other, end. -/
theorem C33_offsets (id : Nat) (cs : List (Nat × Nat × Nat)) :
    ∃ b, (PBundle.mk (some id) []).addChunks (cs.map fun c => (some c.1, some c.2.1, some c.2.2)) = .ok b ∧
      b.chunks.length = cs.length ∧
      ∀ pre c post, cs = pre ++ c :: post →
        b.chunks[pre.length]? = some ⟨some c.1, some id, (pre.map (·.2.1)).sum, some c.2.1, some c.2.2⟩ := by
  refine ⟨_, addChunks_offsets _ _, by simp, ?_⟩
  rintro pre c post rfl
  rw [List.getElem?_map, List.getElem?_range (by simp)]
  simp

/-- If the bundle file is the concatenation of the compressed chunks (followed by anything), loading
a chunk gives what its compressed data decompress to (or the error of the decompression). -/
theorem C33_load (cfg : PCfg) (fs : FS) (id : Nat) (b : PBundle) (zs : List (Nat × Nat × Bytes)) (extra : Bytes)
    (hb : (PBundle.mk (some id) []).addChunks (zs.map fun z => (some z.1, some z.2.2.length, some z.2.1)) = .ok b)
    (hfs : fs (cfg.bundlePath id) = some (.file ((zs.map (·.2.2)).flatten ++ extra))) :
    List.Forall₂ (fun c z => c.id = some z.1 ∧ cfg.loadChunk fs c = cfg.zstd z.2.2) b.chunks zs := by
  have h := addChunks_offsets (some id) (zs.map fun z => (z.1, z.2.2.length, z.2.1))
  rw [List.map_map] at h
  have : b = _ := Except.ok.inj (hb.symm.trans h)
  subst this
  rw [List.forall₂_iff_get]
  refine ⟨by simp, ?_⟩
  intro k hk hk'
  simp only [List.length_map, List.length_range] at hk
  have hz : zs = zs.take k ++ zs[k] :: zs.drop (k + 1) := by simp
  have hdrop : ((zs.map (·.2.2)).flatten ++ extra).drop ((((zs.map fun z => (z.1, z.2.2.length, z.2.1)).take k).map (·.2.1)).sum)
      = zs[k].2.2 ++ (((zs.drop (k + 1)).map (·.2.2)).flatten ++ extra) := by
    have e : (((zs.map fun z => (z.1, z.2.2.length, z.2.1)).take k).map (·.2.1)).sum = (((zs.take k).map (·.2.2)).flatten).length := by
      rw [List.length_flatten, ← List.map_take, List.map_map, List.map_map]; rfl
    rw [e]
    have hz' : (zs.map (·.2.2)).flatten ++ extra = ((zs.take k).map (·.2.2)).flatten ++ (zs[k].2.2 ++ (((zs.drop (k + 1)).map (·.2.2)).flatten ++ extra)) := by
      conv_lhs => rw [hz, List.map_append, List.flatten_append]
      rw [List.map_cons, List.flatten_cons, List.append_assoc, List.append_assoc]
    rw [hz', List.drop_left']
    rfl
  simp only [List.get_eq_getElem, List.getElem_map, List.getElem_range, List.getD_eq_getElem?_getD]
  refine ⟨by simp [List.getElem?_map, List.getElem?_eq_getElem hk'], ?_⟩
  simp only [PCfg.loadChunk, hfs, hdrop]
  simp [List.getElem?_map, List.getElem?_eq_getElem hk', readOpt]

/-- A file extracted successfully, and not extracted before, contains its chunks' contents in order:
data are written to the output itself, or to the file of the shared store when symlinks are used. -/
theorem C33_extract (cfg : PCfg) (d d' : Disk) (version : Int) (file : PFile) (f : ExtractFaults) (bs : List Bytes)
    (hbs : List.Forall₂ (fun c b => cfg.loadChunk d.fs c = .ok b) file.chunks bs)
    (hok : cfg.extractFile d file (cfg.extractPath version file) f = (d', .ok ()))
    (hsym : cfg.symlinks = true → ∀ x, digestInput file.chunks = .ok x → ∀ b, d.fs (cfg.storePath (cfg.sha1 x)) ≠ some (.file b))
    (hnosym : cfg.symlinks = false → d.links (cfg.extractPath version file) = none ∧
      ∀ b, d.fs (cfg.extractPath version file) ≠ some (.file b)) :
    d'.content (cfg.extractPath version file) = some bs.flatten := by
  have huniq : ∀ (cs : List PChunk) (bs bs' : List Bytes), List.Forall₂ (fun c b => cfg.loadChunk d.fs c = .ok b) cs bs →
      List.Forall₂ (fun c b => cfg.loadChunk d.fs c = .ok b) cs bs' → bs = bs' := by
    intro cs bs bs' h h'
    induction h generalizing bs' with
    | nil => cases h'; rfl
    | cons hc _ ih =>
      cases h' with
      | cons hc' hr => rw [hc] at hc'; rw [Except.ok.inj hc', ih _ hr]
  cases hs : cfg.symlinks with
  | true =>
    simp only [PCfg.extractFile, hs, if_true] at hok
    cases hx : digestInput file.chunks with
    | error e => rw [hx] at hok; simp at hok
    | ok x =>
      rw [hx] at hok
      simp only at hok
      have hn := hsym hs x hx
      rcases he : cfg.ensureFile d.fs (cfg.storePath (cfg.sha1 x)) file.chunks f.write with ⟨fs1, r⟩
      rw [he] at hok
      cases r with
      | error e => simp at hok
      | ok u =>
        simp only at hok
        obtain ⟨bs', h1, h2⟩ := ensureFile_written (by rw [he]) hn
        rw [he] at h2
        rw [huniq _ _ _ hbs h1]
        have hl := relink_ok (d := { d with fs := fs1 }) (real := cfg.storePath (cfg.sha1 x)) (out := cfg.extractPath version file) (f := f) (by rw [hok])
        have hf := relink_fs { d with fs := fs1 } (cfg.storePath (cfg.sha1 x)) (cfg.extractPath version file) f (store_ne_extract cfg (cfg.sha1 x) version file)
        rw [hok] at hl hf
        have := (hf.file bs'.flatten).2 h2
        exact content_link hl this
  | false =>
    simp only [PCfg.extractFile, hs, Bool.false_eq_true, if_false] at hok
    rcases he : cfg.ensureFile d.fs (cfg.extractPath version file) file.chunks f.write with ⟨fs1, r⟩
    rw [he] at hok
    simp only [Prod.mk.injEq] at hok
    obtain ⟨bs', h1, h2⟩ := ensureFile_written (by rw [he]; exact hok.2) (hnosym hs).2
    rw [he] at h2
    rw [huniq _ _ _ hbs h1, ← hok.1]
    exact content_plain (hnosym hs).1 h2

/-! Non-vacuity: a storage with a bundle of two chunks, "decompression" removing the first byte;
a file made of the chunks 7, 5, 7. -/
def demoCfg (sym : Bool) : PCfg := ⟨"/s".toList, "live".toList, sym,
  fun b => match b with | [] => .error .codec | _ :: r => .ok r, fun x => 'h' :: x.take 40⟩
def demoBundle : PBundle := ⟨some 10, [⟨some 5, some 10, 0, some 3, some 2⟩, ⟨some 7, some 10, 3, some 2, some 1⟩]⟩
def demoFile : PFile := ⟨some "a/b.txt".toList, some 4, none, none,
  [⟨some 7, some 10, 3, some 2, some 1⟩, ⟨some 5, some 10, 0, some 3, some 2⟩, ⟨some 7, some 10, 3, some 2, some 1⟩]⟩
def demoFS : FS := fun p => if p = "/s/channels/public/bundles/000000000000000A.bundle".toList then some (.file [0, 1, 2, 0, 3]) else none
def demoDisk : Disk := ⟨demoFS, fun _ => none⟩

example : (PBundle.mk (some 10) []).addChunks [(some 5, some 3, some 2), (some 7, some 2, some 1)] = .ok demoBundle := by decide +kernel
example : demoFS ((demoCfg true).bundlePath 10) = some (.file (([(5, 2, [0, 1, 2]), (7, 1, [0, 3])].map (·.2.2)).flatten ++ [])) := by
  decide +kernel
example : demoFile.chunks.map ((demoCfg true).loadChunk demoFS) = [.ok [3], .ok [1, 2], .ok [3]] := by decide +kernel
example : ((demoCfg true).extractFile demoDisk demoFile ((demoCfg true).extractPath 12 demoFile) {}).2 = .ok () ∧
    ((demoCfg true).extractFile demoDisk demoFile ((demoCfg true).extractPath 12 demoFile) {}).1.content
      "/s/cdtb/releases/live/12/files/a/b.txt".toList = some [3, 1, 2, 3] := by decide +kernel
example : ((demoCfg false).extractFile demoDisk demoFile ((demoCfg false).extractPath 12 demoFile) {}).2 = .ok () ∧
    ((demoCfg false).extractFile demoDisk demoFile ((demoCfg false).extractPath 12 demoFile) {}).1.content
      "/s/cdtb/releases/live/12/files/a/b.txt".toList = some [3, 1, 2, 3] := by decide +kernel

end Cdtb
