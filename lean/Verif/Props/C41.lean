import Verif.Props.C03
import Verif.Props.C04
import Verif.Props.C29
import Verif.Props.C43
import Mathlib.Data.List.Perm.Basic
/-!
# C41  RADS extraction writes each file's exact bytes whatever the manifest order and chunking

`env.extract fs pfs paths` is `RadsProjectVersion.extract` for the package manifest `pfs`, in the file system `fs`:
the resulting file system and the outcome. `env` has what the network gives for each package (some chunks, possibly
fewer than the whole package, or an error) and the faults of the disk.
-/
namespace Cdtb
set_option autoImplicit false
open Py

/-! ## Specification -/

/-- `data[offset:offset+size]` -/
def Spec.pkgSlice (data : Bytes) (offset size : Nat) : Bytes := (data.drop offset).take size

/-- Decompressing data given in pieces -/
def Inflate.run (z : Inflate) : z.State → List Bytes → Res Bytes
  | st, [] => z.flush st
  | st, w :: ws => match z.feed st w with
    | .error e => .error e
    | .ok (st', b) => match z.run st' ws with
      | .error e => .error e
      | .ok r => .ok (b ++ r)

/-- The result of decompressing depends on the data only, not on how it is cut into pieces. -/
def Inflate.Decodes (z : Inflate) (inflate : Bytes → Res Bytes) : Prop := ∀ ws, z.run z.init ws = inflate ws.flatten

/-- What the file of an entry must hold, given the content of packages -/
def Spec.pkgContent (pkg : Str → Bytes) (inflate : Bytes → Res Bytes) (pf : PkgFile) : Res Bytes :=
  let s := Spec.pkgSlice (pkg pf.package) pf.offset.toNat pf.size.toNat
  if pf.compressed then inflate s else .ok s

/-- What the network gives is always a part of the package, from its start (all of it if the connection is not cut). -/
def RadsEnv.Serves (env : RadsEnv) (pkg : Str → Bytes) : Prop :=
  ∀ p chunks, env.stream (env.projectPath ++ "/packages/files/".toList ++ p) = .ok chunks → chunks.flatten <+: pkg p

/-- End of an entry in its package -/
def PkgFile.stop (pf : PkgFile) : Nat := pf.offset.toNat + pf.size.toNat

/-- Entries of a package that do not overlap. An empty entry at the start of another one must be listed before it. -/
def Spec.NoOverlap (files : List PkgFile) : Prop := files.Pairwise fun a b => a.package = b.package →
  a.stop ≤ b.offset.toNat ∨ (b.stop ≤ a.offset.toNat ∧ b.offset.toNat < a.offset.toNat)

/-! ## Reading -/

def RInv (r : StreamReader) (data : Bytes) : Prop := r.buf ++ r.chunks.flatten = data.drop r.pos ∧ r.pos ≤ data.length

theorem copyLoop_inv {r : StreamReader} {data : Bytes} (hr : RInv r data) (n : Nat) :
    (r.pos + n ≤ data.length → (copyLoop n r.buf r.chunks).res = .ok () ∧
      (copyLoop n r.buf r.chunks).written.flatten = Spec.pkgSlice data r.pos n ∧
      RInv ⟨(copyLoop n r.buf r.chunks).chunks, r.pos + n, (copyLoop n r.buf r.chunks).buf⟩ data) ∧
    (¬ r.pos + n ≤ data.length → (copyLoop n r.buf r.chunks).res = .error .stopIteration) := by
  constructor
  · intro hn
    have := (copyLoop_spec n r.buf r.chunks).1 (by rw [hr.1, List.length_drop]; omega)
    rw [hr.1, List.drop_drop] at this
    exact ⟨this.1, this.2.1, this.2.2, hn⟩
  · intro hn
    exact ((copyLoop_spec n r.buf r.chunks).2 (by rw [hr.1, List.length_drop]; have := hr.2; omega)).1

theorem skipTo_inv {r : StreamReader} {data : Bytes} (hr : RInv r data) (p : Nat) :
    (r.pos ≤ p → p ≤ data.length → (r.skipTo p).1 = .ok () ∧ (r.skipTo p).2.pos = p ∧ RInv (r.skipTo p).2 data) ∧
    (p < r.pos → (r.skipTo p).1 = .error .assertion) ∧
    (r.pos ≤ p → data.length < p → (r.skipTo p).1 = .error .stopIteration) := by
  unfold StreamReader.skipTo
  refine ⟨fun h1 h2 => ?_, fun h1 => ?_, fun h1 h2 => ?_⟩
  · have e : r.pos + (p - r.pos) = p := by omega
    have := (copyLoop_inv hr (p - r.pos)).1 (by omega)
    rw [if_pos h1]
    simp only [StreamReader.skip]
    exact ⟨this.1, e, this.2.2⟩
  · rw [if_neg (by omega)]
  · rw [if_pos h1]
    exact (copyLoop_inv hr (p - r.pos)).2 (by omega)

theorem copy_inv {r : StreamReader} {data : Bytes} (hr : RInv r data) (n : Nat) :
    (r.pos + n ≤ data.length → (r.copy n).2.1 = .ok () ∧ (r.copy n).1.flatten = Spec.pkgSlice data r.pos n ∧
      (r.copy n).2.2.pos = r.pos + n ∧ RInv (r.copy n).2.2 data) ∧
    (¬ r.pos + n ≤ data.length → (r.copy n).2.1 = .error .stopIteration) := by
  refine ⟨fun h => ?_, fun h => (copyLoop_inv hr n).2 h⟩
  obtain ⟨h1, h2, h3⟩ := (copyLoop_inv hr n).1 h
  exact ⟨h1, h2, rfl, h3⟩

theorem RInv_init (chunks : List Bytes) : RInv (.init chunks) chunks.flatten := by simp [RInv, StreamReader.init]

theorem slice_prefix {a b : Bytes} (h : a <+: b) {off n : Nat} (hn : off + n ≤ a.length) : Spec.pkgSlice a off n = Spec.pkgSlice b off n := by
  obtain ⟨c, rfl⟩ := h
  unfold Spec.pkgSlice
  rw [List.drop_append_of_le_length (by omega), List.take_append_of_le_length (by rw [List.length_drop]; omega)]

/-! ## Writing -/

theorem inflateSteps_ok (z : Inflate) (e : Option Err) (st : z.State) (ws : List Bytes)
    (h : ∀ s ∈ inflateSteps z e st ws, ∃ b, s = .write b) : e = none ∧ z.run st ws = .ok (bodyBytes (inflateSteps z e st ws)) := by
  induction ws generalizing st with
  | nil =>
    unfold inflateSteps at h ⊢
    cases e with
    | some e => obtain ⟨b, hb⟩ := h (.raise e) (by simp); simp at hb
    | none =>
      simp only at h ⊢
      cases hf : z.flush st with
      | error e => rw [hf] at h; obtain ⟨b, hb⟩ := h (.raise e) (by simp); simp at hb
      | ok b => simp [Inflate.run, hf, bodyBytes]
  | cons w ws ih =>
    unfold inflateSteps at h ⊢
    unfold Inflate.run
    rcases hf : z.feed st w with e' | ⟨st', b⟩
    · rw [hf] at h; obtain ⟨b, hb⟩ := h (.raise e') (by simp); simp at hb
    · rw [hf] at h
      simp only at h ⊢
      obtain ⟨h1, h2⟩ := ih st' (fun s hs => h s (by simp [hs]))
      refine ⟨h1, ?_⟩
      rw [h2]
      simp [bodyBytes]

theorem inflateSteps_writes (z : Inflate) (st : z.State) (ws : List Bytes) (r : Bytes) (h : z.run st ws = .ok r) :
    ∃ bs : List Bytes, inflateSteps z none st ws = bs.map .write := by
  induction ws generalizing st r with
  | nil =>
    unfold Inflate.run at h
    exact ⟨[r], by simp [inflateSteps, h]⟩
  | cons w ws ih =>
    unfold Inflate.run at h
    rcases hf : z.feed st w with e' | ⟨st', b⟩
    · rw [hf] at h; simp at h
    · rw [hf] at h
      simp only at h
      rcases hr : z.run st' ws with e' | r'
      · rw [hr] at h; simp at h
      · obtain ⟨bs, hbs⟩ := ih st' r' hr
        exact ⟨b :: bs, by simp [inflateSteps, hf, hbs]⟩

theorem bodyBytes_writes (ws : List Bytes) : bodyBytes (ws.map .write) = ws.flatten := by
  induction ws with
  | nil => rfl
  | cons w ws ih => simpa [bodyBytes] using ih

theorem pkgBody_ok {z : Inflate} {inflate : Bytes → Res Bytes} (hz : z.Decodes inflate) {c : Bool} {ws : List Bytes} {e : Option Err}
    (h : ∀ s ∈ pkgBody z c ws e, ∃ b, s = .write b) :
    e = none ∧ (if c then inflate ws.flatten else .ok ws.flatten) = .ok (bodyBytes (pkgBody z c ws e)) := by
  unfold pkgBody at h ⊢
  cases c with
  | true =>
    simp only [if_true] at h ⊢
    obtain ⟨h1, h2⟩ := inflateSteps_ok z e z.init ws h
    exact ⟨h1, by rw [← h2, hz]⟩
  | false =>
    simp only [Bool.false_eq_true, if_false] at h ⊢
    cases e with
    | some e => obtain ⟨b, hb⟩ := h (.raise e) (by simp); simp at hb
    | none => simp [bodyBytes_writes]

theorem write_ok {z : Inflate} {inflate : Bytes → Res Bytes} (hz : z.Decodes inflate) {fs : FS} {path : Str} {c : Bool} {ws : List Bytes}
    {e : Option Err} {f : WriteFaults} (h : (writeFileOrRemove fs path (pkgBody z c ws e) f).2 = .ok ()) :
    e = none ∧ ∃ b, (if c then inflate ws.flatten else .ok ws.flatten) = .ok b ∧
      (writeFileOrRemove fs path (pkgBody z c ws e) f).1 path = some (.file b) := by
  rw [writeFileOrRemove_ok_fs h]
  rw [writeFileOrRemove_result] at h
  obtain ⟨h1, h2, _⟩ := writeTry_ok h
  obtain ⟨h3, h4⟩ := pkgBody_ok hz h2
  exact ⟨h3, _, h4, h1⟩

/-! ## One package -/

theorem extractFiles_cons (env : RadsEnv) (r : StreamReader) (fs : FS) (pf : PkgFile) (pfs : List PkgFile) :
    env.extractFiles r fs (pf :: pfs) = match (r.skipTo pf.offset.toNat).1 with
      | .error e => (fs, .error e)
      | .ok () =>
        let c := (r.skipTo pf.offset.toNat).2.copy pf.size.toNat
        let w := writeFileOrRemove fs (env.dest pf) (pkgBody env.z pf.compressed c.1 c.2.1.err?) (env.faults pf.extractPath)
        match w.2 with
        | .error e => (w.1, .error e)
        | .ok () => env.extractFiles c.2.2 w.1 pfs := by
  rw [RadsEnv.extractFiles]
  rcases r.skipTo pf.offset.toNat with ⟨_ | _, r1⟩
  · rfl
  · simp only
    rcases r1.copy pf.size.toNat with ⟨ws, o, r'⟩
    simp only
    rcases writeFileOrRemove fs (env.dest pf) (pkgBody env.z pf.compressed ws o.err?) (env.faults pf.extractPath) with ⟨fs', _ | _⟩ <;> rfl

theorem err?_eq_none {r : Res Unit} (h : r.err? = none) : r = .ok () := by
  cases r with
  | error e => simp [Res.err?] at h
  | ok u => rfl

/-- One entry: what happens when it is written -/
theorem entry_ok {env : RadsEnv} {pkg : Str → Bytes} {inflate : Bytes → Res Bytes} (hz : env.z.Decodes inflate) {r : StreamReader} {data : Bytes}
    {fs : FS} {pf : PkgFile} (hr : RInv r data) (hdata : data <+: pkg pf.package)
    (h1 : (r.skipTo pf.offset.toNat).1 = .ok ())
    (h2 : (writeFileOrRemove fs (env.dest pf) (pkgBody env.z pf.compressed ((r.skipTo pf.offset.toNat).2.copy pf.size.toNat).1
      ((r.skipTo pf.offset.toNat).2.copy pf.size.toNat).2.1.err?) (env.faults pf.extractPath)).2 = .ok ()) :
    r.pos ≤ pf.offset.toNat ∧ pf.stop ≤ data.length ∧
    ((r.skipTo pf.offset.toNat).2.copy pf.size.toNat).2.2.pos = pf.stop ∧
    RInv ((r.skipTo pf.offset.toNat).2.copy pf.size.toNat).2.2 data ∧
    ∃ b, Spec.pkgContent pkg inflate pf = .ok b ∧
      (writeFileOrRemove fs (env.dest pf) (pkgBody env.z pf.compressed ((r.skipTo pf.offset.toNat).2.copy pf.size.toNat).1
        ((r.skipTo pf.offset.toNat).2.copy pf.size.toNat).2.1.err?) (env.faults pf.extractPath)).1 (env.dest pf) = some (.file b) := by
  obtain ⟨s1, s2, s3⟩ := skipTo_inv hr pf.offset.toNat
  have hle : r.pos ≤ pf.offset.toNat := by
    by_contra h
    rw [s2 (by omega)] at h1; simp at h1
  have hlen : pf.offset.toNat ≤ data.length := by
    by_contra h
    rw [s3 hle (by omega)] at h1; simp at h1
  obtain ⟨_, hpos, hr1⟩ := s1 hle hlen
  obtain ⟨he, b, hb, hw⟩ := write_ok hz h2
  have hok := err?_eq_none he
  obtain ⟨c1, c2⟩ := copy_inv hr1 pf.size.toNat
  have hstop : pf.stop ≤ data.length := by
    by_contra h
    rw [c2 (by rw [hpos]; exact h)] at hok; simp at hok
  obtain ⟨_, c4, c5, c6⟩ := c1 (by rw [hpos]; exact hstop)
  refine ⟨hle, hstop, by rw [c5, hpos]; rfl, c6, b, ?_, hw⟩
  rw [c4, hpos, slice_prefix hdata hstop] at hb
  exact hb

theorem extractFiles_spec {env : RadsEnv} {pkg : Str → Bytes} {inflate : Bytes → Res Bytes} (hz : env.z.Decodes inflate)
    (pfs : List PkgFile) (r : StreamReader) (data : Bytes) (fs : FS) (hr : RInv r data)
    (hdata : ∀ pf ∈ pfs, data <+: pkg pf.package)
    (hinj : ∀ a ∈ pfs, ∀ b ∈ pfs, env.dest a = env.dest b → a = b) :
    let o := env.extractFiles r fs pfs
    (∀ q, (∀ pf ∈ pfs, q ≠ env.dest pf) → ∀ b, o.1 q = some (.file b) ↔ fs q = some (.file b)) ∧
    ((∀ pf ∈ pfs, (env.faults pf.extractPath).remove = false) → ∀ pf ∈ pfs, ∀ b, o.1 (env.dest pf) = some (.file b) →
      fs (env.dest pf) = some (.file b) ∨ Spec.pkgContent pkg inflate pf = .ok b) ∧
    (o.2 = .ok () → (∀ pf ∈ pfs, ∃ b, o.1 (env.dest pf) = some (.file b) ∧ Spec.pkgContent pkg inflate pf = .ok b) ∧
      pfs.Pairwise (fun a b => a.stop ≤ b.offset.toNat) ∧ (∀ pf ∈ pfs, r.pos ≤ pf.offset.toNat ∧ pf.stop ≤ data.length)) := by
  induction pfs generalizing r fs with
  | nil => simp [RadsEnv.extractFiles]
  | cons pf pfs ih =>
    intro o
    have ho : o = _ := extractFiles_cons env r fs pf pfs
    rcases h1 : (r.skipTo pf.offset.toNat).1 with e | u
    · rw [h1] at ho
      simp only at ho
      rw [ho]
      exact ⟨fun _ _ _ => Iff.rfl, fun _ _ _ _ h => Or.inl h, fun h => by simp at h⟩
    · rw [h1] at ho
      simp only at ho
      set c := (r.skipTo pf.offset.toNat).2.copy pf.size.toNat with hc
      set w := writeFileOrRemove fs (env.dest pf) (pkgBody env.z pf.compressed c.1 c.2.1.err?) (env.faults pf.extractPath) with hw
      have frame : ∀ q, q ≠ env.dest pf → ∀ b, w.1 q = some (.file b) ↔ fs q = some (.file b) :=
        fun q hq b => (C04_frame fs (env.dest pf) _ _ q hq).1 b
      rcases h2 : w.2 with e | u
      · rw [h2] at ho
        simp only at ho
        rw [ho]
        refine ⟨fun q hq b => frame q (hq pf (by simp)) b, fun hf p hp b hb => ?_, fun h => by simp at h⟩
        by_cases hd : env.dest p = env.dest pf
        · rw [hd] at hb
          exact absurd hb (C04_failure fs _ _ _ e h2 (hf pf (by simp)) b)
        · exact Or.inl ((frame _ hd b).1 hb)
      · rw [h2] at ho
        simp only at ho
        obtain ⟨e1, e2, e3, e4, b0, e5, e6⟩ := entry_ok (fs := fs) hz hr (hdata pf (by simp)) h1 h2
        obtain ⟨i1, i2, i3⟩ := ih c.2.2 w.1 e4 (fun p hp => hdata p (by simp [hp]))
          (fun a ha b hb => hinj a (by simp [ha]) b (by simp [hb]))
        rw [ho]
        refine ⟨?_, ?_, ?_⟩
        · intro q hq b
          rw [i1 q (fun p hp => hq p (by simp [hp])) b]
          exact frame q (hq pf (by simp)) b
        · intro hf p hp b hb
          by_cases hmem : p ∈ pfs
          · rcases i2 (fun x hx => hf x (by simp [hx])) p hmem b hb with h | h
            · by_cases hd : env.dest p = env.dest pf
              · have : p = pf := hinj p hp pf (by simp) hd
                subst this
                rw [e6] at h
                cases h
                exact Or.inr e5
              · exact Or.inl ((frame _ hd b).1 h)
            · exact Or.inr h
          · have hpf : p = pf := by
              rcases List.mem_cons.1 hp with h | h
              · exact h
              · exact absurd h hmem
            subst hpf
            have hne : ∀ x ∈ pfs, env.dest p ≠ env.dest x := by
              intro x hx he
              exact hmem (hinj p (by simp) x (by simp [hx]) he ▸ hx)
            have := (i1 _ hne b).1 hb
            rw [e6] at this
            cases this
            exact Or.inr e5
        · intro hok
          obtain ⟨j1, j2, j3⟩ := i3 hok
          refine ⟨?_, ?_, ?_⟩
          · intro p hp
            by_cases hmem : p ∈ pfs
            · exact j1 p hmem
            · have hpf : p = pf := by
                rcases List.mem_cons.1 hp with h | h
                · exact h
                · exact absurd h hmem
              subst hpf
              have hne : ∀ x ∈ pfs, env.dest p ≠ env.dest x := by
                intro x hx he
                exact hmem (hinj p (by simp) x (by simp [hx]) he ▸ hx)
              exact ⟨b0, (i1 _ hne b0).2 e6, e5⟩
          · rw [List.pairwise_cons]
            refine ⟨fun x hx => ?_, j2⟩
            have := (j3 x hx).1
            rw [e3] at this
            exact this
          · intro p hp
            rcases List.mem_cons.1 hp with rfl | hp
            · exact ⟨e1, e2⟩
            · obtain ⟨k1, k2⟩ := j3 p hp
              rw [e3] at k1
              refine ⟨?_, k2⟩
              unfold PkgFile.stop at k1
              omega

/-! ## All packages -/

theorem extractPackages_spec {env : RadsEnv} {pkg : Str → Bytes} {inflate : Bytes → Res Bytes} (hz : env.z.Decodes inflate)
    (hs : env.Serves pkg) (groups : List (Str × List PkgFile)) (fs : FS)
    (hg : ∀ g ∈ groups, ∀ pf ∈ g.2, pf.package = g.1)
    (hinj : ∀ g ∈ groups, ∀ a ∈ g.2, ∀ g' ∈ groups, ∀ b ∈ g'.2, env.dest a = env.dest b → a = b) :
    let o := env.extractPackages fs groups
    (∀ q, (∀ g ∈ groups, ∀ pf ∈ g.2, q ≠ env.dest pf) → ∀ b, o.1 q = some (.file b) ↔ fs q = some (.file b)) ∧
    ((∀ p, (env.faults p).remove = false) → ∀ g ∈ groups, ∀ pf ∈ g.2, ∀ b, o.1 (env.dest pf) = some (.file b) →
      fs (env.dest pf) = some (.file b) ∨ Spec.pkgContent pkg inflate pf = .ok b) ∧
    (o.2 = .ok () → (∀ g ∈ groups, ∀ pf ∈ g.2, ∃ b, o.1 (env.dest pf) = some (.file b) ∧ Spec.pkgContent pkg inflate pf = .ok b) ∧
      (∀ g ∈ groups, (sortByOffset g.2).Pairwise (fun a b => a.stop ≤ b.offset.toNat)) ∧
      (∀ g ∈ groups, ∀ pf ∈ g.2, pf.stop ≤ (pkg g.1).length)) := by
  induction groups generalizing fs with
  | nil => simp [RadsEnv.extractPackages]
  | cons g groups ih =>
    obtain ⟨p, pfs⟩ := g
    intro o
    have ho : o = env.extractPackages fs ((p, pfs) :: groups) := rfl
    rw [RadsEnv.extractPackages] at ho
    rcases hst : env.stream (env.projectPath ++ "/packages/files/".toList ++ p) with e | chunks
    · rw [hst] at ho
      simp only at ho
      rw [ho]
      exact ⟨fun _ _ _ => Iff.rfl, fun _ _ _ _ _ _ h => Or.inl h, fun h => by simp at h⟩
    · rw [hst] at ho
      simp only at ho
      have hperm : ∀ x, x ∈ sortByOffset pfs ↔ x ∈ pfs := fun x => (List.perm_insertionSort _ pfs).mem_iff
      obtain ⟨f1, f2, f3⟩ := extractFiles_spec (pkg := pkg) hz (sortByOffset pfs) (.init chunks) chunks.flatten fs (RInv_init chunks)
        (fun pf hpf => by rw [hg (p, pfs) (by simp) pf ((hperm pf).1 hpf)]; exact hs p chunks hst)
        (fun a ha b hb => hinj (p, pfs) (by simp) a ((hperm a).1 ha) (p, pfs) (by simp) b ((hperm b).1 hb))
      rcases hx : env.extractFiles (.init chunks) fs (sortByOffset pfs) with ⟨fs1, r⟩
      rw [hx] at ho f1 f2 f3
      simp only at f1 f2 f3
      rcases r with e | u
      · simp only at ho
        rw [ho]
        refine ⟨fun q hq b => f1 q (fun pf hpf => hq (p, pfs) (by simp) pf ((hperm pf).1 hpf)) b, ?_, fun h => by simp at h⟩
        intro hf g hgm pf hpf b hb
        by_cases hmem : pf ∈ pfs
        · exact f2 (fun x _ => hf _) pf ((hperm pf).2 hmem) b hb
        · left
          refine (f1 _ ?_ b).1 hb
          intro x hxm he
          have := hinj g hgm pf hpf (p, pfs) (by simp) x ((hperm x).1 hxm) he
          subst this
          exact hmem ((hperm pf).1 hxm)
      · simp only at ho
        obtain ⟨i1, i2, i3⟩ := ih fs1 (fun g' hg' => hg g' (by simp [hg']))
          (fun g' hg' a ha g'' hg'' b hb => hinj g' (by simp [hg']) a ha g'' (by simp [hg'']) b hb)
        rw [ho]
        have hne : ∀ pf ∈ pfs, (¬ ∃ g ∈ groups, pf ∈ g.2) → ∀ g ∈ groups, ∀ x ∈ g.2, env.dest pf ≠ env.dest x := by
          intro pf hpf hn g hgm x hxm he
          have := hinj (p, pfs) (by simp) pf hpf g (by simp [hgm]) x hxm he
          subst this
          exact hn ⟨g, hgm, hxm⟩
        refine ⟨?_, ?_, ?_⟩
        · intro q hq b
          rw [i1 q (fun g' hg' => hq g' (by simp [hg'])) b]
          exact f1 q (fun pf hpf => hq (p, pfs) (by simp) pf ((hperm pf).1 hpf)) b
        · intro hf g hgm pf hpf b hb
          have hstep : fs1 (env.dest pf) = some (.file b) → fs (env.dest pf) = some (.file b) ∨ Spec.pkgContent pkg inflate pf = .ok b := by
            intro h
            by_cases hmem : pf ∈ pfs
            · exact f2 (fun x _ => hf _) pf ((hperm pf).2 hmem) b h
            · left
              refine (f1 _ ?_ b).1 h
              intro x hxm he
              have := hinj g hgm pf hpf (p, pfs) (by simp) x ((hperm x).1 hxm) he
              subst this
              exact hmem ((hperm pf).1 hxm)
          by_cases hin : ∃ g ∈ groups, pf ∈ g.2
          · obtain ⟨g', hg', hpf'⟩ := hin
            rcases i2 hf g' hg' pf hpf' b hb with h | h
            · exact hstep h
            · exact Or.inr h
          · rcases List.mem_cons.1 hgm with rfl | hgm'
            · exact hstep ((i1 _ (hne pf hpf hin) b).1 hb)
            · exact absurd ⟨g, hgm', hpf⟩ hin
        · intro hok
          obtain ⟨j1, j2, j3⟩ := i3 hok
          obtain ⟨k1, k2, k3⟩ := f3 rfl
          refine ⟨?_, ?_, ?_⟩
          · intro g hgm pf hpf
            by_cases hin : ∃ g ∈ groups, pf ∈ g.2
            · obtain ⟨g', hg', hpf'⟩ := hin
              exact j1 g' hg' pf hpf'
            · rcases List.mem_cons.1 hgm with rfl | hgm'
              · obtain ⟨b, hb, hc⟩ := k1 pf ((hperm pf).2 hpf)
                exact ⟨b, (i1 _ (hne pf hpf hin) b).2 hb, hc⟩
              · exact absurd ⟨g, hgm', hpf⟩ hin
          · intro g hgm
            rcases List.mem_cons.1 hgm with rfl | hgm'
            · exact k2
            · exact j2 g hgm'
          · intro g hgm pf hpf
            rcases List.mem_cons.1 hgm with rfl | hgm'
            · exact ((k3 pf ((hperm pf).2 hpf)).2).trans (hs p chunks hst).length_le
            · exact j3 g hgm' pf hpf

theorem groupPackages_get (files : List PkgFile) (d : Dict Str (List PkgFile)) (p : Str) :
    ((files.foldl (fun d pf => d.set pf.package (((d.get? pf.package).getD []) ++ [pf])) d).get? p) =
      if files.filter (fun pf => pf.package = p) = [] then d.get? p
      else some ((d.get? p).getD [] ++ files.filter fun pf => pf.package = p) := by
  induction files generalizing d with
  | nil => simp
  | cons x files ih =>
    rw [List.foldl_cons, ih, Dict.get?_set, List.filter_cons]
    by_cases hx : x.package = p
    · subst hx
      by_cases hf : files.filter (fun pf => pf.package = x.package) = []
      · simp [hf]
      · simp [hf]
    · have hx' : ¬ p = x.package := Ne.symm hx
      simp [hx, hx']

theorem groupPackages_mem (files : List PkgFile) (p : Str) (l : List PkgFile) :
    (p, l) ∈ groupPackages files ↔ l = files.filter (fun pf => pf.package = p) ∧ l ≠ [] := by
  have hwf : Dict.WF (groupPackages files) := by
    unfold groupPackages
    generalize hd : ([] : Dict Str (List PkgFile)) = d
    have : Dict.WF d := by rw [← hd]; exact .nil
    clear hd
    induction files generalizing d with
    | nil => exact this
    | cons x files ih => exact ih _ (this.set _ _)
  rw [Dict.mem_iff_get? hwf, groupPackages, groupPackages_get]
  by_cases hf : files.filter (fun pf => pf.package = p) = []
  · rw [if_pos hf, hf]
    constructor
    · intro h; simp [Dict.get?] at h
    · rintro ⟨h1, h2⟩; exact absurd h1 h2
  · rw [if_neg hf]
    simp only [Dict.get?, Option.getD_none, List.nil_append, Option.some.injEq]
    constructor
    · rintro rfl; exact ⟨rfl, hf⟩
    · rintro ⟨rfl, _⟩; rfl

theorem groupPackages_files (files : List PkgFile) (pf : PkgFile) :
    (∃ g ∈ groupPackages files, pf ∈ g.2) ↔ pf ∈ files := by
  constructor
  · rintro ⟨⟨p, l⟩, hg, hpf⟩
    obtain ⟨rfl, _⟩ := (groupPackages_mem files p l).1 hg
    exact (List.mem_filter.1 hpf).1
  · intro h
    have hm : pf ∈ files.filter (fun x => x.package = pf.package) := List.mem_filter.2 ⟨h, by simp⟩
    exact ⟨(pf.package, _), (groupPackages_mem _ _ _).2 ⟨rfl, List.ne_nil_of_mem hm⟩, hm⟩

/-- Paths of the manifest are relative. -/
def RelativePaths (pfs : List PkgFile) : Prop := ∀ pf ∈ pfs, ¬ ∃ r, pf.extractPath = '/' :: r

theorem dest_inj {env : RadsEnv} {a b : PkgFile} (ha : ¬ ∃ r, a.extractPath = '/' :: r) (hb : ¬ ∃ r, b.extractPath = '/' :: r)
    (h : env.dest a = env.dest b) : a.extractPath = b.extractPath := by
  have key : ∀ {p : Str}, (¬ ∃ r, p = '/' :: r) → startsWith p ['/'] = false := by
    intro p hp
    rw [Bool.eq_false_iff]
    intro h
    obtain ⟨t, ht⟩ := startsWith_iff.1 h
    exact hp ⟨t, ht⟩
  simp only [RadsEnv.dest, storageFspath, pjoin, key ha, key hb, Bool.false_eq_true, if_false] at h
  split at h
  · exact List.append_cancel_left h
  · exact List.append_cancel_left h

theorem selectFiles_mem {pfs : List PkgFile} {paths : Option (List Str)} {files : List PkgFile}
    (h : selectFiles (packageFiles pfs) paths = .ok files) :
    ∀ pf ∈ files, pf ∈ pfs ∧ (packageFiles pfs).get? pf.extractPath = some pf := by
  have key : ∀ p pf, (packageFiles pfs).get? p = some pf → pf ∈ pfs ∧ pf.extractPath = p := by
    intro p pf hg
    rw [C43_files] at hg
    refine ⟨List.mem_reverse.1 (List.mem_of_find?_eq_some hg), ?_⟩
    have := List.find?_some hg
    simpa using this
  have key2 : ∀ p pf, (packageFiles pfs).get? p = some pf → pf ∈ pfs ∧ (packageFiles pfs).get? pf.extractPath = some pf := by
    intro p pf hg
    obtain ⟨h1, h2⟩ := key p pf hg
    exact ⟨h1, by rw [h2, hg]⟩
  cases paths with
  | none =>
    simp only [selectFiles, pure, Except.pure, Except.ok.injEq] at h
    subst h
    intro pf hpf
    obtain ⟨⟨p, _⟩, hm, rfl⟩ := List.mem_map.1 hpf
    exact key2 p _ (Dict.get?_of_mem (Dict.WF.ofList _) hm)
  | some paths =>
    simp only [selectFiles] at h
    induction paths generalizing files with
    | nil => simp [pure, Except.pure] at h; subst h; simp
    | cons p paths ih =>
      rw [List.mapM_cons] at h
      rcases hg : (packageFiles pfs).get? p with _ | pf
      · simp [Dict.get, hg, bind, Except.bind] at h
      · rcases hm : paths.mapM (packageFiles pfs).get with e | l
        · rw [hm] at h; simp [Dict.get, hg, bind, Except.bind] at h
        · rw [hm] at h
          simp [Dict.get, hg, bind, Except.bind, pure, Except.pure] at h
          subst h
          intro x hx
          rcases List.mem_cons.1 hx with rfl | hx
          · exact key2 p _ hg
          · exact ih hm x hx

theorem select_inj {env : RadsEnv} {pfs : List PkgFile} (hrel : RelativePaths pfs) {a b : PkgFile}
    (ha : a ∈ pfs ∧ (packageFiles pfs).get? a.extractPath = some a) (hb : b ∈ pfs ∧ (packageFiles pfs).get? b.extractPath = some b)
    (h : env.dest a = env.dest b) : a = b := by
  have := dest_inj (hrel a ha.1) (hrel b hb.1) h
  have h1 := ha.2
  rw [this, hb.2] at h1
  exact (Option.some.inj h1).symm

theorem extract_spec {env : RadsEnv} {pkg : Str → Bytes} {inflate : Bytes → Res Bytes} (hz : env.z.Decodes inflate)
    (hs : env.Serves pkg) (fs : FS) (pfs : List PkgFile) (hrel : RelativePaths pfs) (paths : Option (List Str)) (files : List PkgFile)
    (hsel : selectFiles (packageFiles pfs) paths = .ok files) :
    let todo := files.filter fun pf => !fs.isFile (env.dest pf)
    let o := env.extract fs pfs paths
    (∀ q, (∀ pf ∈ todo, q ≠ env.dest pf) → ∀ b, o.1 q = some (.file b) ↔ fs q = some (.file b)) ∧
    ((∀ p, (env.faults p).remove = false) → ∀ pf ∈ todo, ∀ b, o.1 (env.dest pf) = some (.file b) → Spec.pkgContent pkg inflate pf = .ok b) ∧
    (o.2 = .ok () → (∀ pf ∈ todo, ∃ b, o.1 (env.dest pf) = some (.file b) ∧ Spec.pkgContent pkg inflate pf = .ok b) ∧
      (∀ p, (sortByOffset (todo.filter fun pf => pf.package = p)).Pairwise (fun a b => a.stop ≤ b.offset.toNat)) ∧
      (∀ pf ∈ todo, pf.stop ≤ (pkg pf.package).length)) := by
  intro todo o
  have ho : o = env.extractPackages fs (groupPackages todo) := by
    show env.extract fs pfs paths = _
    rw [RadsEnv.extract, hsel]
  have hmem := selectFiles_mem hsel
  have htodo : ∀ pf ∈ todo, pf ∈ files := fun pf h => (List.mem_filter.1 h).1
  have hg : ∀ g ∈ groupPackages todo, ∀ pf ∈ g.2, pf.package = g.1 ∧ pf ∈ todo := by
    rintro ⟨p, l⟩ hgm pf hpf
    obtain ⟨rfl, _⟩ := (groupPackages_mem todo p l).1 hgm
    have := List.mem_filter.1 hpf
    exact ⟨by simpa using this.2, this.1⟩
  obtain ⟨h1, h2, h3⟩ := extractPackages_spec (pkg := pkg) hz hs (groupPackages todo) fs (fun g hgm pf hpf => (hg g hgm pf hpf).1)
    (fun g hgm a ha g' hgm' b hb => select_inj hrel (hmem a (htodo a (hg g hgm a ha).2)) (hmem b (htodo b (hg g' hgm' b hb).2)))
  rw [ho]
  refine ⟨fun q hq => h1 q (fun g hgm pf hpf => hq pf (hg g hgm pf hpf).2), ?_, ?_⟩
  · intro hf pf hpf b hb
    obtain ⟨g, hgm, hpg⟩ := (groupPackages_files todo pf).2 hpf
    rcases h2 hf g hgm pf hpg b hb with h | h
    · have := (List.mem_filter.1 hpf).2
      simp [FS.isFile, h] at this
    · exact h
  · intro hok
    obtain ⟨j1, j2, j3⟩ := h3 hok
    refine ⟨?_, ?_, ?_⟩
    · intro pf hpf
      obtain ⟨g, hgm, hpg⟩ := (groupPackages_files todo pf).2 hpf
      exact j1 g hgm pf hpg
    · intro p
      by_cases hf : todo.filter (fun pf => pf.package = p) = []
      · rw [hf]; simp [sortByOffset]
      · exact j2 (p, _) ((groupPackages_mem todo p _).2 ⟨rfl, hf⟩)
    · intro pf hpf
      obtain ⟨g, hgm, hpg⟩ := (groupPackages_files todo pf).2 hpf
      have := j3 g hgm pf hpg
      rwa [← (hg g hgm pf hpg).1] at this

/-! ## The property -/

/-- After a successful extraction, each selected file that was not there holds exactly its part of the package
(decompressed for a compressed entry), each selected file that was there is untouched, and no other file is created,
modified or removed. -/
theorem C41_success {env : RadsEnv} {pkg : Str → Bytes} {inflate : Bytes → Res Bytes} (hz : env.z.Decodes inflate)
    (hs : env.Serves pkg) (fs fs' : FS) (pfs : List PkgFile) (hrel : RelativePaths pfs) (paths : Option (List Str)) (files : List PkgFile)
    (hsel : selectFiles (packageFiles pfs) paths = .ok files) (h : env.extract fs pfs paths = (fs', .ok ())) :
    (∀ pf ∈ files, fs.isFile (env.dest pf) = false → ∃ b, Spec.pkgContent pkg inflate pf = .ok b ∧ fs' (env.dest pf) = some (.file b)) ∧
    (∀ pf ∈ files, fs.isFile (env.dest pf) = true → fs' (env.dest pf) = fs (env.dest pf)) ∧
    (∀ q, (∀ pf ∈ files, q ≠ env.dest pf) → ∀ b, fs' q = some (.file b) ↔ fs q = some (.file b)) := by
  obtain ⟨h1, _, h3⟩ := extract_spec hz hs fs pfs hrel paths files hsel
  rw [h] at h1 h3
  simp only at h1 h3
  obtain ⟨j1, _, _⟩ := h3 trivial
  refine ⟨?_, ?_, ?_⟩
  · intro pf hpf hn
    obtain ⟨b, hb, hc⟩ := j1 pf (List.mem_filter.2 ⟨hpf, by simp [hn]⟩)
    exact ⟨b, hc, hb⟩
  · intro pf hpf hy
    have hne : ∀ x ∈ files.filter (fun pf => !fs.isFile (env.dest pf)), env.dest pf ≠ env.dest x := by
      intro x hx he
      have := (List.mem_filter.1 hx).2
      rw [← he, hy] at this
      simp at this
    rcases hd : fs (env.dest pf) with _ | (b | _)
    · simp [FS.isFile, hd] at hy
    · exact (h1 _ hne b).2 hd
    · simp [FS.isFile, hd] at hy
  · intro q hq
    exact h1 q (fun pf hpf => hq pf (List.mem_filter.1 hpf).1)

/-- Whatever goes wrong (network, disk, corrupt data), every file created holds exactly its part of the package, as
long as partial files can be removed; files that were there are untouched. -/
theorem C41_failure {env : RadsEnv} {pkg : Str → Bytes} {inflate : Bytes → Res Bytes} (hz : env.z.Decodes inflate)
    (hs : env.Serves pkg) (hrm : ∀ p, (env.faults p).remove = false)
    (fs : FS) (pfs : List PkgFile) (hrel : RelativePaths pfs) (paths : Option (List Str)) (q : Str) (b : Bytes) :
    (fs q = some (.file b) → (env.extract fs pfs paths).1 q = some (.file b)) ∧
    ((env.extract fs pfs paths).1 q = some (.file b) → fs q = some (.file b) ∨
      ∃ pf ∈ pfs, (packageFiles pfs).get? pf.extractPath = some pf ∧ q = env.dest pf ∧ Spec.pkgContent pkg inflate pf = .ok b) := by
  rcases hsel : selectFiles (packageFiles pfs) paths with e | files
  · have : env.extract fs pfs paths = (fs, .error e) := by rw [RadsEnv.extract, hsel]
    rw [this]
    exact ⟨id, Or.inl⟩
  · obtain ⟨h1, h2, _⟩ := extract_spec hz hs fs pfs hrel paths files hsel
    by_cases hq : ∃ pf ∈ files.filter (fun pf => !fs.isFile (env.dest pf)), q = env.dest pf
    · obtain ⟨pf, hpf, rfl⟩ := hq
      have hf := List.mem_filter.1 hpf
      refine ⟨fun h => ?_, fun h => Or.inr ?_⟩
      · simp [FS.isFile, h] at hf
      · obtain ⟨m1, m2⟩ := selectFiles_mem hsel pf hf.1
        exact ⟨pf, m1, m2, rfl, h2 hrm pf hpf b h⟩
    · have hne : ∀ pf ∈ files.filter (fun pf => !fs.isFile (env.dest pf)), q ≠ env.dest pf :=
        fun pf hpf he => hq ⟨pf, hpf, he⟩
      exact ⟨(h1 q hne b).2, fun h => Or.inl ((h1 q hne b).1 h)⟩

/-- Any history of extractions of any subsets, each with its own way of failing: starting with no file at the
destinations, every file found there holds exactly its part of the package. -/
theorem C41_history {pkg : Str → Bytes} {inflate : Bytes → Res Bytes} (base : Str) (pfs : List PkgFile) (hrel : RelativePaths pfs)
    (runs : List (RadsEnv × Option (List Str)))
    (hruns : ∀ x ∈ runs, x.1.base = base ∧ x.1.z.Decodes inflate ∧ x.1.Serves pkg ∧ ∀ p, (x.1.faults p).remove = false)
    (fs : FS) (hfs : ∀ pf ∈ pfs, fs.isFile (storageFspath base pf.extractPath) = false) :
    ∀ pf, (packageFiles pfs).get? pf.extractPath = some pf → ∀ b,
      (runs.foldl (fun fs x => (x.1.extract fs pfs x.2).1) fs) (storageFspath base pf.extractPath) = some (.file b) →
      Spec.pkgContent pkg inflate pf = .ok b := by
  have key : ∀ fs : FS, (∀ pf, (packageFiles pfs).get? pf.extractPath = some pf → ∀ b,
      fs (storageFspath base pf.extractPath) = some (.file b) → Spec.pkgContent pkg inflate pf = .ok b) →
      ∀ pf, (packageFiles pfs).get? pf.extractPath = some pf → ∀ b,
      (runs.foldl (fun fs x => (x.1.extract fs pfs x.2).1) fs) (storageFspath base pf.extractPath) = some (.file b) →
      Spec.pkgContent pkg inflate pf = .ok b := by
    clear hfs fs
    induction runs with
    | nil => intro fs h; exact h
    | cons x runs ih =>
      intro fs h
      rw [List.foldl_cons]
      apply ih (fun y hy => hruns y (by simp [hy]))
      obtain ⟨h1, h2, h3, h4⟩ := hruns x (by simp)
      intro pf hpf b hb
      rcases (C41_failure h2 h3 h4 fs pfs hrel x.2 _ b).2 hb with h' | ⟨pf', hm, hg, hd, hc⟩
      · exact h pf hpf b h'
      · have hmem : pf ∈ pfs := by
          rw [C43_files] at hpf
          exact List.mem_reverse.1 (List.mem_of_find?_eq_some hpf)
        have hd' : x.1.dest pf = x.1.dest pf' := by rw [RadsEnv.dest, h1]; exact hd
        have := select_inj hrel ⟨hmem, hpf⟩ ⟨hm, hg⟩ hd'
        rw [this]; exact hc
  refine key fs ?_
  intro pf hpf b hb
  have hmem : pf ∈ pfs := by
    rw [C43_files] at hpf
    exact List.mem_reverse.1 (List.mem_of_find?_eq_some hpf)
  have := hfs pf hmem
  simp [FS.isFile, hb] at this

theorem sortByOffset_pairwise_iff (l : List PkgFile) (hnn : ∀ pf ∈ l, 0 ≤ pf.offset) :
    (sortByOffset l).Pairwise (fun a b => a.stop ≤ b.offset.toNat) ↔
      l.Pairwise fun a b => a.stop ≤ b.offset.toNat ∨ (b.stop ≤ a.offset.toNat ∧ b.offset.toNat < a.offset.toNat) := by
  induction l with
  | nil => simp [sortByOffset]
  | cons x l ih =>
    have ih := ih (fun pf h => hnn pf (by simp [h]))
    have hmem : ∀ y, y ∈ sortByOffset l ↔ y ∈ l := fun y => (List.perm_insertionSort _ l).mem_iff
    have hx0 := hnn x (by simp)
    rw [List.pairwise_cons, ← ih]
    show (List.orderedInsert _ x (sortByOffset l)).Pairwise _ ↔ _
    have htot : Std.Total fun a b : PkgFile => a.offset ≤ b.offset := ⟨fun a b => by omega⟩
    have htr : IsTrans PkgFile fun a b => a.offset ≤ b.offset := ⟨fun a b c h1 h2 => by omega⟩
    have hsorted : (sortByOffset l).Pairwise fun a b => a.offset ≤ b.offset := List.pairwise_insertionSort _ l
    have hgen : ∀ m : List PkgFile, m.Pairwise (fun a b => a.offset ≤ b.offset) → (∀ y ∈ m, 0 ≤ y.offset) →
        ((List.orderedInsert (fun a b : PkgFile => a.offset ≤ b.offset) x m).Pairwise (fun a b => a.stop ≤ b.offset.toNat) ↔
          (∀ y ∈ m, x.stop ≤ y.offset.toNat ∨ (y.stop ≤ x.offset.toNat ∧ y.offset.toNat < x.offset.toNat)) ∧
          m.Pairwise (fun a b => a.stop ≤ b.offset.toNat)) := by
      intro m
      induction m with
      | nil => simp
      | cons y m ihm =>
        intro hs hn
        have hs' := List.pairwise_cons.1 hs
        have hy0 := hn y (by simp)
        rw [List.orderedInsert]
        split
        · rename_i hle
          rw [List.pairwise_cons]
          constructor
          · rintro ⟨h1, h2⟩
            exact ⟨fun z hz => Or.inl (h1 z hz), h2⟩
          · rintro ⟨h1, h2⟩
            refine ⟨fun z hz => ?_, h2⟩
            rcases h1 z hz with h | ⟨h, h'⟩
            · exact h
            · have : x.offset ≤ z.offset := by
                rcases List.mem_cons.1 hz with rfl | hz
                · exact hle
                · exact le_trans hle (hs'.1 z hz)
              omega
        · rename_i hle
          rw [List.pairwise_cons, ihm hs'.2 (fun z hz => hn z (by simp [hz])), List.pairwise_cons]
          constructor
          · rintro ⟨h1, h2, h3⟩
            refine ⟨fun z hz => ?_, fun z hz => h1 z (by rw [List.mem_orderedInsert]; exact Or.inr hz), h3⟩
            rcases List.mem_cons.1 hz with rfl | hz
            · right
              exact ⟨h1 x (by rw [List.mem_orderedInsert]; exact Or.inl rfl), by omega⟩
            · exact h2 z hz
          · rintro ⟨h1, h2, h3⟩
            refine ⟨fun z hz => ?_, fun z hz => h1 z (by simp [hz]), h3⟩
            rw [List.mem_orderedInsert] at hz
            rcases hz with rfl | hz
            · rcases h1 y (by simp) with h | ⟨h, _⟩
              · unfold PkgFile.stop at h; omega
              · exact h
            · exact h2 z hz
    rw [hgen (sortByOffset l) hsorted (fun y hy => hnn y (by simp [(hmem y).1 hy]))]
    simp only [hmem]

theorem pairwise_filter_package (l : List PkgFile) (R : PkgFile → PkgFile → Prop) :
    (∀ p, (l.filter fun pf => pf.package = p).Pairwise R) ↔ l.Pairwise fun a b => a.package = b.package → R a b := by
  induction l with
  | nil => simp
  | cons x l ih =>
    rw [List.pairwise_cons, ← ih]
    constructor
    · intro h
      refine ⟨fun y hy he => ?_, fun p => ?_⟩
      · have := h y.package
        rw [List.filter_cons, if_pos (by simp [he]), List.pairwise_cons] at this
        exact this.1 y (List.mem_filter.2 ⟨hy, by simp⟩)
      · have := h p
        rw [List.filter_cons] at this
        split at this
        · exact (List.pairwise_cons.1 this).2
        · exact this
    · rintro ⟨h1, h2⟩ p
      rw [List.filter_cons]
      split
      · rename_i hp
        rw [List.pairwise_cons]
        refine ⟨fun y hy => ?_, h2 p⟩
        obtain ⟨hy1, hy2⟩ := List.mem_filter.1 hy
        exact h1 y hy1 (by simp at hp hy2; rw [hp, hy2])
      · exact h2 p

/-- Overlapping entries raise an error: an extraction can only succeed if the entries to extract do not overlap and are
all within their package. -/
theorem C41_overlap {env : RadsEnv} {pkg : Str → Bytes} {inflate : Bytes → Res Bytes} (hz : env.z.Decodes inflate)
    (hs : env.Serves pkg) (fs fs' : FS) (pfs : List PkgFile) (hrel : RelativePaths pfs) (hnn : ∀ pf ∈ pfs, 0 ≤ pf.offset)
    (paths : Option (List Str)) (files : List PkgFile)
    (hsel : selectFiles (packageFiles pfs) paths = .ok files) (h : env.extract fs pfs paths = (fs', .ok ())) :
    Spec.NoOverlap (files.filter fun pf => !fs.isFile (env.dest pf)) ∧
    ∀ pf ∈ files, fs.isFile (env.dest pf) = false → pf.stop ≤ (pkg pf.package).length := by
  obtain ⟨_, _, h3⟩ := extract_spec hz hs fs pfs hrel paths files hsel
  rw [h] at h3
  obtain ⟨_, j2, j3⟩ := h3 rfl
  refine ⟨?_, fun pf hpf hn => j3 pf (List.mem_filter.2 ⟨hpf, by simp [hn]⟩)⟩
  unfold Spec.NoOverlap
  rw [← pairwise_filter_package]
  intro p
  rw [← sortByOffset_pairwise_iff]
  · exact j2 p
  · intro pf hpf
    exact hnn pf (selectFiles_mem hsel pf (List.mem_filter.1 (List.mem_filter.1 hpf).1).1).1

/-! ## Without faults -/

/-- The destinations of files can be created: none is a directory, no ancestor of one is a file or the destination of
another one. -/
structure Creatable (env : RadsEnv) (fs : FS) (files : List PkgFile) : Prop where
  notDir : ∀ pf ∈ files, fs (env.dest pf) ≠ some .dir
  parents : ∀ pf ∈ files, ∀ d ∈ dirPrefixes (dirname (env.dest pf)), ∀ b, fs d ≠ some (.file b)
  apart : ∀ a ∈ files, ∀ b ∈ files, env.dest a ∉ dirPrefixes (dirname (env.dest b))
  named : ∀ pf ∈ files, dirname (env.dest pf) ≠ [] ∧ basename (env.dest pf) ≠ []

theorem Creatable.write {env : RadsEnv} {fs : FS} {files : List PkgFile} (h : Creatable env fs files) {a : PkgFile} (ha : a ∈ files)
    (body : List BodyStep) (f : WriteFaults) (hok : (writeFileOrRemove fs (env.dest a) body f).2 = .ok ()) :
    Creatable env (writeFileOrRemove fs (env.dest a) body f).1 files where
  notDir pf hpf := by
    by_cases hd : env.dest pf = env.dest a
    · rw [hd, writeFileOrRemove_ok_fs hok]
      rw [writeFileOrRemove_result] at hok
      rw [(writeTry_ok hok).1]
      simp
    · rcases writeFileOrRemove_touches fs (env.dest a) body f _ hd with h' | ⟨h', _, _⟩
      · rw [h']; exact h.notDir pf hpf
      · exact absurd h' (h.apart pf hpf a ha)
  parents pf hpf d hd b := by
    have hne : d ≠ env.dest a := fun he => h.apart a ha pf hpf (he ▸ hd)
    rw [ne_eq, (C04_frame fs (env.dest a) body f d hne).1 b]
    exact h.parents pf hpf d hd b
  apart := h.apart
  named := h.named

theorem extractFiles_complete {env : RadsEnv} {pkg : Str → Bytes} {inflate : Bytes → Res Bytes} (hz : env.z.Decodes inflate)
    (hf : ∀ p, env.faults p = {}) (all pfs : List PkgFile) (hsub : ∀ pf ∈ pfs, pf ∈ all) (r : StreamReader) (data : Bytes) (fs : FS) (hr : RInv r data)
    (hdata : ∀ pf ∈ pfs, pkg pf.package = data) (hpos : ∀ pf ∈ pfs, r.pos ≤ pf.offset.toNat ∧ pf.stop ≤ data.length)
    (hov : pfs.Pairwise fun a b => a.stop ≤ b.offset.toNat) (hcon : ∀ pf ∈ pfs, ∃ b, Spec.pkgContent pkg inflate pf = .ok b)
    (hcr : Creatable env fs all) :
    (env.extractFiles r fs pfs).2 = .ok () ∧ Creatable env (env.extractFiles r fs pfs).1 all := by
  induction pfs generalizing r fs with
  | nil => exact ⟨rfl, hcr⟩
  | cons pf pfs ih =>
    obtain ⟨p1, p2⟩ := hpos pf (by simp)
    have hoff : pf.offset.toNat ≤ data.length := by unfold PkgFile.stop at p2; omega
    obtain ⟨s1, s2, s3⟩ := (skipTo_inv hr pf.offset.toNat).1 p1 hoff
    obtain ⟨c1, c2, c3, c4⟩ := (copy_inv s3 pf.size.toNat).1 (by rw [s2]; exact p2)
    rw [extractFiles_cons, s1]
    simp only
    have hbody : ∃ bs : List Bytes, pkgBody env.z pf.compressed ((r.skipTo pf.offset.toNat).2.copy pf.size.toNat).1
        ((r.skipTo pf.offset.toNat).2.copy pf.size.toNat).2.1.err? = bs.map .write := by
      rw [c1]
      obtain ⟨b, hb⟩ := hcon pf (by simp)
      unfold Spec.pkgContent at hb
      cases hc : pf.compressed with
      | false => exact ⟨_, by simp [pkgBody, Res.err?]; rfl⟩
      | true =>
        simp only [hc, if_true] at hb
        obtain ⟨bs, hbs⟩ := inflateSteps_writes env.z env.z.init ((r.skipTo pf.offset.toNat).2.copy pf.size.toNat).1 b (by
          rw [hz, c2, s2, ← hdata pf (by simp)]; exact hb)
        exact ⟨bs, by simp [pkgBody, Res.err?, hbs]⟩
    obtain ⟨bs, hbs⟩ := hbody
    have hmem := hsub pf (by simp)
    have hw : (writeFileOrRemove fs (env.dest pf) (pkgBody env.z pf.compressed ((r.skipTo pf.offset.toNat).2.copy pf.size.toNat).1
        ((r.skipTo pf.offset.toNat).2.copy pf.size.toNat).2.1.err?) (env.faults pf.extractPath)).2 = .ok () := by
      rw [hbs, hf]
      exact C04_no_fault fs _ bs (hcr.named pf hmem).1 (hcr.parents pf hmem) (hcr.notDir pf hmem) (hcr.named pf hmem).2
    have hov' := List.pairwise_cons.1 hov
    rw [hw]
    simp only
    apply ih
    · exact fun x hx => hsub x (by simp [hx])
    · exact c4
    · exact fun x hx => hdata x (by simp [hx])
    · intro x hx
      rw [c3, s2]
      exact ⟨hov'.1 x hx, (hpos x (by simp [hx])).2⟩
    · exact hov'.2
    · exact fun x hx => hcon x (by simp [hx])
    · exact hcr.write hmem _ _ hw

theorem extractPackages_complete {env : RadsEnv} {pkg : Str → Bytes} {inflate : Bytes → Res Bytes} (hz : env.z.Decodes inflate)
    (hf : ∀ p, env.faults p = {}) (all : List PkgFile) (groups : List (Str × List PkgFile)) (fs : FS)
    (hg : ∀ g ∈ groups, ∀ pf ∈ g.2, pf.package = g.1 ∧ pf ∈ all)
    (hst : ∀ g ∈ groups, ∃ chunks, env.stream (env.projectPath ++ "/packages/files/".toList ++ g.1) = .ok chunks ∧ chunks.flatten = pkg g.1)
    (hlen : ∀ pf ∈ all, pf.stop ≤ (pkg pf.package).length)
    (hov : ∀ g ∈ groups, (sortByOffset g.2).Pairwise fun a b => a.stop ≤ b.offset.toNat)
    (hcon : ∀ pf ∈ all, ∃ b, Spec.pkgContent pkg inflate pf = .ok b) (hcr : Creatable env fs all) :
    (env.extractPackages fs groups).2 = .ok () := by
  induction groups generalizing fs with
  | nil => rfl
  | cons g groups ih =>
    obtain ⟨p, pfs⟩ := g
    obtain ⟨chunks, h1, h2⟩ := hst (p, pfs) (by simp)
    have hperm : ∀ x, x ∈ sortByOffset pfs ↔ x ∈ pfs := fun x => (List.perm_insertionSort _ pfs).mem_iff
    have hp : ∀ x ∈ sortByOffset pfs, x.package = p ∧ x ∈ all := fun x hx => hg (p, pfs) (by simp) x ((hperm x).1 hx)
    obtain ⟨e1, e2⟩ := extractFiles_complete (pkg := pkg) hz hf all (sortByOffset pfs) (fun x hx => (hp x hx).2) (.init chunks) chunks.flatten fs
      (RInv_init chunks) (fun x hx => by rw [(hp x hx).1, h2]) (fun x hx => ⟨Nat.zero_le _, by
        have := hlen x (hp x hx).2
        rw [(hp x hx).1] at this
        rw [h2]; exact this⟩)
      (hov (p, pfs) (by simp)) (fun x hx => hcon x (hp x hx).2) hcr
    rw [RadsEnv.extractPackages, h1]
    simp only
    rcases hx : env.extractFiles (.init chunks) fs (sortByOffset pfs) with ⟨fs1, r⟩
    rw [hx] at e1 e2
    simp only at e1 e2
    subst e1
    exact ih fs1 (fun g' hg' => hg g' (by simp [hg'])) (fun g' hg' => hst g' (by simp [hg'])) (fun g' hg' => hov g' (by simp [hg'])) e2

/-- Entries that do not overlap and are within their packages are extracted, without network or disk faults, however
the network cuts the packages into chunks. -/
theorem C41_complete {env : RadsEnv} {pkg : Str → Bytes} {inflate : Bytes → Res Bytes} (hz : env.z.Decodes inflate)
    (hst : ∀ p, ∃ chunks, env.stream (env.projectPath ++ "/packages/files/".toList ++ p) = .ok chunks ∧ chunks.flatten = pkg p)
    (hf : ∀ p, env.faults p = {}) (fs : FS) (pfs : List PkgFile) (hnn : ∀ pf ∈ pfs, 0 ≤ pf.offset)
    (paths : Option (List Str)) (files : List PkgFile) (hsel : selectFiles (packageFiles pfs) paths = .ok files)
    (hov : Spec.NoOverlap (files.filter fun pf => !fs.isFile (env.dest pf)))
    (hlen : ∀ pf ∈ files, pf.stop ≤ (pkg pf.package).length)
    (hcon : ∀ pf ∈ files, ∃ b, Spec.pkgContent pkg inflate pf = .ok b) (hcr : Creatable env fs files) :
    (env.extract fs pfs paths).2 = .ok () := by
  rw [RadsEnv.extract, hsel]
  simp only
  apply extractPackages_complete hz hf files
  · rintro ⟨p, l⟩ hgm pf hpf
    obtain ⟨rfl, _⟩ := (groupPackages_mem _ p l).1 hgm
    obtain ⟨m1, m2⟩ := List.mem_filter.1 hpf
    exact ⟨by simpa using m2, (List.mem_filter.1 m1).1⟩
  · exact fun g _ => hst g.1
  · exact hlen
  · rintro ⟨p, l⟩ hgm
    obtain ⟨rfl, _⟩ := (groupPackages_mem _ p l).1 hgm
    rw [sortByOffset_pairwise_iff]
    · exact (pairwise_filter_package _ _).2 hov p
    · intro pf hpf
      exact hnn pf (selectFiles_mem hsel pf (List.mem_filter.1 (List.mem_filter.1 hpf).1).1).1
  · exact hcon
  · exact hcr

/-- The result does not depend on the order of the manifest, on the order of the requested paths or on the chunks of
the network: two successful extractions of the same files leave the same files. -/
theorem C41_independent {env env' : RadsEnv} {pkg : Str → Bytes} {inflate : Bytes → Res Bytes} (hz : env.z.Decodes inflate)
    (hz' : env'.z.Decodes inflate) (hs : env.Serves pkg) (hs' : env'.Serves pkg) (hb : env'.base = env.base)
    (fs fs1 fs2 : FS) (pfs pfs' : List PkgFile) (hrel : RelativePaths pfs) (hp : pfs.Perm pfs')
    (hnd : (pfs.map (·.extractPath)).Nodup) (paths paths' : Option (List Str))
    (hpaths : match paths, paths' with
      | none, none => True
      | some l, some l' => ∀ x, x ∈ l ↔ x ∈ l'
      | _, _ => False)
    (h : env.extract fs pfs paths = (fs1, .ok ())) (h' : env'.extract fs pfs' paths' = (fs2, .ok ())) (q : Str) (b : Bytes) :
    fs1 q = some (.file b) ↔ fs2 q = some (.file b) := by
  have hd : ∀ pf, env'.dest pf = env.dest pf := fun pf => by rw [RadsEnv.dest, RadsEnv.dest, hb]
  have hget : ∀ p, (packageFiles pfs).get? p = (packageFiles pfs').get? p := by
    intro p
    have hnd' : (pfs'.map (·.extractPath)).Nodup := (hp.map _).nodup_iff.1 hnd
    have key : ∀ l : List PkgFile, (l.map (·.extractPath)).Nodup → ∀ pf, (packageFiles l).get? p = some pf ↔ pf ∈ l ∧ pf.extractPath = p := by
      intro l hl pf
      have e : packageFiles l = l.map fun pf => (pf.extractPath, pf) := Dict.ofList_of_nodup (by rw [List.map_map]; exact hl)
      have hwf : Dict.WF (packageFiles l) := Dict.WF.ofList _
      rw [← Dict.mem_iff_get? hwf, e, List.mem_map]
      constructor
      · rintro ⟨x, hx, he⟩; cases he; exact ⟨hx, rfl⟩
      · rintro ⟨hx, rfl⟩; exact ⟨pf, hx, rfl⟩
    apply Option.ext
    intro pf
    rw [key pfs hnd, key pfs' hnd', hp.mem_iff]
  have hsel : ∀ {pfs env} {paths : Option (List Str)} {fs1 : FS}, RadsEnv.extract env fs pfs paths = (fs1, .ok ()) → ∃ files,
      selectFiles (packageFiles pfs) paths = .ok files := by
    intro pfs env paths fs1 h
    rcases hsel : selectFiles (packageFiles pfs) paths with e | files
    · rw [RadsEnv.extract, hsel] at h; simp at h
    · exact ⟨files, rfl⟩
  obtain ⟨files, hf⟩ := hsel h
  obtain ⟨files', hf'⟩ := hsel h'
  have hmem : ∀ {pfs : List PkgFile} {paths : Option (List Str)} {files : List PkgFile},
      selectFiles (packageFiles pfs) paths = .ok files → ∀ pf, pf ∈ files ↔
        (packageFiles pfs).get? pf.extractPath = some pf ∧ ∀ l, paths = some l → pf.extractPath ∈ l := by
    intro pfs paths files hf pf
    constructor
    · intro hpf
      refine ⟨(selectFiles_mem hf pf hpf).2, ?_⟩
      rintro l rfl
      simp only [selectFiles] at hf
      induction l generalizing files with
      | nil => simp [pure, Except.pure] at hf; subst hf; simp at hpf
      | cons p l ih =>
        rw [List.mapM_cons] at hf
        rcases hg : (packageFiles pfs).get? p with _ | x
        · simp [Dict.get, hg, bind, Except.bind] at hf
        · rcases hm : l.mapM (packageFiles pfs).get with e | r
          · rw [hm] at hf; simp [Dict.get, hg, bind, Except.bind] at hf
          · rw [hm] at hf
            simp [Dict.get, hg, bind, Except.bind, pure, Except.pure] at hf
            subst hf
            rcases List.mem_cons.1 hpf with rfl | hpf
            · have : pf.extractPath = p := by
                rw [C43_files] at hg
                simpa using List.find?_some hg
              simp [this]
            · exact List.mem_cons_of_mem _ (ih hpf hm)
    · rintro ⟨hg, hl⟩
      cases paths with
      | none =>
        simp only [selectFiles, pure, Except.pure, Except.ok.injEq] at hf
        subst hf
        exact List.mem_map.2 ⟨_, Dict.mem_of_get? hg, rfl⟩
      | some l =>
        have hin := hl l rfl
        simp only [selectFiles] at hf
        clear hl
        induction l generalizing files with
        | nil => simp at hin
        | cons p l ih =>
          rw [List.mapM_cons] at hf
          rcases hg' : (packageFiles pfs).get? p with _ | x
          · simp [Dict.get, hg', bind, Except.bind] at hf
          · rcases hm : l.mapM (packageFiles pfs).get with e | r
            · rw [hm] at hf; simp [Dict.get, hg', bind, Except.bind] at hf
            · rw [hm] at hf
              simp [Dict.get, hg', bind, Except.bind, pure, Except.pure] at hf
              subst hf
              rcases List.mem_cons.1 hin with he | hin
              · rw [← he, hg] at hg'; cases hg'; simp
              · exact List.mem_cons_of_mem _ (ih hm hin)
  have hfiles : ∀ pf, pf ∈ files ↔ pf ∈ files' := by
    intro pf
    rw [hmem hf, hmem hf', hget]
    cases paths with
    | none => cases paths' with
      | none => simp
      | some l => simp at hpaths
    | some l => cases paths' with
      | none => simp at hpaths
      | some l' =>
        simp only at hpaths
        simp [hpaths]
  have hrel' : RelativePaths pfs' := fun pf hpf => hrel pf (hp.mem_iff.2 hpf)
  obtain ⟨a1, a2, a3⟩ := C41_success hz hs fs fs1 pfs hrel paths files hf h
  obtain ⟨b1, b2, b3⟩ := C41_success hz' hs' fs fs2 pfs' hrel' paths' files' hf' h'
  by_cases hq : ∃ pf ∈ files, q = env.dest pf
  · obtain ⟨pf, hpf, rfl⟩ := hq
    have hpf' := (hfiles pf).1 hpf
    cases hi : fs.isFile (env.dest pf) with
    | true =>
      rw [a2 pf hpf hi, ← hd pf, b2 pf hpf' (by rw [hd, hi])]
    | false =>
      obtain ⟨x, hx1, hx2⟩ := a1 pf hpf hi
      obtain ⟨y, hy1, hy2⟩ := b1 pf hpf' (by rw [hd, hi])
      rw [hx1] at hy1
      cases hy1
      rw [hx2, ← hd pf, hy2]
  · have h1 : ∀ pf ∈ files, q ≠ env.dest pf := fun pf hpf he => hq ⟨pf, hpf, he⟩
    rw [a3 q h1 b, b3 q (fun pf hpf => by rw [hd]; exact h1 pf ((hfiles pf).2 hpf)) b]

/-- Finding: an empty entry that starts where a non-empty entry of the same package listed before it starts makes the
extraction fail (though the entries do not overlap). -/
theorem C41_empty_entry {env : RadsEnv} {pkg : Str → Bytes} {inflate : Bytes → Res Bytes} (hz : env.z.Decodes inflate)
    (hs : env.Serves pkg) (fs : FS) (a b : PkgFile) (hrel : RelativePaths [a, b]) (ha : a.extractPath ≠ b.extractPath) (hp : a.package = b.package)
    (ho : a.offset = b.offset) (h0 : 0 ≤ a.offset) (hsz : 0 < a.size)
    (hna : fs.isFile (env.dest a) = false) (hnb : fs.isFile (env.dest b) = false) :
    (env.extract fs [a, b] none).2 ≠ .ok () := by
  intro h
  have hsel : selectFiles (packageFiles [a, b]) none = .ok [a, b] := by
    have : packageFiles [a, b] = [(a.extractPath, a), (b.extractPath, b)] := by
      unfold packageFiles
      rw [Dict.ofList_of_nodup]
      · rfl
      · simp [ha]
    rw [this]; rfl
  obtain ⟨h1, _⟩ := C41_overlap hz hs fs (env.extract fs [a, b] none).1 [a, b] hrel
    (by intro pf hpf; simp only [List.mem_cons, List.not_mem_nil, or_false] at hpf; rcases hpf with rfl | rfl <;> omega)
    none [a, b] hsel (by rw [← h])
  unfold Spec.NoOverlap at h1
  simp only [List.filter_cons, hna, hnb, Bool.not_false, if_true, List.filter_nil] at h1
  have := (List.pairwise_cons.1 h1).1 b (by simp) hp
  unfold PkgFile.stop at this
  omega

/-! ## A concrete case -/

/-- A decompressor that reverses its input -/
def exInflate : Inflate := ⟨Bytes, [], fun st w => .ok (st ++ w, []), fun st => .ok st.reverse⟩

theorem exInflate_decodes : exInflate.Decodes fun b => .ok b.reverse := by
  have : ∀ (ws : List Bytes) (st : Bytes), exInflate.run st ws = .ok (st ++ ws.flatten).reverse := by
    intro ws
    induction ws with
    | nil => intro st; simp [Inflate.run]; rfl
    | cons w ws ih =>
      intro st
      have := ih (st ++ w)
      simp [Inflate.run, exInflate] at this ⊢
      rw [this]
  intro ws
  exact this ws []

/-- Two packages -/
def exRadsPkg (p : Str) : Bytes := if p = "A".toList then [1, 2, 3, 4, 5, 6] else [7, 8]

def exRadsEnv : RadsEnv where
  base := "b".toList
  projectPath := "p".toList
  z := exInflate
  stream := fun u => if u = "p/packages/files/A".toList then .ok [[1], [], [2, 3, 4], [5, 6]] else
    .ok [exRadsPkg (u.drop "p/packages/files/".length)]
  faults := fun _ => {}

/-- Out of order, with a compressed file and a hole -/
def exRadsFiles : List PkgFile := [
  ⟨"p/x.compressed".toList, "A".toList, 3, 3, true, "p/x".toList⟩,
  ⟨"p/y".toList, "B".toList, 0, 2, false, "p/y".toList⟩,
  ⟨"p/z".toList, "A".toList, 0, 2, false, "p/z".toList⟩]

theorem exRadsEnv_streams (p : Str) :
    ∃ chunks, exRadsEnv.stream (exRadsEnv.projectPath ++ "/packages/files/".toList ++ p) = .ok chunks ∧ chunks.flatten = exRadsPkg p := by
  by_cases h : p = "A".toList
  · subst h
    exact ⟨[[1], [], [2, 3, 4], [5, 6]], by decide +kernel, by decide +kernel⟩
  · refine ⟨[exRadsPkg p], ?_, by simp⟩
    have e : exRadsEnv.projectPath ++ "/packages/files/".toList ++ p = "p/packages/files/".toList ++ p := rfl
    rw [e, exRadsEnv]
    have h2 : ¬ "p/packages/files/".toList ++ p = "p/packages/files/A".toList := by
      intro he
      have : "p/packages/files/".toList ++ p = "p/packages/files/".toList ++ "A".toList := he
      exact h (List.append_cancel_left this)
    have h3 : ("p/packages/files/".toList ++ p).drop "p/packages/files/".length = p := List.drop_left
    simp only [if_neg h2, h3]

theorem exRadsEnv_serves : exRadsEnv.Serves exRadsPkg := by
  intro p chunks h
  obtain ⟨c, h1, h2⟩ := exRadsEnv_streams p
  rw [h1] at h; cases h
  rw [h2]
  exact List.prefix_rfl

example : RelativePaths exRadsFiles ∧ (∀ pf ∈ exRadsFiles, 0 ≤ pf.offset) ∧ (exRadsFiles.map (·.extractPath)).Nodup ∧
    selectFiles (packageFiles exRadsFiles) none = .ok exRadsFiles := by
  refine ⟨?_, by decide +kernel, by decide +kernel, by decide +kernel⟩
  intro pf hpf
  simp only [exRadsFiles, List.mem_cons, List.not_mem_nil, or_false] at hpf
  rcases hpf with rfl | rfl | rfl <;> rintro ⟨r, hr⟩ <;> exact absurd (congrArg List.head? hr) (show ¬ some 'p' = some '/' by decide)

def exRadsFS : FS := fun _ => none

theorem exRads_creatable : Creatable exRadsEnv exRadsFS exRadsFiles where
  notDir _ _ := by simp [exRadsFS]
  parents _ _ _ _ _ := by simp [exRadsFS]
  apart := by decide +kernel
  named := by decide +kernel

/-- `C41_complete` applies to it, -/
example : (exRadsEnv.extract exRadsFS exRadsFiles none).2 = .ok () :=
  C41_complete exInflate_decodes exRadsEnv_streams (fun _ => rfl) _ _ (by decide +kernel) none exRadsFiles (by decide +kernel)
    (by unfold Spec.NoOverlap; decide +kernel) (by decide +kernel)
    (by
      intro pf _
      unfold Spec.pkgContent
      split <;> exact ⟨_, rfl⟩) exRads_creatable

/-- and the files are as expected. -/
example : let fs := (exRadsEnv.extract exRadsFS exRadsFiles none).1
    fs "b/p/x".toList = some (.file [6, 5, 4]) ∧ fs "b/p/y".toList = some (.file [7, 8]) ∧ fs "b/p/z".toList = some (.file [1, 2]) := by
  decide +kernel

/-! ## Cases that meet the hypotheses -/

/-- `C41_empty_entry`: an empty entry at the same place as another one -/
example : let a : PkgFile := ⟨"p/x".toList, "A".toList, 2, 1, false, "p/x".toList⟩
    let b : PkgFile := ⟨"p/y".toList, "A".toList, 2, 0, false, "p/y".toList⟩
    a.extractPath ≠ b.extractPath ∧ a.package = b.package ∧ a.offset = b.offset ∧ 0 < a.size ∧
    (exRadsEnv.extract exRadsFS [a, b] none).2 ≠ .ok () ∧ (exRadsEnv.extract exRadsFS [b, a] none).2 = .ok () := by decide +kernel

end Cdtb
