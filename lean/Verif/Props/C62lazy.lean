import Verif.Props.C62
/-!
# C62, continued: extraction with `--lazy`
-/
namespace Cdtb
set_option autoImplicit false
open Py Spec

/-- A lazy run without faults writes the readable entries whose path is free. -/
theorem wadExtract_lazy_run (cx : Codecs) (file : Bytes) (toc : Option Bytes) (output : Str) : ∀ (ws : List WadEntry) (fs : FS),
    (∀ w ∈ ws, (∃ d, Readable cx file toc w d) ∨ readData cx w file toc = .ok none ∨ readData cx w file toc = .error .malformedSubchunk) →
    (∀ w ∈ ws, ∀ d, Readable cx file toc w d → Spec.Named (outPath output w) ∧ dirname (outPath output w) ≠ []) →
    ws.Pairwise (fun w w' => ∀ d d', Readable cx file toc w d → Readable cx file toc w' d' → ApartPaths (outPath output w) (outPath output w')) →
    (∀ w ∈ ws, ∀ d, Readable cx file toc w d → fs (outPath output w) = none → ∀ q, Spec.DirOf q (outPath output w) → ∀ b, fs q ≠ some (.file b)) →
    ∃ fs', wadExtract cx file toc fs output false (ws.map fun w => (w, {})) = (fs', .ok ()) ∧
      (∀ w ∈ ws, ∀ d, Readable cx file toc w d → fs (outPath output w) = none → fs' (outPath output w) = some (.file d)) ∧
      TouchesOnly (OwnPaths cx file toc output ws) fs fs'
  | [], fs, _, _, _, _ => ⟨fs, rfl, by simp, TouchesOnly.refl _ _⟩
  | w :: ws, fs, hread, hname, hpair, hfree => by
    rw [List.pairwise_cons] at hpair
    have ih := fun fs1 => wadExtract_lazy_run cx file toc output ws fs1 (fun w hw => hread w (by simp [hw])) (fun w hw => hname w (by simp [hw])) hpair.2
    rw [List.map_cons, wadExtract_cons]
    have hmono : ∀ x, OwnPaths cx file toc output ws x → OwnPaths cx file toc output (w :: ws) x := by
      rintro x ⟨w', hw', hx⟩
      exact ⟨w', by simp [hw'], hx⟩
    by_cases hex : (fs (outPath output w)).isSome = true
    · rw [if_pos (by simp [hex])]
      obtain ⟨fs', e1, e2, e3⟩ := ih fs (fun w hw => hfree w (by simp [hw]))
      refine ⟨fs', e1, fun w' hw' d' hd' hn => ?_, e3.mono hmono⟩
      rcases List.mem_cons.1 hw' with rfl | hw'
      · rw [hn] at hex; simp at hex
      · exact e2 w' hw' d' hd' hn
    · rw [if_neg (by simp [hex])]
      have hnone : fs (outPath output w) = none := by simpa using hex
      by_cases hr : ∃ d, Readable cx file toc w d
      · obtain ⟨d, hd⟩ := hr
        obtain ⟨hn, hdn⟩ := hname w (by simp) d hd
        have hf2 := hfree w (by simp) d hd hnone
        have hq : WriteFaults.Quiet {} := ⟨rfl, rfl, fun _ => rfl, rfl⟩
        have h1 := writeFileOrRemove_quiet (body := [.write d]) hq hn (by rw [hnone]; simp) hf2 hdn
        have h2 := writeFileOrRemove_touches fs (outPath output w) [.write d] {}
        have h3 := writeFileOrRemove_clean (fs := fs) (body := [.write d]) (f := {}) rfl hn
        rw [extractEntry_readable hd]
        rcases hw : writeFileOrRemove fs (outPath output w) [.write d] {} with ⟨fs1, r⟩
        rw [hw] at h1 h2 h3
        simp only [bodyErr, List.findSome?_cons, List.findSome?_nil] at h1
        subst h1
        simp only at h2 h3 ⊢
        have h4 : fs1 (outPath output w) = some (.file d) := by
          have := h3.2
          simpa [bodyBytes] using this
        have hsame : ∀ w' ∈ ws, ∀ d', Readable cx file toc w' d' → fs1 (outPath output w') = fs (outPath output w') := by
          intro w' hw' d' hd'
          obtain ⟨a1, a2, a3⟩ := hpair.1 w' hw' d d' hd hd'
          rcases h2 (outPath output w') (fun h => a1 h.symm) with h | ⟨h, -, -⟩
          · exact h
          · exact absurd (dirPrefixes_dirOf h) a3
        obtain ⟨fs', e1, e2, e3⟩ := ih fs1 (by
          intro w' hw' d' hd' hn' q hq b
          obtain ⟨a1, a2, a3⟩ := hpair.1 w' hw' d d' hd hd'
          have b2 := hfree w' (by simp [hw']) d' hd' (by rw [← hsame w' hw' d' hd']; exact hn')
          by_cases hqw : q = outPath output w
          · subst hqw; exact absurd hq a2
          · rcases h2 q hqw with h | ⟨-, -, h⟩
            · rw [h]; exact b2 q hq b
            · rw [h]; simp)
        refine ⟨fs', e1, ?_, ?_⟩
        · intro w' hw' d' hd' hn'
          rcases List.mem_cons.1 hw' with rfl | hw'
          · have : d' = d := by
              unfold Readable at hd hd'
              rw [hd] at hd'; cases hd'; rfl
            subst this
            rcases e3 (outPath output w') (by
              rintro ⟨w'', hw'', d'', hd'', he⟩
              exact (hpair.1 w'' hw'' _ _ hd hd'').1 he) with h | ⟨-, h, -⟩
            · rw [h, h4]
            · rw [h4] at h; cases h
          · exact e2 w' hw' d' hd' (by rw [hsame w' hw' d' hd']; exact hn')
        · refine TouchesOnly.trans ?_ (e3.mono hmono)
          intro q hq
          rcases h2 q (fun h => hq ⟨w, by simp, d, hd, h⟩) with h | ⟨ha, hb, hc⟩
          · exact Or.inl h
          · exact Or.inr ⟨⟨_, ⟨w, by simp, d, hd, rfl⟩, dirPrefixes_dirOf ha⟩, hb, hc⟩
      · have he : extractEntry cx file toc fs w (outPath output w) {} = (fs, .ok ()) := by
          unfold extractEntry
          rcases hread w (by simp) with h | h | h
          · exact absurd h hr
          · rw [h]
          · rw [h]
        rw [he]
        simp only
        obtain ⟨fs', e1, e2, e3⟩ := ih fs (fun w hw => hfree w (by simp [hw]))
        refine ⟨fs', e1, fun w' hw' d' hd' hn' => ?_, e3.mono hmono⟩
        rcases List.mem_cons.1 hw' with rfl | hw'
        · exact absurd ⟨d', hd'⟩ hr
        · exact e2 w' hw' d' hd' hn'

/-- Lazy extraction: it succeeds, writes every selected file whose path is free, keeps whatever is at the other paths, and changes nothing else
(except directories created for these files). -/
theorem C62_lazy_extract {cx : Codecs} {dir : Str} {fs : FS} {args : WadArgs} {hashes : Dict Int Str} {file : Bytes} {f : WadFormat}
    {version : Nat × Nat} {rs : List WadRecord} {toc : Option Bytes} {out : Str} (fnmatch : Str → Str → Bool)
    (h : Spec.Opens cx dir fs args.wad args.hashes hashes file f version rs toc) (hlazy : args.lazy = true)
    (hout : Spec.OutputOf args out) (houtdir : ∀ b, fs out ≠ some (.file b))
    (hread : ∀ r ∈ rs, Spec.Selected fnmatch hashes args r → ∃ c, Spec.Contains cx file toc f r c)
    (hext : ∀ r ∈ rs, ∀ p e, Spec.KnownAs hashes r p → Spec.HasExt p e → e.length ≤ 232)
    (hsep : rs.Pairwise fun r r' => Spec.Selected fnmatch hashes args r → Spec.Selected fnmatch hashes args r' →
      ∀ d d' x x', Spec.Target cx hashes file toc f out r d x → Spec.Target cx hashes file toc f out r' d' x' →
        x ≠ x' ∧ ¬ Spec.DirOf x x' ∧ ¬ Spec.DirOf x' x)
    (hfree : ∀ r ∈ rs, Spec.Selected fnmatch hashes args r → ∀ d x, Spec.Target cx hashes file toc f out r d x → fs x = none →
      ∀ q, Spec.DirOf q x → ∀ b, fs q ≠ some (.file b)) :
    ∃ fs', commandWadExtract cx fnmatch dir (fun _ => {}) fs args = (fs', .ok ()) ∧
      (∀ r ∈ rs, Spec.Selected fnmatch hashes args r → ∀ d, Spec.Contains cx file toc f r (some d) →
        ∃ x, Spec.Target cx hashes file toc f out r d x ∧ (fs x = none → fs' x = some (.file d)) ∧ ∀ n, fs x = some n → fs' x = some n) ∧
      (∀ q, (∀ r ∈ rs, Spec.Selected fnmatch hashes args r → ∀ d, ¬ Spec.Target cx hashes file toc f out r d q) →
        fs' q = fs q ∨ (fs q = none ∧ fs' q = some .dir ∧
          ∃ r ∈ rs, Spec.Selected fnmatch hashes args r ∧ ∃ d x, Spec.Target cx hashes file toc f out r d x ∧ Spec.DirOf q x)) := by
  obtain ⟨sel, hsub, hsel, hselect⟩ := wadSelect_records fnmatch hashes args f rs
  have hmem : ∀ r ∈ sel, r ∈ rs ∧ Spec.Selected fnmatch hashes args r := fun r hr =>
    ⟨hsub.subset hr, (hsel r (hsub.subset hr)).1 hr⟩
  have hfits : ∀ r ∈ rs, r.hash < 256 ^ 8 := fun r hr => (h.archive.fits r hr).hash
  have htarget : ∀ r ∈ sel, ∀ d, Readable cx file toc (guessedEntry cx file toc (resolvedEntry hashes f r)) d →
      Spec.Target cx hashes file toc f out r d (outPath out (guessedEntry cx file toc (resolvedEntry hashes f r))) := by
    intro r hr d hd
    obtain ⟨hr1, hr2⟩ := hmem r hr
    obtain ⟨c, hc⟩ := hread r hr1 hr2
    have := readable_contains hc hd
    subst this
    obtain ⟨name, hn⟩ := wadName_exists cx hashes r d (hfits r hr1) (hext r hr1)
    exact ⟨hc, name, hn, outPath_named out (hfits r hr1) hc hn⟩
  have hne := outputOf_ne_nil h.wad hout houtdir
  obtain ⟨fs', e1, e2, e3⟩ := wadExtract_lazy_run cx file toc out (sel.map fun r => guessedEntry cx file toc (resolvedEntry hashes f r)) fs
    (by
      intro w hw
      obtain ⟨r, hr, rfl⟩ := List.mem_map.1 hw
      obtain ⟨hr1, hr2⟩ := hmem r hr
      obtain ⟨c, hc⟩ := hread r hr1 hr2
      cases c with
      | some d => exact Or.inl ⟨d, contains_readable hc⟩
      | none =>
        right
        rw [guessedEntry_read]
        exact (contains_read hc (resolvedEntry_isEntry hashes f r)).2 rfl)
    (by
      intro w hw d hd
      obtain ⟨r, hr, rfl⟩ := List.mem_map.1 hw
      obtain ⟨-, name, hn, hx⟩ := htarget r hr d hd
      rw [hx]
      exact ⟨(wadName_named hn).pjoin, pjoin_dirname hne⟩)
    (by
      rw [List.pairwise_map]
      refine List.Pairwise.imp_of_mem ?_ (hsep.sublist hsub)
      intro r r' hr hr' hs d d' hd hd'
      exact hs (hmem r hr).2 (hmem r' hr').2 d d' _ _ (htarget r hr d hd) (htarget r' hr' d' hd'))
    (by
      intro w hw d hd
      obtain ⟨r, hr, rfl⟩ := List.mem_map.1 hw
      exact hfree r (hmem r hr).1 (hmem r hr).2 d _ (htarget r hr d hd))
  have hrun : commandWadExtract cx fnmatch dir (fun _ => {}) fs args = (fs', .ok ()) := by
    unfold commandWadExtract
    rw [wadOutput_spec h.wad hout houtdir]
    simp only
    rw [commandOpen_opens h]
    simp only
    rw [hselect]
    have hg := guessExtensions_fresh cx file toc (sel.map (resolvedEntry hashes f)) (by
      intro w hw _
      obtain ⟨r, hr, rfl⟩ := List.mem_map.1 hw
      obtain ⟨c, hc⟩ := hread r (hmem r hr).1 (hmem r hr).2
      exact ⟨c, contains_readFile hc (resolvedEntry_isEntry hashes f r)⟩)
    rcases hge : guessExtensions cx file toc [] (sel.map (resolvedEntry hashes f)) with ⟨c, ws, res⟩
    rw [hge] at hg
    simp only [Prod.mk.injEq] at hg
    obtain ⟨rfl, rfl⟩ := hg
    simp only [hlazy, Bool.not_true]
    rw [List.map_map]
    rw [List.zipIdx_map, List.map_map] at *
    rw [← e1]
    congr 1
    apply List.ext_getElem <;> simp
  refine ⟨fs', hrun, ?_, ?_⟩
  · intro r hr hs d hd
    have hrs := (hsel r hr).2 hs
    have hrd := contains_readable (hashes := hashes) hd
    refine ⟨_, htarget r hrs d hrd, e2 _ (List.mem_map_of_mem (f := fun r => guessedEntry cx file toc (resolvedEntry hashes f r)) hrs) d hrd, fun n hn => ?_⟩
    have := C62_lazy cx dir fs args fnmatch (fun _ => {}) hlazy _ n hn
    rw [hrun] at this
    exact this
  · intro q hq
    rcases e3 q (by
      rintro ⟨w, hw, d, hd, rfl⟩
      obtain ⟨r, hr, rfl⟩ := List.mem_map.1 hw
      exact hq r (hmem r hr).1 (hmem r hr).2 d (htarget r hr d hd)) with h1 | ⟨⟨x, ⟨w, hw, d, hd, rfl⟩, hx⟩, h1, h2⟩
    · exact Or.inl h1
    · obtain ⟨r, hr, rfl⟩ := List.mem_map.1 hw
      exact Or.inr ⟨h1, h2, r, (hmem r hr).1, (hmem r hr).2, d, _, htarget r hr d hd, hx⟩

namespace C62ex

/-- A disk where a previous version of the first file is already extracted -/
def lazyFs : FS := fun p => if p = "dir/w/a/x.bin".toList then some (.file [9]) else if p = "dir/w/a".toList ∨ p = "dir/w".toList then some .dir else fs p
def lazyArgs : WadArgs := { args with lazy := true }

theorem lazy_selected (r : WadRecord) : Spec.Selected (fun _ _ => false) hashes lazyArgs r := ⟨by rintro ⟨⟩, by rintro ⟨⟩, fun h => absurd rfl h⟩

theorem lazy_opens : Spec.Opens cx "h".toList lazyFs lazyArgs.wad lazyArgs.hashes hashes file .v1 (1, 0) [r1, r2] none :=
  { wad := by decide +kernel
    known := ⟨_, _, Or.inr (Or.inr ⟨rfl, ⟨"dir/w".toList, by decide⟩, rfl⟩), rfl, by decide +kernel⟩
    archive := opens.archive }

theorem lazy_output : Spec.OutputOf lazyArgs "dir/w".toList := output

theorem lazy_outdir (b : Bytes) : lazyFs "dir/w".toList ≠ some (.file b) := by
  intro hb
  have : lazyFs "dir/w".toList = some .dir := by decide +kernel
  rw [this] at hb
  cases hb

theorem lazy_read (r : WadRecord) (hr : r ∈ [r1, r2]) : ∃ c, Spec.Contains cx file none .v1 r c := by
  simp only [List.mem_cons, List.not_mem_nil, or_false] at hr
  rcases hr with rfl | rfl
  · exact ⟨_, contains.1⟩
  · exact ⟨_, contains.2⟩

theorem lazy_ext (r : WadRecord) (hr : r ∈ [r1, r2]) (p e : Str) (hp : Spec.KnownAs hashes r p) (he : Spec.HasExt p e) : e.length ≤ 232 := by
  simp only [List.mem_cons, List.not_mem_nil, or_false] at hr
  rcases hr with rfl | rfl
  · have h1 : (some "a/x.bin".toList : Option Str) = some p := hp
    cases h1
    have h1 := hasExt_iff.1 he
    have h2 : (splitext "a/x.bin".toList).2 = '.' :: "bin".toList := by decide
    rw [h2] at h1
    cases h1
    decide
  · cases hp

theorem lazy_sep : [r1, r2].Pairwise fun r r' => Spec.Selected (fun _ _ => false) hashes lazyArgs r → Spec.Selected (fun _ _ => false) hashes lazyArgs r' →
    ∀ d d' x x', Spec.Target cx hashes file none .v1 "dir/w".toList r d x → Spec.Target cx hashes file none .v1 "dir/w".toList r' d' x' →
      x ≠ x' ∧ ¬ Spec.DirOf x x' ∧ ¬ Spec.DirOf x' x := by
  rw [List.pairwise_cons]
  refine ⟨?_, List.pairwise_singleton _ _⟩
  intro r hr _ _ d d' x x' ht ht'
  simp only [List.mem_cons, List.not_mem_nil, or_false] at hr
  subst hr
  rcases target (List.mem_cons_self ..) ht with ⟨-, -, rfl⟩ | ⟨h, -, -⟩
  · rcases target (by simp) ht' with ⟨h, -, -⟩ | ⟨-, -, rfl⟩
    · exact absurd (congrArg WadRecord.hash h) (by decide)
    · exact ⟨by decide, not_dirOf (by decide) (by decide), not_dirOf (by decide) (by decide)⟩
  · exact absurd (congrArg WadRecord.hash h) (by decide)

theorem lazy_free (r : WadRecord) (hr : r ∈ [r1, r2]) (d : Bytes) (x : Str) (ht : Spec.Target cx hashes file none .v1 "dir/w".toList r d x) (q : Str)
    (hq : Spec.DirOf q x) (b : Bytes) : lazyFs q ≠ some (.file b) := by
  intro hb
  have key : q = "dir/w/a/x.bin".toList ∨ q = "dir/w.wad".toList ∨ q = "h/hashes.lcu.txt".toList := by
    unfold lazyFs at hb
    split at hb
    · exact Or.inl ‹_›
    · split at hb
      · cases hb
      · unfold fs at hb
        split at hb
        · exact Or.inr (Or.inl ‹_›)
        · split at hb
          · exact Or.inr (Or.inr ‹_›)
          · cases hb
  rcases target hr ht with ⟨-, -, rfl⟩ | ⟨-, -, rfl⟩
  · rcases key with rfl | rfl | rfl <;> exact not_dirOf (by decide) (by decide) hq
  · rcases key with rfl | rfl | rfl <;> exact not_dirOf (by decide) (by decide) hq

/-- What the theorem tells about the two files -/
theorem lazy_files {fs' : FS} (h : ∀ r ∈ [r1, r2], Spec.Selected (fun _ _ => false) hashes lazyArgs r → ∀ d, Spec.Contains cx file none .v1 r (some d) →
      ∃ x, Spec.Target cx hashes file none .v1 "dir/w".toList r d x ∧ (lazyFs x = none → fs' x = some (.file d)) ∧ ∀ n, lazyFs x = some n → fs' x = some n) :
    fs' "dir/w/a/x.bin".toList = some (.file [9]) ∧ fs' "dir/w/unknown/00000000000000cd.ogg".toList = some (.file [0x4f, 0x67, 0x67, 0x53]) := by
  constructor
  · obtain ⟨x, hx, -, hf⟩ := h r1 (by simp) (lazy_selected r1) _ contains.1
    rcases target (by simp) hx with ⟨-, -, rfl⟩ | ⟨h, -, -⟩
    · exact hf _ (by decide +kernel)
    · exact absurd (congrArg WadRecord.hash h) (by decide)
  · obtain ⟨x, hx, hf, -⟩ := h r2 (by simp) (lazy_selected r2) _ contains.2
    rcases target (by simp) hx with ⟨h, -, -⟩ | ⟨-, -, rfl⟩
    · exact absurd (congrArg WadRecord.hash h) (by decide)
    · exact hf (by decide +kernel)

/-- The hypotheses of `C62_lazy_extract` are met: one file is kept, the other is written. -/
example : ∃ fs', commandWadExtract cx (fun _ _ => false) "h".toList (fun _ => {}) lazyFs lazyArgs = (fs', .ok ()) ∧
    fs' "dir/w/a/x.bin".toList = some (.file [9]) ∧
    fs' "dir/w/unknown/00000000000000cd.ogg".toList = some (.file [0x4f, 0x67, 0x67, 0x53]) := by
  obtain ⟨fs', h1, h2, -⟩ := C62_lazy_extract (fun _ _ => false) lazy_opens rfl lazy_output lazy_outdir (fun r hr _ => lazy_read r hr) lazy_ext lazy_sep
    (fun r hr _ d x ht _ => lazy_free r hr d x ht)
  exact ⟨fs', h1, lazy_files h2⟩

end C62ex

end Cdtb
