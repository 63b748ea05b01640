import Verif.Lemmas.WadCmd
/-!
# C62 WAD commands
-/
namespace Cdtb
set_option autoImplicit false
open Py Spec

/-- The hash file: the one given, else the game hashes for `.wad.client` and the LCU hashes for `.wad`. -/
theorem C62_hashfile (dir wad : Str) (opt : Option Str) :
    (∀ path, hashFilePath dir wad opt = .ok path ↔ Spec.HashFileOf dir wad opt path) ∧
    (∀ e, hashFilePath dir wad opt = .error e → e = .value) := by
  refine ⟨fun path => ⟨fun h => ?_, defaultHashfile_spec⟩, fun e h => ?_⟩
  · cases opt with
    | some p => cases h; exact Or.inl rfl
    | none =>
      simp only [hashFilePath, defaultHashfile] at h
      split at h
      · rename_i he
        cases h
        exact Or.inr (Or.inl ⟨rfl, endsWith_iff.1 he, rfl⟩)
      · split at h
        · rename_i he
          cases h
          exact Or.inr (Or.inr ⟨rfl, endsWith_iff.1 he, rfl⟩)
        · cases h
  · cases opt with
    | some p => cases h
    | none =>
      simp only [hashFilePath, defaultHashfile] at h
      split at h
      · cases h
      · split at h
        · cases h
        · cases h; rfl

/-- Opening a WAD file gives its version, its files in order, the path and the extension of the known ones, and the table of subchunks. -/
theorem C62_open {cx : Codecs} {dir : Str} {fs : FS} {path : Str} {opt : Option Str} {hashes : Dict Int Str} {file : Bytes} {f : WadFormat}
    {version : Nat × Nat} {rs : List WadRecord} {toc : Option Bytes} (h : Spec.Opens cx dir fs path opt hashes file f version rs toc) :
    ∃ w, commandOpen cx dir fs path opt = .ok w ∧ w.version = version ∧ w.file = file ∧ w.toc = toc ∧
      List.Forall₂ (fun r e => e.pathHash = r.hash ∧ e.offset = r.offset ∧ e.compressedSize = r.compressedSize ∧ e.size = r.size ∧
        (∀ p, e.path = some p ↔ Spec.KnownAs hashes r p) ∧
        (∀ p x, Spec.KnownAs hashes r p → Spec.HasExt p x → e.ext = some x) ∧
        (∀ p, Spec.KnownAs hashes r p → (∀ x, ¬ Spec.HasExt p x) → e.ext = some []) ∧
        ((∀ p, ¬ Spec.KnownAs hashes r p) → e.ext = none)) rs w.files := by
  refine ⟨_, commandOpen_opens h, rfl, rfl, rfl, ?_⟩
  simp only
  rw [List.forall₂_map_right_iff, List.forall₂_same]
  intro r _
  refine ⟨resolvedEntry_hash _ _ _, ?_, ?_, ?_, ?_, ?_, ?_, ?_⟩
  · unfold resolvedEntry; split <;> rfl
  · unfold resolvedEntry; split <;> rfl
  · unfold resolvedEntry; split <;> rfl
  · intro p; rw [resolvedEntry_path]; rfl
  · intro p x hp hx
    rw [resolvedEntry_known f hp, hasExt_iff.1 hx]; rfl
  · intro p hp hx
    rw [resolvedEntry_known f hp, not_hasExt_iff.1 hx]; rfl
  · intro hp
    rw [resolvedEntry_unknown f hp]; rfl

/-- The table of subchunks is needed to open the file: when the first `.subchunktoc` file cannot be read, neither can the WAD. -/
theorem C62_open_toc_error (cx : Codecs) (hashes : Dict Int Str) (file : Bytes) (f : WadFormat) (major minor : Nat) (before after : List WadRecord)
    (r : WadRecord) (e : Err) (hf : wadFormat major minor = some f) (hm : minor < 256) (filler trailing : Bytes)
    (hl : filler.length + 4 = wadHeaderLength major) (hfit : ∀ x ∈ before ++ r :: after, x.Fits f) (hn : (before ++ r :: after).length < 256 ^ 4)
    (hfile : file = wadFile f major minor filler (before ++ r :: after) trailing)
    (hb : ∀ x ∈ before, ¬ Spec.IsToc hashes x) (hr : Spec.IsToc hashes r) (he : readData cx (r.entry f) file none = .error e) :
    openWad cx hashes file = .error e := by
  have h3 := C10_decode f major minor hf hm filler hl _ hfit hn trailing
  rw [← hfile] at h3
  unfold openWad
  rw [h3]
  show (do
    let toc ← loadSubchunkToc cx file (resolvePaths hashes ((before ++ r :: after).map (WadRecord.entry f)))
    Except.ok (WadFile.mk (major, minor) file (resolvePaths hashes ((before ++ r :: after).map (WadRecord.entry f))) toc)) = _
  rw [resolvePaths_records, List.map_append, List.map_cons, loadSubchunkToc_skip cx hashes file f before _ hb, loadSubchunkToc_toc cx hashes file f r _ hr]
  have : readData cx (resolvedEntry hashes f r) file none = .error e := by
    rw [← he]
    unfold resolvedEntry
    split <;> rfl
  rw [this]
  rfl

/-- The specification of contents is what is read. -/
theorem C62_content (cx : Codecs) (hashes : Dict Int Str) (file : Bytes) (toc : Option Bytes) (f : WadFormat) (r : WadRecord) :
    (∀ d, readFileData cx (r.entry f) file toc = .ok (some d) ↔ Spec.Contains cx file toc f r (some d)) ∧
    (Spec.Contains cx file toc f r none → readFileData cx (r.entry f) file toc = .ok none) := by
  have hw : IsEntry f r (r.entry f) := ⟨none, none, rfl⟩
  refine ⟨fun d => ⟨fun h => ?_, fun h => contains_readFile h hw⟩, fun h => contains_readFile h hw⟩
  exact read_contains hw (((C11_read_file_data cx _ file toc d).1).1 h)

/-! ### Extraction -/

theorem outputOf_ne_nil {args : WadArgs} {out : Str} {fs : FS} {b : Bytes} (hw : fs args.wad = some (.file b)) (h : Spec.OutputOf args out)
    (hfree : ∀ b, fs out ≠ some (.file b)) : out ≠ [] := by
  rcases h with ⟨-, h⟩ | ⟨-, ⟨e, ⟨dir, stem, h1, -, -, -, -, c, hc, -⟩, h2⟩ | ⟨-, rfl⟩⟩
  · exact h
  · rintro rfl
    rw [h2] at h1
    rw [List.nil_append] at h1
    have := congrArg List.length h1
    have : stem ≠ [] := by rintro rfl; cases hc
    have := List.length_pos_iff.2 this
    simp at *
    omega
  · exact absurd hw (hfree b)

theorem outputOf_eq {args : WadArgs} {out : Str} (h : Spec.OutputOf args out) : (given args.output).getD (splitext args.wad).1 = out := by
  rcases h with ⟨h, hne⟩ | ⟨h, h'⟩
  · rw [h]
    cases out with
    | nil => exact absurd rfl hne
    | cons => rfl
  · have hg : given args.output = none := by rcases h with h | h <;> rw [h] <;> rfl
    rw [hg, Option.getD_none]
    rcases h' with ⟨e, he, h'⟩ | ⟨hn, rfl⟩
    · have := hasExt_root he
      rw [h'] at this
      rw [List.append_cancel_right_eq] at this
      rw [h']; exact this.symm
    · exact not_hasExt_root hn

theorem wadOutput_spec {args : WadArgs} {out : Str} {fs : FS} {b : Bytes} (hw : fs args.wad = some (.file b)) (h : Spec.OutputOf args out)
    (hfree : ∀ b, fs out ≠ some (.file b)) : wadOutput fs args.wad args.output = .ok out := by
  unfold wadOutput
  rw [if_pos (by simp [FS.isFile, hw])]
  simp only
  rw [outputOf_eq h, if_neg]
  rintro ⟨h1, h2⟩
  cases ho : fs out with
  | none => exact h1 ho
  | some n =>
    cases n with
    | file b => exact hfree b ho
    | dir => exact h2 (by simp [FS.isDir, ho])

/-- Extraction: every selected file that the archive holds is written, complete, at its own path, and nothing else changes (except directories
created for these files). -/
theorem C62_extract {cx : Codecs} {dir : Str} {fs : FS} {args : WadArgs} {hashes : Dict Int Str} {file : Bytes} {f : WadFormat}
    {version : Nat × Nat} {rs : List WadRecord} {toc : Option Bytes} {out : Str} (fnmatch : Str → Str → Bool)
    (h : Spec.Opens cx dir fs args.wad args.hashes hashes file f version rs toc) (hlazy : args.lazy = false)
    (hout : Spec.OutputOf args out) (houtdir : ∀ b, fs out ≠ some (.file b))
    (hread : ∀ r ∈ rs, Spec.Selected fnmatch hashes args r → ∃ c, Spec.Contains cx file toc f r c)
    (hext : ∀ r ∈ rs, ∀ p e, Spec.KnownAs hashes r p → Spec.HasExt p e → e.length ≤ 232)
    (hsep : rs.Pairwise fun r r' => Spec.Selected fnmatch hashes args r → Spec.Selected fnmatch hashes args r' →
      ∀ d d' x x', Spec.Target cx hashes file toc f out r d x → Spec.Target cx hashes file toc f out r' d' x' →
        x ≠ x' ∧ ¬ Spec.DirOf x x' ∧ ¬ Spec.DirOf x' x)
    (hfree : ∀ r ∈ rs, Spec.Selected fnmatch hashes args r → ∀ d x, Spec.Target cx hashes file toc f out r d x →
      fs x ≠ some .dir ∧ ∀ q, Spec.DirOf q x → ∀ b, fs q ≠ some (.file b)) :
    ∃ fs', commandWadExtract cx fnmatch dir (fun _ => {}) fs args = (fs', .ok ()) ∧
      (∀ r ∈ rs, Spec.Selected fnmatch hashes args r → ∀ d, Spec.Contains cx file toc f r (some d) →
        ∃ x, Spec.Target cx hashes file toc f out r d x ∧ fs' x = some (.file d)) ∧
      (∀ q, (∀ r ∈ rs, Spec.Selected fnmatch hashes args r → ∀ d, ¬ Spec.Target cx hashes file toc f out r d q) →
        fs' q = fs q ∨ (fs q = none ∧ fs' q = some .dir ∧
          ∃ r ∈ rs, Spec.Selected fnmatch hashes args r ∧ ∃ d x, Spec.Target cx hashes file toc f out r d x ∧ Spec.DirOf q x)) := by
  obtain ⟨sel, hsub, hsel, hselect⟩ := wadSelect_records fnmatch hashes args f rs
  have hmem : ∀ r ∈ sel, r ∈ rs ∧ Spec.Selected fnmatch hashes args r := fun r hr =>
    ⟨hsub.subset hr, (hsel r (hsub.subset hr)).1 hr⟩
  have hfits : ∀ r ∈ rs, r.hash < 256 ^ 8 := fun r hr => (h.archive.fits r hr).hash
  -- targets of readable entries
  have htarget : ∀ r ∈ sel, ∀ d, Readable cx file toc (guessedEntry cx file toc (resolvedEntry hashes f r)) d →
      Spec.Target cx hashes file toc f out r d (outPath out (guessedEntry cx file toc (resolvedEntry hashes f r))) := by
    intro r hr d hd
    obtain ⟨hr1, hr2⟩ := hmem r hr
    obtain ⟨c, hc⟩ := hread r hr1 hr2
    have := readable_contains hc hd
    subst this
    obtain ⟨name, hn⟩ := wadName_exists cx hashes r d (hfits r hr1) (hext r hr1)
    exact ⟨hc, name, hn, outPath_named out (hfits r hr1) hc hn⟩
  have hne := outputOf_ne_nil h.wad hout houtdir
  obtain ⟨fs', e1, e2, e3⟩ := wadExtract_run cx file toc out (sel.map fun r => guessedEntry cx file toc (resolvedEntry hashes f r)) fs
    (by
      intro w hw
      obtain ⟨r, hr, rfl⟩ := List.mem_map.1 hw
      obtain ⟨hr1, hr2⟩ := hmem r hr
      obtain ⟨c, hc⟩ := hread r hr1 hr2
      cases c with
      | some d => exact Or.inl ⟨d, contains_readable hc⟩
      | none =>
        right
        rw [guessedEntry_read]
        exact (contains_read hc (resolvedEntry_isEntry hashes f r)).2 rfl)
    (by
      intro w hw d hd
      obtain ⟨r, hr, rfl⟩ := List.mem_map.1 hw
      obtain ⟨-, name, hn, hx⟩ := htarget r hr d hd
      rw [hx]
      exact ⟨(wadName_named hn).pjoin, pjoin_dirname hne⟩)
    (by
      rw [List.pairwise_map]
      refine List.Pairwise.imp_of_mem ?_ (hsep.sublist hsub)
      intro r r' hr hr' hs d d' hd hd'
      exact hs (hmem r hr).2 (hmem r' hr').2 d d' _ _ (htarget r hr d hd) (htarget r' hr' d' hd'))
    (by
      intro w hw d hd
      obtain ⟨r, hr, rfl⟩ := List.mem_map.1 hw
      exact hfree r (hmem r hr).1 (hmem r hr).2 d _ (htarget r hr d hd))
  refine ⟨fs', ?_, ?_, ?_⟩
  · unfold commandWadExtract
    rw [wadOutput_spec h.wad hout houtdir]
    simp only
    rw [commandOpen_opens h]
    simp only
    rw [hselect]
    have hg := guessExtensions_fresh cx file toc (sel.map (resolvedEntry hashes f)) (by
      intro w hw _
      obtain ⟨r, hr, rfl⟩ := List.mem_map.1 hw
      obtain ⟨c, hc⟩ := hread r (hmem r hr).1 (hmem r hr).2
      exact ⟨c, contains_readFile hc (resolvedEntry_isEntry hashes f r)⟩)
    rcases hge : guessExtensions cx file toc [] (sel.map (resolvedEntry hashes f)) with ⟨c, ws, res⟩
    rw [hge] at hg
    simp only [Prod.mk.injEq] at hg
    obtain ⟨rfl, rfl⟩ := hg
    simp only [hlazy, Bool.not_false]
    rw [List.map_map]
    rw [List.zipIdx_map, List.map_map] at *
    rw [← e1]
    congr 1
    apply List.ext_getElem <;> simp
  · intro r hr hs d hd
    have hrs := (hsel r hr).2 hs
    have hrd := contains_readable (hashes := hashes) hd
    exact ⟨_, htarget r hrs d hrd, e2 _ (List.mem_map_of_mem (f := fun r => guessedEntry cx file toc (resolvedEntry hashes f r)) hrs) d hrd⟩
  · intro q hq
    rcases e3 q (by
      rintro ⟨w, hw, d, hd, rfl⟩
      obtain ⟨r, hr, rfl⟩ := List.mem_map.1 hw
      exact hq r (hmem r hr).1 (hmem r hr).2 d (htarget r hr d hd)) with h1 | ⟨⟨x, ⟨w, hw, d, hd, rfl⟩, hx⟩, h1, h2⟩
    · exact Or.inl h1
    · obtain ⟨r, hr, rfl⟩ := List.mem_map.1 hw
      exact Or.inr ⟨h1, h2, r, (hmem r hr).1, (hmem r hr).2, d, _, htarget r hr d hd, hx⟩

/-- Whatever happens (options, errors, faults, crashes of writes), nothing changes besides the targets of selected files, and directories created
for them. -/
theorem C62_frame {cx : Codecs} {dir : Str} {fs : FS} {args : WadArgs} {hashes : Dict Int Str} {file : Bytes} {f : WadFormat}
    {version : Nat × Nat} {rs : List WadRecord} {toc : Option Bytes} {out : Str} (fnmatch : Str → Str → Bool) (faults : Nat → WriteFaults)
    (h : Spec.Opens cx dir fs args.wad args.hashes hashes file f version rs toc) (hout : Spec.OutputOf args out)
    (hext : ∀ r ∈ rs, ∀ p e, Spec.KnownAs hashes r p → Spec.HasExt p e → e.length ≤ 232) (q : Str)
    (hq : ∀ r ∈ rs, Spec.Selected fnmatch hashes args r → ∀ d, ¬ Spec.Target cx hashes file toc f out r d q) :
    (commandWadExtract cx fnmatch dir faults fs args).1 q = fs q ∨
    (fs q = none ∧ (commandWadExtract cx fnmatch dir faults fs args).1 q = some .dir ∧
      ∃ r ∈ rs, Spec.Selected fnmatch hashes args r ∧ ∃ d x, Spec.Target cx hashes file toc f out r d x ∧ Spec.DirOf q x) := by
  by_cases houtdir : ∃ b, fs out = some (.file b)
  · left
    obtain ⟨b, hb⟩ := houtdir
    have : wadOutput fs args.wad args.output = .error .usage := by
      unfold wadOutput
      rw [if_pos (by simp [FS.isFile, h.wad])]
      simp only
      rw [outputOf_eq hout, if_pos]
      simp [hb, FS.isDir]
    unfold commandWadExtract
    rw [this]
  · have houtdir : ∀ b, fs out ≠ some (.file b) := fun b hb => houtdir ⟨b, hb⟩
    obtain ⟨sel, hsub, hsel, hselect⟩ := wadSelect_records fnmatch hashes args f rs
    have hmem : ∀ r ∈ sel, r ∈ rs ∧ Spec.Selected fnmatch hashes args r := fun r hr =>
      ⟨hsub.subset hr, (hsel r (hsub.subset hr)).1 hr⟩
    have hfits : ∀ r ∈ rs, r.hash < 256 ^ 8 := fun r hr => (h.archive.fits r hr).hash
    unfold commandWadExtract
    rw [wadOutput_spec h.wad hout houtdir]
    simp only
    rw [commandOpen_opens h]
    simp only
    rw [hselect]
    rcases hge : guessExtensions cx file toc [] (sel.map (resolvedEntry hashes f)) with ⟨c, ws, e | u⟩
    · exact Or.inl rfl
    · have hg := guessExtensions_fresh cx file toc (sel.map (resolvedEntry hashes f))
        (guessExtensions_readable cx file toc _ (by rw [hge]))
      rw [hge] at hg
      simp only [Prod.mk.injEq, and_true] at hg
      subst hg
      simp only
      have htarget : ∀ r ∈ sel, ∀ d, Readable cx file toc (guessedEntry cx file toc (resolvedEntry hashes f r)) d →
          Spec.Target cx hashes file toc f out r d (outPath out (guessedEntry cx file toc (resolvedEntry hashes f r))) := by
        intro r hr d hd
        obtain ⟨hr1, hr2⟩ := hmem r hr
        have hc : Spec.Contains cx file toc f r (some d) := by
          unfold Readable at hd
          rw [guessedEntry_read] at hd
          exact read_contains (resolvedEntry_isEntry hashes f r) hd
        obtain ⟨name, hn⟩ := wadName_exists cx hashes r d (hfits r hr1) (hext r hr1)
        exact ⟨hc, name, hn, outPath_named out (hfits r hr1) hc hn⟩
      have hentry : ∀ wf ∈ (List.map (guessedEntry cx file toc) (sel.map (resolvedEntry hashes f))).zipIdx.map (fun x => (x.1, faults x.2)),
          ∃ r ∈ sel, wf.1 = guessedEntry cx file toc (resolvedEntry hashes f r) := by
        intro wf hwf
        obtain ⟨⟨w, i⟩, hx, rfl⟩ := List.mem_map.1 hwf
        have := (List.mem_zipIdx' hx).2
        have hw : w ∈ List.map (guessedEntry cx file toc) (sel.map (resolvedEntry hashes f)) := by
          rw [this]; exact List.getElem_mem _
        rw [List.map_map] at hw
        obtain ⟨r, hr, he⟩ := List.mem_map.1 hw
        exact ⟨r, hr, he.symm⟩
      rcases C14_frame cx file toc out (!args.lazy) q _ fs (by
        intro wf hwf d hd he
        obtain ⟨r, hr, hw⟩ := hentry wf hwf
        rw [hw] at hd he
        exact hq r (hmem r hr).1 (hmem r hr).2 d (he ▸ htarget r hr d hd)) with h1 | ⟨h1, h2, wf, hwf, ⟨d, hd⟩, h3⟩
      · exact Or.inl h1
      · obtain ⟨r, hr, hw⟩ := hentry wf hwf
        rw [hw] at hd h3
        exact Or.inr ⟨h1, h2, r, (hmem r hr).1, (hmem r hr).2, d, _, htarget r hr d hd, dirPrefixes_dirOf h3⟩

/-- With `--lazy`, whatever happens, nothing that exists is changed. -/
theorem C62_lazy (cx : Codecs) (dir : Str) (fs : FS) (args : WadArgs) (fnmatch : Str → Str → Bool) (faults : Nat → WriteFaults)
    (hlazy : args.lazy = true) (q : Str) (n : Node) (hq : fs q = some n) :
    (commandWadExtract cx fnmatch dir faults fs args).1 q = some n := by
  unfold commandWadExtract
  cases wadOutput fs args.wad args.output with
  | error e => exact hq
  | ok out =>
    simp only
    cases commandOpen cx dir fs args.wad args.hashes with
    | error e => exact hq
    | ok w =>
      simp only
      rcases guessExtensions cx w.file w.toc [] (wadSelect fnmatch args.unknown args.patterns w.files) with ⟨c, ws, e | u⟩
      · exact hq
      · simp only [hlazy, Bool.not_true]
        exact C14_lazy cx w.file w.toc out q n _ fs hq

/-- Usage errors: the WAD is not a file, or the output exists and is not a directory. Nothing changes. -/
theorem C62_usage (cx : Codecs) (dir : Str) (fs : FS) (args : WadArgs) (fnmatch : Str → Str → Bool) (faults : Nat → WriteFaults) (out : Str)
    (hout : Spec.OutputOf args out) (h : (∀ b, fs args.wad ≠ some (.file b)) ∨ ∃ b, fs out = some (.file b)) :
    commandWadExtract cx fnmatch dir faults fs args = (fs, .error .usage) := by
  have : wadOutput fs args.wad args.output = .error .usage := by
    unfold wadOutput
    split
    · rename_i hw
      simp only
      rw [outputOf_eq hout, if_pos]
      rcases h with h | ⟨b, hb⟩
      · exfalso
        unfold FS.isFile at hw
        split at hw
        · rename_i b hb; exact h b hb
        · cases hw
      · simp [hb, FS.isDir]
    · rfl
  unfold commandWadExtract
  rw [this]

/-- `--unknown only` with a pattern extracts nothing: patterns only match known paths. -/
theorem C62_only_pattern {cx : Codecs} {dir : Str} {fs : FS} {args : WadArgs} {hashes : Dict Int Str} {file : Bytes} {f : WadFormat}
    {version : Nat × Nat} {rs : List WadRecord} {toc : Option Bytes} {out : Str} (fnmatch : Str → Str → Bool) (faults : Nat → WriteFaults)
    (h : Spec.Opens cx dir fs args.wad args.hashes hashes file f version rs toc)
    (hout : Spec.OutputOf args out) (houtdir : ∀ b, fs out ≠ some (.file b)) (ho : args.unknown = .only) (hp : args.patterns ≠ []) :
    commandWadExtract cx fnmatch dir faults fs args = (fs, .ok ()) := by
  obtain ⟨sel, hsub, hsel, hselect⟩ := wadSelect_records fnmatch hashes args f rs
  have hnil : sel = [] := by
    rw [List.eq_nil_iff_forall_not_mem]
    intro r hr
    have hs := (hsel r (hsub.subset hr)).1 hr
    obtain ⟨p, hp, -⟩ := hs.pattern hp
    exact hs.only ho p hp
  subst hnil
  unfold commandWadExtract
  rw [wadOutput_spec h.wad hout houtdir]
  simp only
  rw [commandOpen_opens h]
  simp only
  rw [hselect]
  rfl

/-! ### List -/

/-- `wad-list` prints a line for each file, sorted by path (`?` for unknown ones), then by hash. -/
theorem C62_list {cx : Codecs} {dir : Str} {fs : FS} {path : Str} {opt : Option Str} {hashes : Dict Int Str} {file : Bytes} {f : WadFormat}
    {version : Nat × Nat} {rs : List WadRecord} {toc : Option Bytes} (h : Spec.Opens cx dir fs path opt hashes file f version rs toc) :
    ∃ l : List (Str × Nat), commandWadList cx dir fs path opt = .ok (l.map fun x => hexW 16 x.2 ++ ' ' :: x.1) ∧
      (∀ x ∈ l, Spec.Hex16 (hexW 16 x.2) x.2) ∧
      l.Pairwise (fun a b => a.1 < b.1 ∨ (a.1 = b.1 ∧ a.2 ≤ b.2)) ∧
      ∃ names : List Str, List.Forall₂ (fun r n => Spec.KnownAs hashes r n ∧ n ≠ [] ∨ (∀ p, Spec.KnownAs hashes r p → p = []) ∧ n = ['?']) rs names ∧
        l.Perm (names.zip (rs.map WadRecord.hash)) := by
  have htot : ∀ a b : Str × Nat, listLe a b = true ∨ listLe b a = true := by
    intro a b
    simp only [listLe, Bool.or_eq_true, Bool.and_eq_true, decide_eq_true_eq]
    by_cases h1 : a.1 < b.1
    · exact Or.inl (Or.inl h1)
    by_cases h2 : b.1 < a.1
    · exact Or.inr (Or.inl h2)
    have h : a.1 = b.1 := List.le_antisymm (List.not_lt.1 h2) (List.not_lt.1 h1)
    rcases Nat.le_total a.2 b.2 with h' | h'
    · exact Or.inl (Or.inr ⟨h, h'⟩)
    · exact Or.inr (Or.inr ⟨h.symm, h'⟩)
  have htrans : ∀ a b c : Str × Nat, listLe a b = true → listLe b c = true → listLe a c = true := by
    intro a b c
    simp only [listLe, Bool.or_eq_true, Bool.and_eq_true, decide_eq_true_eq]
    rintro (h1 | ⟨h1, h2⟩) (h3 | ⟨h3, h4⟩)
    · exact Or.inl (List.lt_trans h1 h3)
    · exact Or.inl (h3 ▸ h1)
    · exact Or.inl (h1 ▸ h3)
    · exact Or.inr ⟨h1.trans h3, h2.trans h4⟩
  have : Std.Total fun a b : Str × Nat => listLe a b = true := ⟨htot⟩
  have : IsTrans (Str × Nat) fun a b => listLe a b = true := ⟨htrans⟩
  refine ⟨((rs.map (resolvedEntry hashes f)).map fun f => (listName f, f.pathHash)).insertionSort fun a b => listLe a b = true, ?_, ?_, ?_, ?_⟩
  · unfold commandWadList
    rw [if_pos (by simp [FS.isFile, h.wad]), commandOpen_opens h]
    rfl
  · intro x hx
    rw [List.mem_insertionSort, List.map_map] at hx
    obtain ⟨r, hr, rfl⟩ := List.mem_map.1 hx
    simp only [Function.comp, resolvedEntry_hash]
    have := (h.archive.fits r hr).hash
    exact hex16_hexW (by omega)
  · refine (List.pairwise_insertionSort _ _).imp ?_
    intro a b hab
    simp only [listLe, Bool.or_eq_true, Bool.and_eq_true, decide_eq_true_eq] at hab
    exact hab
  · refine ⟨rs.map fun r => listName (resolvedEntry hashes f r), ?_, ?_⟩
    · rw [List.forall₂_map_right_iff, List.forall₂_same]
      intro r _
      unfold listName
      rw [resolvedEntry_path]
      cases hg : hashes.get? (r.hash : Int) with
      | none =>
        right
        refine ⟨fun p hp => ?_, ?_⟩
        · rw [Spec.KnownAs, hg] at hp; cases hp
        · rw [resolvedEntry_unknown f (fun p hp => by rw [Spec.KnownAs, hg] at hp; cases hp)]; rfl
      | some p =>
        cases p with
        | nil =>
          right
          refine ⟨fun p hp => ?_, ?_⟩
          · rw [Spec.KnownAs, hg] at hp; cases hp; rfl
          · rw [resolvedEntry_known f hg]; rfl
        | cons c cs =>
          left
          exact ⟨hg, by simp [given]⟩
    · refine (List.perm_insertionSort _ _).trans ?_
      rw [List.map_map, List.zip_map']
      refine List.Perm.of_eq (List.map_congr_left fun r _ => ?_)
      simp only [Function.comp, resolvedEntry_hash]

/-! ### A concrete case: a known file and an unknown one, in a WAD of version 1 -/

namespace C62ex

def cx : Codecs := { gunzip := .ok, unzstd := .ok, xxh3 := leNat, isJson := fun _ => false }
def r1 : WadRecord := { hash := 0xab, offset := 60, compressedSize := 2, size := 2, type := 0, subchunks := 0, duplicate := false, first := 0, checksum := 0 }
def r2 : WadRecord := { hash := 0xcd, offset := 62, compressedSize := 4, size := 4, type := 1, subchunks := 0, duplicate := false, first := 0, checksum := 0 }
def file : Bytes := wadFile .v1 1 0 [0, 0, 0, 0] [r1, r2] [1, 2, 0x4f, 0x67, 0x67, 0x53]
def hashes : Dict Int Str := [(0xab, "a/x.bin".toList)]
def fs : FS := fun p => if p = "dir/w.wad".toList then some (.file file)
  else if p = "h/hashes.lcu.txt".toList then some (.file (utf8Bytes "00000000000000ab a/x.bin\n".toList)) else none
def args : WadArgs := { wad := "dir/w.wad".toList }

theorem opens : Spec.Opens cx "h".toList fs args.wad args.hashes hashes file .v1 (1, 0) [r1, r2] none where
  wad := rfl
  known := ⟨_, _, Or.inr (Or.inr ⟨rfl, ⟨"dir/w".toList, by decide⟩, rfl⟩), rfl, by decide +kernel⟩
  archive :=
    { format := rfl
      minor := by decide
      fits := by
        intro r hr
        simp only [List.mem_cons, List.not_mem_nil, or_false] at hr
        rcases hr with rfl | rfl <;> constructor <;> first | trivial | decide
      count := by decide
      layout := ⟨[0, 0, 0, 0], [1, 2, 0x4f, 0x67, 0x67, 0x53], rfl, rfl⟩
      table := by
        left
        refine ⟨?_, rfl⟩
        intro r hr ⟨s, hs⟩
        simp only [List.mem_cons, List.not_mem_nil, or_false] at hr
        rcases hr with rfl | rfl
        · have h1 : (some "a/x.bin".toList : Option Str) = some (s ++ ".subchunktoc".toList) := hs
          have := congrArg (Option.map List.length) h1
          simp only [Option.map_some, List.length_append, Option.some.injEq] at this
          have h2 : "a/x.bin".toList.length = 7 := by decide
          have h3 : ".subchunktoc".toList.length = 12 := by decide
          omega
        · cases hs }

theorem output : Spec.OutputOf args "dir/w".toList :=
  Or.inr ⟨Or.inl rfl, Or.inl ⟨"wad".toList, hasExt_iff.2 (by decide), by decide⟩⟩

theorem contains : Spec.Contains cx file none .v1 r1 (some [1, 2]) ∧ Spec.Contains cx file none .v1 r2 (some [0x4f, 0x67, 0x67, 0x53]) :=
  ⟨.raw rfl, .gzip _ rfl (by decide +kernel)⟩

theorem target {r : WadRecord} {d : Bytes} {x : Str} (hr : r ∈ [r1, r2]) (h : Spec.Target cx hashes file none .v1 "dir/w".toList r d x) :
    (r = r1 ∧ d = [1, 2] ∧ x = "dir/w/a/x.bin".toList) ∨
    (r = r2 ∧ d = [0x4f, 0x67, 0x67, 0x53] ∧ x = "dir/w/unknown/00000000000000cd.ogg".toList) := by
  obtain ⟨hc, name, hn, rfl⟩ := h
  simp only [List.mem_cons, List.not_mem_nil, or_false] at hr
  rcases hr with rfl | rfl
  · refine Or.inl ⟨rfl, ?_, ?_⟩
    · have := contains_unique hc contains.1; cases this; rfl
    · rw [← outPath_named _ (by decide) hc hn]; decide +kernel
  · refine Or.inr ⟨rfl, ?_, ?_⟩
    · have := contains_unique hc contains.2; cases this; rfl
    · rw [← outPath_named _ (by decide) hc hn]; decide +kernel

theorem not_dirOf {q x : Str} (h1 : ¬ ∀ c ∈ q, c = '/') (h2 : ¬ (q ++ ['/']) <+: x) : ¬ Spec.DirOf q x := by
  rintro (h | ⟨r, h⟩)
  · exact h1 h
  · exact h2 ⟨r, by rw [h]; simp⟩

/-- The hypotheses of `C62_extract` are met, and both files are extracted. -/
example : ∃ fs', commandWadExtract cx (fun _ _ => false) "h".toList (fun _ => {}) fs args = (fs', .ok ()) ∧
    fs' "dir/w/a/x.bin".toList = some (.file [1, 2]) ∧
    fs' "dir/w/unknown/00000000000000cd.ogg".toList = some (.file [0x4f, 0x67, 0x67, 0x53]) := by
  have hsel : ∀ r, Spec.Selected (fun _ _ => false) hashes args r := fun r => ⟨by rintro ⟨⟩, by rintro ⟨⟩, fun h => absurd rfl h⟩
  obtain ⟨fs', h1, h2, -⟩ := C62_extract (fun _ _ => false) opens rfl output
    (by
      intro b hb
      have : fs "dir/w".toList = none := by decide +kernel
      rw [this] at hb
      cases hb)
    (by
      intro r hr _
      simp only [List.mem_cons, List.not_mem_nil, or_false] at hr
      rcases hr with rfl | rfl
      · exact ⟨_, contains.1⟩
      · exact ⟨_, contains.2⟩)
    (by
      intro r hr p e hp he
      simp only [List.mem_cons, List.not_mem_nil, or_false] at hr
      rcases hr with rfl | rfl
      · have h1 : (some "a/x.bin".toList : Option Str) = some p := hp
        cases h1
        have h1 := hasExt_iff.1 he
        have h2 : (splitext "a/x.bin".toList).2 = '.' :: "bin".toList := by decide
        rw [h2] at h1
        cases h1
        decide
      · cases hp)
    (by
      rw [List.pairwise_cons]
      refine ⟨?_, List.pairwise_singleton _ _⟩
      intro r hr _ _ d d' x x' ht ht'
      simp only [List.mem_cons, List.not_mem_nil, or_false] at hr
      subst hr
      rcases target (List.mem_cons_self ..) ht with ⟨-, -, rfl⟩ | ⟨h, -, -⟩
      · rcases target (by simp) ht' with ⟨h, -, -⟩ | ⟨-, -, rfl⟩
        · exact absurd (congrArg WadRecord.hash h) (by decide)
        · exact ⟨by decide, not_dirOf (by decide) (by decide), not_dirOf (by decide) (by decide)⟩
      · exact absurd (congrArg WadRecord.hash h) (by decide))
    (by
      intro r hr _ d x ht
      have key : ∀ q b, fs q = some (.file b) → q = "dir/w.wad".toList ∨ q = "h/hashes.lcu.txt".toList := by
        intro q b hq
        unfold fs at hq
        split at hq
        · exact Or.inl ‹_›
        · split at hq
          · exact Or.inr ‹_›
          · cases hq
      rcases target hr ht with ⟨-, -, rfl⟩ | ⟨-, -, rfl⟩
      · refine ⟨by decide +kernel, fun q hq b hb => ?_⟩
        rcases key q b hb with rfl | rfl <;> exact not_dirOf (by decide) (by decide) hq
      · refine ⟨by decide +kernel, fun q hq b hb => ?_⟩
        rcases key q b hb with rfl | rfl <;> exact not_dirOf (by decide) (by decide) hq)
  refine ⟨fs', h1, ?_, ?_⟩
  · obtain ⟨x, hx, hf⟩ := h2 r1 (by simp) (hsel r1) _ contains.1
    rcases target (by simp) hx with ⟨-, -, rfl⟩ | ⟨h, -, -⟩
    · exact hf
    · exact absurd (congrArg WadRecord.hash h) (by decide)
  · obtain ⟨x, hx, hf⟩ := h2 r2 (by simp) (hsel r2) _ contains.2
    rcases target (by simp) hx with ⟨h, -, -⟩ | ⟨-, -, rfl⟩
    · exact absurd (congrArg WadRecord.hash h) (by decide)
    · exact hf

/-- The list -/
example : commandWadList cx "h".toList fs args.wad args.hashes =
    .ok ["00000000000000cd ?".toList, "00000000000000ab a/x.bin".toList] := by decide +kernel

end C62ex

end Cdtb
