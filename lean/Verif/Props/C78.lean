import Verif.Model.SknCmd
import Verif.Spec.SknCmd
import Verif.Lemmas.FS
import Verif.Lemmas.Path
import Verif.Lemmas.BinDecode
import Verif.Props.C19
import Verif.Props.C56
/-!
# C78: extraction of SKN files
-/
namespace Cdtb
set_option autoImplicit false
open Py Spec

/-! ## Names of files -/

theorem sknObjName_eq (out : Str) (e : SknEntry) : sknObjName out e = objPath out e.name := by
  have hd : ".obj".toList = ['.', 'o', 'b', 'j'] := by decide +kernel
  unfold sknObjName pjoin objPath
  have h1 : startsWith (e.name ++ ".obj".toList) ['/'] = true ↔ e.name.head? = some '/' := by
    rw [hd]
    cases e.name with
    | nil => decide
    | cons c s =>
      change ('/' == c && true) = true ↔ some c = some '/'
      rw [Bool.and_true, beq_iff_eq, Option.some.injEq, eq_comm]
  have h2 : (out.isEmpty || endsWith out ['/']) = true ↔ out = [] ∨ out.getLast? = some '/' := by
    rw [Bool.or_eq_true, List.isEmpty_iff]
    refine or_congr Iff.rfl ?_
    unfold endsWith
    rw [List.isSuffixOf_iff_suffix, List.getLast?_eq_some_iff]
    exact ⟨fun ⟨t, h⟩ => ⟨t, h.symm⟩, fun ⟨t, h⟩ => ⟨t, h.symm⟩⟩
  by_cases c1 : e.name.head? = some '/'
  · rw [if_pos (h1.2 c1), if_pos c1]
  · rw [if_neg (fun h => c1 (h1.1 h)), if_neg c1]
    by_cases c2 : out = [] ∨ out.getLast? = some '/'
    · rw [if_pos (h2.2 c2), if_pos c2, List.append_assoc]
    · rw [if_neg (fun h => c2 (h2.1 h)), if_neg c2]
      simp

theorem toObj_iff (showF : Nat → Str) (e : SknEntry) (t : Str) : toObj showF e = .ok t ↔ ObjText showF e t := by
  obtain ⟨h1, h2⟩ := C19_obj showF e
  constructor
  · intro h
    by_cases c : e.indices.length % 3 = 0
    · obtain ⟨faces, f1, f2⟩ := h2 c
      rw [h] at f2
      exact ⟨faces, f1, Except.ok.inj f2⟩
    · rw [h1 c] at h; cases h
  · rintro ⟨faces, f1, rfl⟩
    have hl : ∀ l : List (Nat × Nat × Nat), (l.flatMap (fun f => [f.1, f.2.1, f.2.2])).length % 3 = 0 := by
      intro l
      induction l with
      | nil => rfl
      | cons a l ih => rw [List.flatMap_cons, List.length_append]; simp only [List.length_cons, List.length_nil]; omega
    have hi : ∀ l l' : List (Nat × Nat × Nat), l.flatMap (fun f => [f.1, f.2.1, f.2.2]) = l'.flatMap (fun f => [f.1, f.2.1, f.2.2]) →
        l = l' := by
      intro l
      induction l with
      | nil => intro l' h; cases l' with
        | nil => rfl
        | cons a l' => simp at h
      | cons a l ih => intro l' h; cases l' with
        | nil => simp at h
        | cons b l' =>
          simp only [List.flatMap_cons, List.cons_append, List.nil_append, List.cons.injEq] at h
          obtain ⟨x1, x2, x3, x4⟩ := h
          rw [ih l' x4, Prod.ext x1 (Prod.ext x2 x3)]
    obtain ⟨faces', f1', f2'⟩ := h2 (by rw [f1]; exact hl faces)
    rw [hi faces faces' (f1.symm.trans f1')]
    exact f2'

theorem toObj_error {showF : Nat → Str} {e : SknEntry} {x : Err} (h : toObj showF e = .error x) : e.indices.length % 3 ≠ 0 := by
  intro c
  obtain ⟨faces, -, f2⟩ := (C19_obj showF e).2 c
  rw [h] at f2; cases f2

/-! ## Writing texts -/

theorem writeText_other (fs : FS) (path : Str) (t : Res Str) (f : TextFaults) {q : Str} (h : q ≠ path) : (writeText fs path t f).1 q = fs q := by
  unfold writeText
  repeat' split
  all_goals first | rfl | exact FS.set_other _ h _

theorem writeText_ok {fs : FS} {path : Str} {t : Res Str} {f : TextFaults} (h : (writeText fs path t f).2 = .ok ()) :
    ∃ s, t = .ok s ∧ (writeText fs path t f).1 path = some (.file (utf8Bytes s)) := by
  unfold writeText at h ⊢
  split at h
  · cases h
  · split at h
    · cases h
    · split at h
      · cases h
      · split at h
        · cases h
        · rename_i h1 h2 _ s
          split at h
          · cases h
          · exact ⟨s, rfl, by rw [if_neg h1, if_neg h2]; exact FS.set_self _ _ _⟩

theorem writeText_error {fs : FS} {path : Str} {t : Res Str} {f : TextFaults} {x : Err} (h : (writeText fs path t f).2 = .error x) :
    (writeText fs path t f).1 path = fs path ∨ ∃ c, (writeText fs path t f).1 path = some (.file c) ∧
      (∀ s, t = .ok s → c <+: utf8Bytes s) ∧ (∀ e, t = .error e → c = []) := by
  unfold writeText at h ⊢
  split
  · exact Or.inl rfl
  · split
    · exact Or.inl rfl
    · split
      · exact Or.inl rfl
      · refine Or.inr ?_
        split
        · exact ⟨[], by simp, by simp, by simp⟩
        · rename_i s
          split
          · exact ⟨_, FS.set_self _ _ _, fun s' hs => by cases hs; exact List.take_prefix _ _, fun e he => by cases he⟩
          · exact ⟨_, FS.set_self _ _ _, fun s' hs => by cases hs; exact List.prefix_refl _, fun e he => by cases he⟩

theorem Spec.Wrote.nil (showF : Nat → Str) (out : Str) (fs : FS) : Wrote showF out [] fs fs := ⟨by simp, fun _ => Or.inr ⟨by simp, rfl⟩⟩

theorem Spec.Wrote.cons {showF : Nat → Str} {out : Str} {e : SknEntry} {es : List SknEntry} {fs fs1 fs2 : FS} {t : Str}
    (ht : ObjText showF e t) (h1 : fs1 (objPath out e.name) = some (.file (utf8Bytes t))) (h2 : ∀ q, q ≠ objPath out e.name → fs1 q = fs q)
    (h : Wrote showF out es fs1 fs2) : Wrote showF out (e :: es) fs fs2 := by
  refine ⟨?_, fun q => ?_⟩
  · intro x hx
    rcases List.mem_cons.1 hx with rfl | hx
    · exact ⟨t, ht⟩
    · exact h.1 x hx
  rcases h.2 q with ⟨before, x, after, s, g1, g2, g3, g4, g5⟩ | ⟨g1, g2⟩
  · exact Or.inl ⟨e :: before, x, after, s, by rw [g1]; rfl, g2, g3, g4, g5⟩
  · by_cases c : objPath out e.name = q
    · exact Or.inl ⟨[], e, es, t, rfl, c, g1, ht, by rw [g2, ← c, h1]⟩
    · refine Or.inr ⟨?_, by rw [g2, h2 q (Ne.symm c)]⟩
      intro x hx
      rcases List.mem_cons.1 hx with rfl | hx
      · exact c
      · exact g1 x hx

/-- What remains after a failure when the file of a submesh is written -/
def Spec.Interrupted (out : Str) (showF : Nat → Str) (x : SknEntry) (fs fs' : FS) : Prop :=
  (∀ q, q ≠ objPath out x.name → fs' q = fs q) ∧
  (fs' (objPath out x.name) = fs (objPath out x.name) ∨
    ∃ c, fs' (objPath out x.name) = some (.file c) ∧ (∀ t, ObjText showF x t → c <+: utf8Bytes t) ∧ (x.indices.length % 3 ≠ 0 → c = []))

theorem sknLoop (showF : Nat → Str) (out : Str) (flts : Nat → TextFaults) (es : List SknEntry) : ∀ (i : Nat) (fs fs' : FS) (r : Res Unit),
    forElems (fun i fs e => writeText fs (sknObjName out e) (toObj showF e) (flts i)) i fs es = (fs', r) →
    (r = .ok () ∧ Wrote showF out es fs fs') ∨
    ∃ err done x rest mid, r = .error err ∧ es = done ++ x :: rest ∧ Wrote showF out done fs mid ∧ Interrupted out showF x mid fs' := by
  induction es with
  | nil => intro i fs fs' r h; cases h; exact Or.inl ⟨rfl, Wrote.nil _ _ _⟩
  | cons e es ih =>
    intro i fs fs' r h
    simp only [forElems] at h
    have hother : ∀ q, q ≠ objPath out e.name → (writeText fs (sknObjName out e) (toObj showF e) (flts i)).1 q = fs q := by
      intro q hq
      exact writeText_other fs _ (toObj showF e) (flts i) (by rw [sknObjName_eq]; exact hq)
    split at h
    · rename_i fs1 err hw
      cases h
      refine Or.inr ⟨err, [], e, es, fs, rfl, rfl, Wrote.nil _ _ _, ?_, ?_⟩
      · intro q hq; have := hother q hq; rwa [hw] at this
      · have := writeText_error (x := err) (by rw [hw])
        rw [hw, sknObjName_eq] at this
        rcases this with g | ⟨c, g1, g2, g3⟩
        · exact Or.inl g
        · refine Or.inr ⟨c, g1, fun t ht => g2 t ((toObj_iff showF e t).2 ht), fun hm => g3 .value ?_⟩
          exact (C19_obj showF e).1 hm
    · rename_i fs1 hw
      obtain ⟨t, t1, t2⟩ := writeText_ok (f := flts i) (t := toObj showF e) (fs := fs) (path := sknObjName out e) (by rw [hw])
      rw [hw, sknObjName_eq] at t2
      have t3 := (toObj_iff showF e t).1 t1
      rw [hw] at hother
      rcases ih (i + 1) fs1 fs' r h with ⟨g1, g2⟩ | ⟨err, done, x, rest, mid, g1, g2, g3, g4⟩
      · exact Or.inl ⟨g1, g2.cons t3 t2 hother⟩
      · exact Or.inr ⟨err, e :: done, x, rest, mid, g1, by rw [g2]; rfl, g3.cons t3 t2 hother, g4⟩

theorem makedirs_dirsMade (fs : FS) (out : Str) (f) : DirsMade out fs (fs.makedirs out f).1 := by
  intro q
  rcases makedirs_dirsAdded fs out f q with h | ⟨h1, h2, h3⟩
  · exact Or.inl h
  · exact Or.inr ⟨(mem_dirPrefixes h1).2, h2, h3⟩

/-! ## The command -/

/-- When the command succeeds, the SKN file was read, and the file of each submesh has its text; when several submeshes have the same file, the text of
the last one. Nothing else changed, but the output directory was created if needed. -/
theorem C78_extract (showF : Nat → Str) (fs fs' : FS) (skn : Str) (output : Option Str) (mk : Option (Nat × Err)) (flts : Nat → TextFaults)
    (h : sknExtract showF fs skn output mk flts = (fs', .ok ())) :
    ∃ b s fs1, fs skn = some (.file b) ∧ parseSkn.run b = .ok s ∧ DirsMade (output.getD (splitext skn).1) fs fs1 ∧
      Wrote showF (output.getD (splitext skn).1) s.entries fs1 fs' := by
  have ho : sknOutput skn output = output.getD (splitext skn).1 := by cases output <;> rfl
  unfold sknExtract at h
  rw [ho] at h
  split at h
  · rename_i b hb
    split at h
    · cases h
    · rename_i s hs
      have hd := makedirs_dirsMade fs (output.getD (splitext skn).1) mk
      split at h
      · cases h
      · rename_i fs1 hm
        rw [hm] at hd
        rcases sknLoop _ _ _ _ _ _ _ _ h with ⟨-, g⟩ | ⟨err, _, _, _, _, g, _⟩
        · exact ⟨b, s, fs1, hb, hs, hd, g⟩
        · cases g
  · cases h

/-- When the command fails: nothing is changed if there is no SKN file or if it cannot be read; otherwise the output directory may have been created, and
the files of the first submeshes are written; only the file of the next submesh may be damaged: it has the beginning of its text, nothing at all if its
number of indices is not a multiple of 3. -/
theorem C78_failure (showF : Nat → Str) (fs fs' : FS) (skn : Str) (output : Option Str) (mk : Option (Nat × Err)) (flts : Nat → TextFaults) (err : Err)
    (h : sknExtract showF fs skn output mk flts = (fs', .error err)) :
    ((∀ b s, fs skn = some (.file b) → parseSkn.run b ≠ .ok s) ∧ fs' = fs) ∨
    ∃ b s fs1, fs skn = some (.file b) ∧ parseSkn.run b = .ok s ∧ DirsMade (output.getD (splitext skn).1) fs fs1 ∧
      (fs' = fs1 ∨ ∃ done x rest mid, s.entries = done ++ x :: rest ∧ Wrote showF (output.getD (splitext skn).1) done fs1 mid ∧
        Interrupted (output.getD (splitext skn).1) showF x mid fs') := by
  have ho : sknOutput skn output = output.getD (splitext skn).1 := by cases output <;> rfl
  unfold sknExtract at h
  rw [ho] at h
  split at h
  · rename_i b hb
    split at h
    · rename_i x hx
      cases h
      refine Or.inl ⟨?_, rfl⟩
      intro b' s hb' hs
      rw [hb] at hb'; cases hb'
      rw [hx] at hs; cases hs
    · rename_i s hs
      have hd := makedirs_dirsMade fs (output.getD (splitext skn).1) mk
      split at h
      · rename_i fs1 x hm
        rw [hm] at hd
        cases h
        exact Or.inr ⟨b, s, fs', hb, hs, hd, Or.inl rfl⟩
      · rename_i fs1 hm
        rw [hm] at hd
        rcases sknLoop _ _ _ _ _ _ _ _ h with ⟨g, -⟩ | ⟨err', done, x, rest, mid, -, g2, g3, g4⟩
        · cases g
        · exact Or.inr ⟨b, s, fs1, hb, hs, hd, Or.inr ⟨done, x, rest, mid, g2, g3, g4⟩⟩
  · rename_i hn
    cases h
    exact Or.inl ⟨fun b s hb => absurd hb (hn b), rfl⟩

/-- The command succeeds when the SKN file can be read, numbers of indices are multiples of 3, names are plain, the output directory can be made,
directories are not in the way of the files, and the operating system does not fail. -/
theorem C78_succeeds (showF : Nat → Str) (fs : FS) (skn : Str) (output : Option Str) (flts : Nat → TextFaults) (b : Bytes) (s : Skn) (out : Str)
    (hout : out = output.getD (splitext skn).1) (hb : fs skn = some (.file b)) (hs : parseSkn.run b = .ok s) (hne : out ≠ []) (hlast : out.getLast? ≠ some '/')
    (hdirs : ∀ q c, fs q = some (.file c) → q ≠ out ∧ ∀ r, out ≠ q ++ '/' :: r) (hmul : ∀ e ∈ s.entries, e.indices.length % 3 = 0)
    (hplain : ∀ e ∈ s.entries, '/' ∉ e.name) (hnd : ∀ e ∈ s.entries, fs (objPath out e.name) ≠ some .dir)
    (hf : ∀ i, (flts i).open_ = none ∧ (flts i).write = none) : (sknExtract showF fs skn output none flts).2 = .ok () := by
  have ho : sknOutput skn output = out := by rw [hout]; cases output <;> rfl
  have hemp : out.isEmpty = false := by cases out <;> simp_all
  unfold sknExtract
  rw [hb, ho]
  simp only [hs]
  have hpre : ∀ d ∈ dirPrefixes out, ∀ c, fs d ≠ some (.file c) := by
    intro d hd c hc
    obtain ⟨h1, h2⟩ := hdirs d c hc
    rcases (mem_dirPrefixes hd).2 with h | ⟨r, h⟩
    · exact h1 h
    · exact h2 r h
  have hmk : (fs.makedirs out none).2 = .ok () := by
    unfold FS.makedirs; rw [hemp]; exact makedirsGo_succeeds fs _ hpre
  have hself : out ∈ dirPrefixes out := by
    unfold dirPrefixes
    simp only [List.mem_filter, List.mem_map, List.mem_range]
    refine ⟨⟨(splitChar '/' out).length - 1, ?_, ?_⟩, by rw [hemp]; rfl⟩
    · have := splitChar_ne_nil '/' out
      cases hsp : splitChar '/' out with
      | nil => exact absurd hsp this
      | cons a l => simp
    · rw [List.take_of_length_le (by omega), join_splitChar]
  have hisdir : (fs.makedirs out none).1 out = some .dir := by
    unfold FS.makedirs at hmk ⊢
    rw [hemp] at hmk ⊢
    exact (makedirsGo_ok fs none _ hmk).1 out hself
  have hadd := makedirs_dirsAdded fs out none
  rcases hm : fs.makedirs out none with ⟨fs1, r⟩
  rw [hm] at hmk hisdir hadd
  simp only at hmk hisdir hadd
  subst hmk
  simp only
  have hpath : ∀ e ∈ s.entries, objPath out e.name = out ++ '/' :: (e.name ++ ".obj".toList) := by
    intro e he
    unfold objPath
    rw [if_neg, if_neg]
    · simp
    · rintro (h | h)
      · exact hne h
      · exact hlast h
    · intro h
      have := List.mem_of_mem_head? h
      exact hplain e he this
  have hdn : ∀ e ∈ s.entries, dirname (objPath out e.name) = out := by
    intro e he
    rw [hpath e he]
    have hb : '/' ∉ e.name ++ ".obj".toList := by
      rw [List.mem_append, not_or]
      exact ⟨hplain e he, by decide +kernel⟩
    have := psplit_dir (dir := out ++ ['/']) (base := e.name ++ ".obj".toList) (Or.inr ⟨out, rfl⟩) hb
    unfold dirname
    rw [show out ++ '/' :: (e.name ++ ".obj".toList) = out ++ ['/'] ++ (e.name ++ ".obj".toList) by simp, this]
    unfold dirOf
    have hx : ∃ c ∈ out, c ≠ '/' := by
      obtain ⟨c, hc⟩ : ∃ c, out.getLast? = some c := by
        cases hg : out.getLast? with
        | none => exact absurd (List.getLast?_eq_none_iff.1 hg) hne
        | some c => exact ⟨c, rfl⟩
      exact ⟨c, List.mem_of_getLast? hc, fun h => hlast (h ▸ hc)⟩
    rw [if_neg]
    · unfold rstripChar
      rw [List.reverse_append]
      simp only [List.reverse_cons, List.reverse_nil, List.nil_append, List.cons_append]
      rw [List.dropWhile_cons_of_pos (by simp)]
      have : out.reverse.dropWhile (fun x => decide (x = '/')) = out.reverse := by
        rw [List.dropWhile_eq_self_iff]
        intro h
        rw [← List.head_eq_getElem (by simpa using hne)]
        simp only [List.head_reverse, decide_eq_true_eq]
        intro hh
        exact hlast (by rw [List.getLast?_eq_some_getLast hne, hh])
      first
        | rw [this, List.reverse_reverse]
        | (simp only [beq_iff_eq] at *; rw [this, List.reverse_reverse])
    · intro h
      obtain ⟨c, h1, h2⟩ := hx
      exact h2 (by simpa using List.all_eq_true.1 h c (by simp [h1]))
  have key : ∀ (es : List SknEntry) (i : Nat) (fs2 : FS), (∀ e ∈ es, e ∈ s.entries) → fs2 out = some .dir →
      (∀ e ∈ s.entries, fs2 (objPath out e.name) ≠ some .dir) →
      (forElems (fun i fs e => writeText fs (sknObjName out e) (toObj showF e) (flts i)) i fs2 es).2 = .ok () := by
    intro es
    induction es with
    | nil => intro _ _ _ _ _; rfl
    | cons e es ih =>
      intro i fs2 hmem h1 h2
      have he := hmem e (by simp)
      obtain ⟨faces, -, htxt⟩ := (C19_obj showF e).2 (hmul e he)
      have hw : ∃ c, writeText fs2 (sknObjName out e) (toObj showF e) (flts i) = (fs2.set (objPath out e.name) (some (.file c)), .ok ()) := by
        unfold writeText
        rw [(hf i).1, (hf i).2, htxt, sknObjName_eq]
        simp only
        rw [if_neg, if_neg (h2 e he)]
        · exact ⟨_, rfl⟩
        · unfold parentIsDir
          rw [hdn e he, h1]
          simp
      obtain ⟨c, hw⟩ := hw
      simp only [forElems, hw]
      apply ih
      · intro x hx; exact hmem x (by simp [hx])
      · rw [FS.set_other]
        · exact h1
        · rw [hpath e he]
          intro h
          have := congrArg List.length h
          simp at this
      · intro x hx
        by_cases c : objPath out x.name = objPath out e.name
        · rw [c, FS.set_self]; simp
        · rw [FS.set_other _ c]; exact h2 x hx
  apply key
  · exact fun _ h => h
  · exact hisdir
  · intro e he h
    rcases hadd (objPath out e.name) with g | ⟨g1, g2, g3⟩
    · rw [g] at h; exact hnd e he h
    · have := mem_dirPrefixes_length g1
      rw [hpath e he] at this
      simp at this

/-- Without `--output`, a SKN file whose name has no extension is never extracted: the output directory would be the file itself. No file is written. -/
theorem C78_no_extension (showF : Nat → Str) (fs : FS) (skn : Str) (mk : Option (Nat × Err)) (flts : Nat → TextFaults)
    (h : (splitext skn).2 = []) :
    (∃ e, (sknExtract showF fs skn none mk flts).2 = .error e) ∧
    ∀ q c, (sknExtract showF fs skn none mk flts).1 q = some (.file c) → fs q = some (.file c) := by
  have hsame : (splitext skn).1 = skn := by have := splitext_append skn; rwa [h, List.append_nil] at this
  unfold sknExtract sknOutput
  rw [hsame]
  split
  · rename_i b hb
    split
    · exact ⟨⟨_, rfl⟩, fun _ _ h => h⟩
    · have hadd := makedirs_dirsAdded fs skn mk
      have hnot : (fs.makedirs skn mk).2 ≠ .ok () := by
        intro hok
        unfold FS.makedirs at hok
        split at hok
        · cases hok
        · rename_i hne
          have := (makedirsGo_ok fs mk _ hok).2.1 skn ?_ b
          · exact this hb
          · unfold dirPrefixes
            simp only [List.mem_filter, List.mem_map, List.mem_range]
            refine ⟨⟨(splitChar '/' skn).length - 1, ?_, ?_⟩, by simpa using hne⟩
            · have := splitChar_ne_nil '/' skn
              cases hsp : splitChar '/' skn with
              | nil => exact absurd hsp this
              | cons a l => simp
            · rw [List.take_of_length_le (by omega), join_splitChar]
      rcases hm : fs.makedirs skn mk with ⟨fs1, r⟩
      rw [hm] at hadd hnot
      cases r with
      | ok u => exact absurd rfl hnot
      | error e =>
        refine ⟨⟨e, rfl⟩, ?_⟩
        intro q c hq
        simp only at hq
        rcases hadd q with g | ⟨-, -, g⟩
        · rw [← g]; exact hq
        · simp only at g; rw [g] at hq; cases hq
  · exact ⟨⟨_, rfl⟩, fun _ _ h => h⟩

/-- Names of submeshes are not checked: when the name is an absolute path, the file is written there, whatever the output directory. -/
theorem C78_absolute (out name : Str) : objPath out ('/' :: name) = '/' :: (name ++ ".obj".toList) := by
  unfold objPath; rw [if_pos (by rfl)]; rfl

/-- A submesh whose number of indices is not a multiple of 3 makes the command fail. -/
theorem C78_odd (showF : Nat → Str) (fs : FS) (skn : Str) (output : Option Str) (mk : Option (Nat × Err)) (flts : Nat → TextFaults) (b : Bytes) (s : Skn)
    (hb : fs skn = some (.file b)) (hs : parseSkn.run b = .ok s) (e : SknEntry) (he : e ∈ s.entries) (hm : e.indices.length % 3 ≠ 0) :
    ∃ err, (sknExtract showF fs skn output mk flts).2 = .error err := by
  rcases hr : sknExtract showF fs skn output mk flts with ⟨fs', r⟩
  cases r with
  | error err => exact ⟨err, rfl⟩
  | ok u =>
    obtain ⟨b', s', fs1, g1, g2, -, g3⟩ := C78_extract showF fs fs' skn output mk flts hr
    rw [hb] at g1; cases g1
    rw [hs] at g2; cases g2
    obtain ⟨t, ht⟩ := g3.1 e he
    have := (toObj_iff showF e t).2 ht
    rw [(C19_obj showF e).1 hm] at this
    cases this


/-! ## The text determines the geometry -/

theorem objRef_not {c : Char} (h1 : isDig c = false) (h2 : c ≠ '/') (n : Nat) : c ∉ objRef n := by
  have := showNat_digits n
  intro h
  simp only [objRef, join, List.mem_append, List.mem_cons, List.not_mem_nil, or_false] at h
  have hd : c ∉ showNat 10 n := fun hc => by rw [this c hc] at h1; cases h1
  tauto

theorem objRef_inj {n m : Nat} {r s : Str} (h : objRef n ++ r = objRef m ++ s) : n = m := by
  have hs : ∀ k, '/' ∉ showNat 10 k := fun k hc => by have := showNat_digits k _ hc; exact absurd this (by decide)
  simp only [objRef, join, List.append_assoc, List.cons_append, List.nil_append] at h
  exact showNat_inj (by decide) (by decide) (word_sep (hs n) (hs m) h).1

/-- The lines of faces: the first character, and what can be read from them -/
theorem objFaceLine_inj {f g : Nat × Nat × Nat} {r s : Str} (h : objFaceLine f ++ r = objFaceLine g ++ s) : f = g ∧ r = s := by
  have e1 : "f".toList = ['f'] := by decide +kernel
  have hsp : ∀ n, ' ' ∉ objRef n := objRef_not (by decide) (by decide)
  have hnl : ∀ n, '\n' ∉ objRef n := objRef_not (by decide) (by decide)
  simp only [objFaceLine, join, e1, List.append_assoc, List.cons_append, List.nil_append, List.cons.injEq, true_and] at h
  obtain ⟨h1, h⟩ := word_sep (hsp _) (hsp _) h
  have x1 := objRef_inj (n := f.1) (m := g.1) (r := []) (s := []) (by rw [h1])
  have x2 := objRef_inj h
  rw [x2] at h
  have h := List.append_cancel_left h
  simp only [List.cons.injEq, true_and] at h
  have x3 := objRef_inj h
  rw [x3] at h
  have h := List.append_cancel_left h
  simp only [List.cons.injEq, true_and] at h
  exact ⟨Prod.ext x1 (Prod.ext x2 x3), h⟩

theorem objVertexLines_inj {showF : Nat → Str} {v w : SknVertex} {r s : Str} (hc : ClearFloats showF (shapeFloats v ++ shapeFloats w))
    (h : objVertexLines showF v ++ r = objVertexLines showF w ++ s) : shape v = shape w ∧ r = s := by
  have e1 : "v".toList = ['v'] := by decide +kernel
  have e2 : "vt".toList = ['v', 't'] := by decide +kernel
  have e3 : "vn".toList = ['v', 'n'] := by decide +kernel
  have hv : ∀ x ∈ shapeFloats v, ' ' ∉ showF x ∧ '\n' ∉ showF x := fun x hx => hc.word x (by simp [hx])
  have hw : ∀ x ∈ shapeFloats w, ' ' ∉ showF x ∧ '\n' ∉ showF x := fun x hx => hc.word x (by simp [hx])
  have hi : ∀ x ∈ shapeFloats v, ∀ y ∈ shapeFloats w, showF x = showF y → x = y := fun x hx y hy => hc.inj x (by simp [hx]) y (by simp [hy])
  simp only [shapeFloats, List.mem_cons, List.not_mem_nil, or_false, forall_eq_or_imp, forall_eq] at hv hw
  simp only [objVertexLines, join, e1, e2, e3, List.append_assoc, List.cons_append, List.nil_append, List.cons.injEq, true_and] at h
  obtain ⟨v1, v2, v3, v4, v5, v6, v7, v8⟩ := hv
  obtain ⟨w1, w2, w3, w4, w5, w6, w7, w8⟩ := hw
  obtain ⟨g1, h⟩ := word_sep v1.1 w1.1 h
  obtain ⟨g2, h⟩ := word_sep v2.1 w2.1 h
  obtain ⟨g3, h⟩ := word_sep v3.2 w3.2 h
  simp only [List.cons.injEq, true_and] at h
  obtain ⟨g4, h⟩ := word_sep v4.1 w4.1 h
  obtain ⟨g5, h⟩ := word_sep v5.2 w5.2 h
  simp only [List.cons.injEq, true_and] at h
  obtain ⟨g6, h⟩ := word_sep v6.1 w6.1 h
  obtain ⟨g7, h⟩ := word_sep v7.1 w7.1 h
  obtain ⟨g8, h⟩ := word_sep v8.2 w8.2 h
  refine ⟨?_, h⟩
  have i1 := hi _ (by simp [shapeFloats]) _ (by simp [shapeFloats]) g1
  have i2 := hi _ (by simp [shapeFloats]) _ (by simp [shapeFloats]) g2
  have i3 := hi _ (by simp [shapeFloats]) _ (by simp [shapeFloats]) g3
  have i4 := hi _ (by simp [shapeFloats]) _ (by simp [shapeFloats]) g4
  have i5 := hi _ (by simp [shapeFloats]) _ (by simp [shapeFloats]) g5
  have i6 := hi _ (by simp [shapeFloats]) _ (by simp [shapeFloats]) g6
  have i7 := hi _ (by simp [shapeFloats]) _ (by simp [shapeFloats]) g7
  have i8 := hi _ (by simp [shapeFloats]) _ (by simp [shapeFloats]) g8
  exact Prod.ext (Prod.ext i1 (Prod.ext i2 i3)) (Prod.ext (Prod.ext i4 i5) (Prod.ext i6 (Prod.ext i7 i8)))

theorem objVertexLines_head (showF : Nat → Str) (v : SknVertex) (r : Str) : (objVertexLines showF v ++ r).head? = some 'v' := by
  have e1 : "v".toList = ['v'] := by decide +kernel
  simp only [objVertexLines, join, e1, List.append_assoc, List.cons_append, List.head?_cons]

theorem objFaceLine_head (f : Nat × Nat × Nat) (r : Str) : (objFaceLine f ++ r).head? = some 'f' := by
  have e1 : "f".toList = ['f'] := by decide +kernel
  simp only [objFaceLine, join, e1, List.append_assoc, List.cons_append, List.head?_cons]

theorem objFaces_head (fs : List (Nat × Nat × Nat)) : (fs.flatMap objFaceLine).head? ≠ some 'v' := by
  cases fs with
  | nil => simp
  | cons f fs => rw [List.flatMap_cons, objFaceLine_head]; decide

theorem objFaces_inj : ∀ fs gs : List (Nat × Nat × Nat), fs.flatMap objFaceLine = gs.flatMap objFaceLine → fs = gs
  | [], [], _ => rfl
  | [], g :: gs, h => by
    have := congrArg List.head? h
    rw [List.flatMap_cons, objFaceLine_head] at this; cases this
  | f :: fs, [], h => by
    have := congrArg List.head? h
    rw [List.flatMap_cons, objFaceLine_head] at this; cases this
  | f :: fs, g :: gs, h => by
    rw [List.flatMap_cons, List.flatMap_cons] at h
    obtain ⟨h1, h2⟩ := objFaceLine_inj h
    rw [h1, objFaces_inj fs gs h2]

/-- The text of a submesh determines its geometry: submeshes with the same text have the same vertices (positions, texture coordinates, normals), in the
same order, and the same faces. -/
theorem C78_faithful (showF : Nat → Str) (e e' : SknEntry) (t : Str) (h : ObjText showF e t) (h' : ObjText showF e' t)
    (hc : ClearFloats showF ((e.vertices ++ e'.vertices).flatMap shapeFloats)) :
    e.vertices.map shape = e'.vertices.map shape ∧ e.indices = e'.indices := by
  obtain ⟨fs, f1, rfl⟩ := h
  obtain ⟨gs, g1, g2⟩ := h'
  have key : ∀ (vs ws : List SknVertex), ClearFloats showF ((vs ++ ws).flatMap shapeFloats) →
      vs.flatMap (objVertexLines showF) ++ fs.flatMap objFaceLine = ws.flatMap (objVertexLines showF) ++ gs.flatMap objFaceLine →
      vs.map shape = ws.map shape ∧ fs = gs := by
    intro vs
    induction vs with
    | nil =>
      intro ws hc h
      cases ws with
      | nil => exact ⟨rfl, objFaces_inj fs gs h⟩
      | cons w ws =>
        rw [List.flatMap_cons, List.append_assoc] at h
        exact absurd ((congrArg List.head? h).trans (objVertexLines_head _ _ _)) (objFaces_head fs)
    | cons v vs ih =>
      intro ws hc h
      cases ws with
      | nil =>
        rw [List.flatMap_cons, List.append_assoc] at h
        exact absurd ((congrArg List.head? h).symm.trans (objVertexLines_head _ _ _)) (objFaces_head gs)
      | cons w ws =>
        rw [List.flatMap_cons, List.flatMap_cons, List.append_assoc, List.append_assoc] at h
        have hsub : ∀ l : List SknVertex, (∀ x ∈ l, x ∈ v :: vs ++ w :: ws) → ClearFloats showF (l.flatMap shapeFloats) := by
          intro l hl
          have hm : ∀ x ∈ l.flatMap shapeFloats, x ∈ (v :: vs ++ w :: ws).flatMap shapeFloats := by
            intro x hx
            obtain ⟨a, ha, hx⟩ := List.mem_flatMap.1 hx
            exact List.mem_flatMap.2 ⟨a, hl a ha, hx⟩
          exact ⟨fun x hx => hc.word x (hm x hx), fun x hx y hy => hc.inj x (hm x hx) y (hm y hy)⟩
        obtain ⟨x1, h⟩ := objVertexLines_inj (by have := hsub [v, w] (by simp); simpa using this) h
        obtain ⟨x2, x3⟩ := ih ws (hsub (vs ++ ws) (by intro x hx; simp at hx ⊢; tauto)) h
        exact ⟨by rw [List.map_cons, List.map_cons, x1, x2], x3⟩
  obtain ⟨k1, k2⟩ := key _ _ hc g2
  exact ⟨k1, by rw [f1, g1, k2]⟩

/-! ## Examples -/

/-- A SKN file of version 0, with three vertices and the given indices -/
def sampleSkn (raws : List Nat) : Bytes :=
  let v (n : Nat) : SknVertex := { position := (n, 0, 0), bones := (0, 0, 0, 0), weight := (0, 0, 0, 0),
                                   normal := (0, 0, 0), uv := (0, 0), color := none, tangent := none }
  sknFileOld 1 raws [v 7, v 8, v 9]

/-- A disk with this file, and an old result -/
def sampleDisk (raws : List Nat) : FS := fun q =>
  if q = "a/b.skn".toList then some (.file (sampleSkn raws))
  else if q = "a".toList ∨ q = "a/b".toList then some .dir
  else if q = "a/b/Unknown.obj".toList then some (.file [1, 2, 3])
  else none

/-- The file is extracted next to the SKN file, in a directory with its name -/
example : (sknExtract (showNat 10) (sampleDisk [0, 1, 2]) "a/b.skn".toList none none (fun _ => {})).2 = .ok () ∧
    (sknExtract (showNat 10) (sampleDisk [0, 1, 2]) "a/b.skn".toList none none (fun _ => {})).1 "a/b/Unknown.obj".toList = some (.file (utf8Bytes
      "v 7 0 0\nvt 0 0\nvn 0 0 0\nv 8 0 0\nvt 0 0\nvn 0 0 0\nv 9 0 0\nvt 0 0\nvn 0 0 0\nf 1/1/1 2/2/2/ 3/3/3\n".toList)) := by
  decide +kernel

/-- With a number of indices that is not a multiple of 3, the previous result is lost: an empty file remains -/
theorem C78_emptied : (sknExtract (showNat 10) (sampleDisk [0, 1]) "a/b.skn".toList none none (fun _ => {})).2 = .error .value ∧
    sampleDisk [0, 1] "a/b/Unknown.obj".toList = some (.file [1, 2, 3]) ∧
    (sknExtract (showNat 10) (sampleDisk [0, 1]) "a/b.skn".toList none none (fun _ => {})).1 "a/b/Unknown.obj".toList = some (.file []) := by
  decide +kernel

end Cdtb
