import Verif.Spec.ExportFiles
import Verif.Lemmas.FS
import Verif.Lemmas.Path
/-! Lemmas on exported files: steps of conversions. -/
namespace Cdtb
set_option autoImplicit false
open Py

/-! ### Paths -/

theorem rstripChar_split (c : Char) (s : Str) : ∃ k, s = rstripChar c s ++ List.replicate k c := by
  unfold rstripChar
  have h := List.takeWhile_append_dropWhile (p := (fun x => decide (x = c))) (l := s.reverse)
  refine ⟨(s.reverse.takeWhile (fun x => decide (x = c))).length, ?_⟩
  have h2 : s.reverse.takeWhile (fun x => decide (x = c)) = List.replicate (s.reverse.takeWhile (fun x => decide (x = c))).length c := by
    rw [List.eq_replicate_iff]
    refine ⟨rfl, fun b hb => ?_⟩
    simpa using List.all_eq_true.1 (List.all_takeWhile (p := (fun x => decide (x = c))) (l := s.reverse)) b hb
  have h3 := congrArg List.reverse h
  rw [List.reverse_append, List.reverse_reverse] at h3
  rw [h2, List.reverse_replicate] at h3
  simpa using h3.symm

theorem dirname_dirOf {x : Str} (h : dirname x ≠ []) : (∀ c ∈ dirname x, c = '/') ∨ ∃ r, x = dirname x ++ '/' :: r := by
  unfold dirname psplit at *
  cases hs : rsplit1 '/' x with
  | none => rw [hs] at h; simp at h
  | some db =>
    obtain ⟨d, b⟩ := db
    have hx := (rsplit1_eq_some.1 hs).1
    rw [hs] at h
    simp only at h ⊢
    split
    · rename_i hc; left; simp only [List.all_append, Bool.and_eq_true, List.all_eq_true, decide_eq_true_eq] at hc; intro c hm; rcases List.mem_append.1 hm with h | h
      · exact hc.1 c h
      · simpa using h
    · right
      obtain ⟨k, hk⟩ := rstripChar_split '/' (d ++ ['/'])
      cases k with
      | zero =>
        exfalso
        simp only [List.replicate_zero, List.append_nil] at hk
        have h1 : rstripChar '/' (d ++ ['/']) = rstripChar '/' d := by simp [rstripChar]
        have h2 := rstripChar_length_le '/' d
        rw [← h1, ← hk] at h2
        simp at h2; omega
      | succ k =>
        refine ⟨List.replicate k '/' ++ b, ?_⟩
        rw [hx]
        calc d ++ '/' :: b = (d ++ ['/']) ++ b := by simp
          _ = (rstripChar '/' (d ++ ['/']) ++ List.replicate (k + 1) '/') ++ b := by rw [← hk]
          _ = _ := by simp [List.replicate_succ]

theorem Spec.DirOf.trans' {q x y : Str} (h1 : q = x ∨ ∃ r, x = q ++ '/' :: r) (h2 : Spec.DirOf x y) : Spec.DirOf q y := by
  rcases h1 with rfl | ⟨r, rfl⟩
  · exact h2
  · rcases h2 with h2 | ⟨r', rfl⟩
    · left; intro c hc; exact h2 c (by simp [hc])
    · right; exact ⟨r ++ '/' :: r', by simp⟩

theorem dirPrefixes_dirOf {q x : Str} (h : q ∈ dirPrefixes (dirname x)) : Spec.DirOf q x := by
  obtain ⟨h1, h2⟩ := mem_dirPrefixes h
  refine Spec.DirOf.trans' h2 (dirname_dirOf ?_)
  rintro hd
  rw [hd] at h2
  rcases h2 with rfl | ⟨r, hr⟩
  · exact h1 rfl
  · simp at hr

theorem Spec.Named.basename {x : Str} (h : Spec.Named x) : basename x ≠ [] := by
  obtain ⟨q, c, rfl, hc⟩ := h
  obtain ⟨dir, base, he, hd, hb⟩ := exists_dirPrefix (q ++ [c])
  rw [he]
  unfold Py.basename
  rw [psplit_dir hd hb]
  rintro rfl
  simp only [List.append_nil] at he
  rcases hd with rfl | ⟨d', rfl⟩
  · simp at he
  · have := (List.append_inj' he rfl).2
    simp only [List.cons.injEq, and_true] at this
    exact hc this

theorem Spec.Named.not_root {x : Str} (h : Spec.Named x) : ¬ ∀ c ∈ x, c = '/' := by
  obtain ⟨q, c, rfl, hc⟩ := h
  intro h
  exact hc (h c (by simp))

theorem Spec.Named.ne_nil {x : Str} (h : Spec.Named x) : x ≠ [] := by
  obtain ⟨q, c, rfl, -⟩ := h; simp

theorem Spec.Named.append {q x : Str} (h : Spec.Named x) : Spec.Named (q ++ x) := by
  obtain ⟨q', c, rfl, hc⟩ := h; exact ⟨q ++ q', c, by simp, hc⟩

theorem Spec.Named.pjoin {q x : Str} (h : Spec.Named x) : Spec.Named (pjoin q x) := by
  unfold Py.pjoin
  split
  · exact h
  · split
    · exact h.append
    · rw [List.append_assoc]; exact h.append.append

theorem Spec.Named.pjoin_dir {x n : Str} (h : Spec.Named x) (hn : '/' ∉ n) : Py.pjoin x n = x ++ '/' :: n := by
  unfold Py.pjoin
  rw [if_neg, if_neg]
  · simp
  · simp only [Bool.or_eq_true, List.isEmpty_iff, not_or]
    refine ⟨h.ne_nil, ?_⟩
    intro he
    obtain ⟨t, ht⟩ := endsWith_iff.1 he
    obtain ⟨q, c, hq, hc⟩ := h
    rw [hq] at ht
    have := (List.append_inj' ht rfl).2
    simp only [List.cons.injEq, and_true] at this
    exact hc this
  · intro hs
    obtain ⟨t, rfl⟩ := startsWith_iff.1 hs
    simp at hn

theorem dirname_child {x n : Str} (h : Spec.Named x) (hn : '/' ∉ n) : dirname (x ++ '/' :: n) = x := by
  obtain ⟨q, c, rfl, hc⟩ := h
  unfold dirname
  have : psplit (((q ++ [c]) ++ ['/']) ++ n) = (dirOf ((q ++ [c]) ++ ['/']), n) := psplit_dir (Or.inr ⟨_, rfl⟩) hn
  simp only [List.append_assoc, List.cons_append, List.nil_append] at this ⊢
  rw [this]
  simp only [dirOf]
  rw [if_neg]
  · simp [rstripChar, hc]
  · simp [hc]

/-! ### Effects on disk -/

/-- Only the paths of `own` change, except directories that are created for them. -/
def TouchesOnly (own : Str → Prop) (fs fs' : FS) : Prop :=
  ∀ q, ¬ own q → fs' q = fs q ∨ ((∃ x, own x ∧ Spec.DirOf q x) ∧ fs q = none ∧ fs' q = some .dir)

theorem TouchesOnly.refl (own fs) : TouchesOnly own fs fs := fun _ _ => Or.inl rfl

theorem TouchesOnly.trans {own : Str → Prop} {a b c : FS} (h1 : TouchesOnly own a b) (h2 : TouchesOnly own b c) : TouchesOnly own a c := by
  intro q hq
  rcases h1 q hq with e1 | ⟨x1, n1, d1⟩ <;> rcases h2 q hq with e2 | ⟨x2, n2, d2⟩
  · left; rw [e2, e1]
  · right; exact ⟨x2, by rw [← e1]; exact n2, d2⟩
  · right; exact ⟨x1, n1, by rw [e2]; exact d1⟩
  · rw [d1] at n2; simp at n2

theorem TouchesOnly.mono {own own' : Str → Prop} {a b : FS} (h : TouchesOnly own a b) (hs : ∀ q, own q → own' q) : TouchesOnly own' a b := by
  intro q hq
  rcases h q (fun h => hq (hs q h)) with e | ⟨⟨x, hx, hd⟩, n, d⟩
  · exact Or.inl e
  · exact Or.inr ⟨⟨x, hs x hx, hd⟩, n, d⟩

/-- Sets of paths that do not interfere. -/
def ApartSets (own own' : Str → Prop) : Prop := ∀ x y, own x → own' y → x ≠ y ∧ ¬ Spec.DirOf x y ∧ ¬ Spec.DirOf y x

theorem ApartSets.symm {own own' : Str → Prop} (h : ApartSets own own') : ApartSets own' own :=
  fun x y hx hy => ⟨fun e => (h y x hy hx).1 e.symm, (h y x hy hx).2.2, (h y x hy hx).2.1⟩

theorem TouchesOnly.apart {own own' : Str → Prop} {a b : FS} (h : TouchesOnly own a b) (ha : ApartSets own own') {y : Str} (hy : own' y) :
    b y = a y := by
  rcases h y (fun hx => (ha y y hx hy).1 rfl) with e | ⟨⟨x, hx, hd⟩, -, -⟩
  · exact e
  · exact absurd hd (ha x y hx hy).2.2

/-- No directory needed for the paths is a file. -/
def Open (own : Str → Prop) (fs : FS) : Prop := ∀ x q, own x → Spec.DirOf q x → ¬ own q → ∀ b, fs q ≠ some (.file b)

theorem TouchesOnly.open_ {own own' : Str → Prop} {a b : FS} (h : TouchesOnly own a b) (ha : ApartSets own own') (ho : Open own' a) : Open own' b := by
  intro x q hx hq hn bs
  rcases h q (fun hq' => (ha q x hq' hx).2.1 hq) with e | ⟨-, -, d⟩
  · rw [e]; exact ho x q hx hq hn bs
  · rw [d]; simp

theorem TouchesOnly.open_self {own : Str → Prop} {a b : FS} (h : TouchesOnly own a b) (ho : Open own a) : Open own b := by
  intro x q hx hq hn bs
  rcases h q hn with e | ⟨-, -, d⟩
  · rw [e]; exact ho x q hx hq hn bs
  · rw [d]; simp

/-! ### Bodies -/

/-- The first error raised by a body -/
def bodyErr (body : List BodyStep) : Option Err := body.findSome? fun s => match s with
  | .raise e => some e
  | .write _ => none

theorem bodyErr_none {body : List BodyStep} : bodyErr body = none ↔ ∀ s ∈ body, ∃ b, s = .write b := by
  unfold bodyErr
  rw [List.findSome?_eq_none_iff]
  refine forall_congr' fun s => imp_congr_right fun _ => ?_
  cases s <;> simp

theorem writes_iff {body : List BodyStep} {b : Bytes} : Spec.Writes body b ↔ bodyErr body = none ∧ b = bodyBytes body := by
  rw [bodyErr_none]
  constructor
  · rintro ⟨bs, rfl, rfl⟩
    refine ⟨by simp, ?_⟩
    simp [bodyBytes, Function.comp_def]
  · rintro ⟨h, rfl⟩
    induction body with
    | nil => exact ⟨[], rfl, rfl⟩
    | cons s rest ih =>
      obtain ⟨b, rfl⟩ := h s (by simp)
      obtain ⟨bs, h1, h2⟩ := ih (fun s hs => h s (by simp [hs]))
      exact ⟨b :: bs, by simp [← h1], by simp [bodyBytes] at h2 ⊢; exact h2⟩

theorem bodyErr_raises {body : List BodyStep} {e : Err} : bodyErr body = some e ↔ Spec.Raises body e := by
  induction body with
  | nil => simp [bodyErr, Spec.Raises]
  | cons s rest ih =>
    cases s with
    | raise e' =>
      constructor
      · intro h
        simp only [bodyErr, List.findSome?_cons, Option.some.injEq] at h
        exact ⟨[], rest, by simp [h]⟩
      · rintro ⟨bs, r, h⟩
        cases bs with
        | nil => simp only [List.map_nil, List.nil_append, List.cons.injEq, BodyStep.raise.injEq] at h; simp [bodyErr, h.1]
        | cons => simp at h
    | write b =>
      have : bodyErr (.write b :: rest) = bodyErr rest := by simp [bodyErr]
      rw [this, ih]
      constructor
      · rintro ⟨bs, r, h⟩; exact ⟨b :: bs, r, by simp [h]⟩
      · rintro ⟨bs, r, h⟩
        cases bs with
        | nil => simp at h
        | cons b' bs =>
          simp only [List.map_cons, List.cons_append, List.cons.injEq] at h
          exact ⟨bs, r, h.2⟩

theorem bodyErr_map (err : Err → Err) (body : List BodyStep) : bodyErr (body.map (mapStep err)) = (bodyErr body).map err := by
  induction body with
  | nil => rfl
  | cons s rest ih => cases s with
    | raise e => simp [bodyErr, mapStep]
    | write b => simpa [bodyErr, mapStep] using ih

theorem bodyBytes_map (err : Err → Err) (body : List BodyStep) : bodyBytes (body.map (mapStep err)) = bodyBytes body := by
  unfold bodyBytes
  rw [List.map_map]
  congr 1
  apply List.map_congr_left
  intro s _
  cases s <;> rfl

/-- No fault -/
def WriteFaults.Quiet (f : WriteFaults) : Prop := f.makedirs = none ∧ f.open_ = none ∧ (∀ i, f.write i = none) ∧ f.close = none

theorem writeBody_quiet {f : WriteFaults} (hf : ∀ i, f.write i = none) (body : List BodyStep) (i : Nat) (acc : Bytes) :
    (writeBody f i acc body).2 = match bodyErr body with
      | none => .ok ()
      | some e => .error e := by
  induction body generalizing i acc with
  | nil => rfl
  | cons s rest ih => cases s with
    | raise e => rfl
    | write b =>
      simp only [writeBody, hf]
      rw [ih]
      simp [bodyErr]

theorem closeFile_quiet {f : WriteFaults} (hf : f.close = none) (x) : closeFile f x = x := by
  obtain ⟨c, r⟩ := x
  simp [closeFile, hf]

/-! ### Files -/

/-- `write_file_or_remove` without faults: the outcome is the outcome of the body. -/
theorem writeFileOrRemove_quiet {fs : FS} {p : Str} {body : List BodyStep} {f : WriteFaults} (hf : f.Quiet) (hp : Spec.Named p)
    (hd : fs p ≠ some .dir) (ha : ∀ q, Spec.DirOf q p → ∀ b, fs q ≠ some (.file b)) (hdir : dirname p ≠ []) :
    (writeFileOrRemove fs p body f).2 = match bodyErr body with
      | none => .ok ()
      | some e => .error e := by
  rw [writeFileOrRemove_result]
  unfold writeTry
  have hm : (fs.makedirs (dirname p) f.makedirs).2 = .ok () := by
    rw [hf.1]
    unfold FS.makedirs
    rw [if_neg (by simpa using hdir)]
    exact makedirsGo_succeeds _ _ fun d hd' => ha d (dirPrefixes_dirOf hd')
  have hp' := makedirs_dirsAdded fs (dirname p) f.makedirs p
  rcases hfs : fs.makedirs (dirname p) f.makedirs with ⟨fs1, r⟩
  rw [hfs] at hm hp'
  simp only at hm hp'
  subst hm
  have h1 : fs1 p ≠ some .dir := by
    rcases hp' with h | ⟨h, -, -⟩
    · rw [h]; exact hd
    · exact absurd h (not_mem_dirPrefixes_dirname hp.basename)
  simp only [hf.2.1, if_neg h1, closeFile_quiet hf.2.2.2]
  exact writeBody_quiet hf.2.2.1 _ _ _

/-- `write_file_or_remove`, whatever happens: the file is complete, or there is no file. -/
theorem writeFileOrRemove_clean {fs : FS} {p : Str} {body : List BodyStep} {f : WriteFaults} (hf : f.remove = false) (hp : Spec.Named p) :
    match (writeFileOrRemove fs p body f).2 with
    | .ok () => bodyErr body = none ∧ (writeFileOrRemove fs p body f).1 p = some (.file (bodyBytes body))
    | .error _ => fs p ≠ some .dir → (writeFileOrRemove fs p body f).1 p = none := by
  cases h : (writeFileOrRemove fs p body f).2 with
  | ok u =>
    simp only
    rw [writeFileOrRemove_ok_fs h]
    rw [writeFileOrRemove_result] at h
    obtain ⟨h1, h2, -⟩ := writeTry_ok h
    exact ⟨bodyErr_none.2 h2, h1⟩
  | error e =>
    simp only
    rw [writeFileOrRemove_error_fs h, hf]
    intro hd
    have hnd : (writeTry fs p body f).1 p ≠ some .dir := by
      have hp' := makedirs_dirsAdded fs (dirname p) f.makedirs p
      unfold writeTry
      rcases hfs : fs.makedirs (dirname p) f.makedirs with ⟨fs1, r⟩
      rw [hfs] at hp'
      simp only at hp'
      have h1 : fs1 p ≠ some .dir := by
        rcases hp' with h | ⟨h, -, -⟩
        · rw [h]; exact hd
        · exact absurd h (not_mem_dirPrefixes_dirname hp.basename)
      cases r with
      | error e => exact h1
      | ok u =>
        simp only
        cases f.open_ with
        | some e => exact h1
        | none => simp [h1]
    have := remove_not_file (writeTry fs p body f).1 p
    unfold FS.remove at this ⊢
    simp only [Bool.false_eq_true, if_false] at this ⊢
    cases hx : (writeTry fs p body f).1 p with
    | none => simp [hx]
    | some n => cases n with
      | dir => exact absurd hx hnd
      | file b => simp

theorem writeFileOrRemove_touchesOnly (fs : FS) (p : Str) (body) (f) : TouchesOnly (· = p) fs (writeFileOrRemove fs p body f).1 := by
  intro q hq
  rcases writeFileOrRemove_touches fs p body f q hq with h | ⟨h, n, d⟩
  · exact Or.inl h
  · exact Or.inr ⟨⟨p, rfl, dirPrefixes_dirOf h⟩, n, d⟩

/-! ### Directories -/

theorem rmtree_other {fs : FS} {p q : Str} (h : q ≠ p) (h' : ∀ n, q ≠ p ++ '/' :: n) : fs.rmtree p q = fs q := by
  unfold FS.rmtree
  split
  · simp only
    rw [if_neg]
    simp only [Bool.or_eq_true, decide_eq_true_eq, startsWith_iff, not_or, not_exists]
    refine ⟨h, fun t ht => h' t (by simpa using ht)⟩
  · rfl

theorem rmtree_self {fs : FS} {p : Str} (h : fs p = some .dir) : fs.rmtree p p = none ∧ ∀ n, fs.rmtree p (p ++ '/' :: n) = none := by
  unfold FS.rmtree
  rw [if_pos h]
  refine ⟨by simp, fun n => ?_⟩
  rw [if_pos]
  simp only [Bool.or_eq_true, startsWith_iff]
  right; exact ⟨n, by simp⟩

/-- After `rmtree`, nothing is left, if it was not a file. -/
theorem rmtree_gone {fs : FS} {p : Str} (h1 : ∀ b, fs p ≠ some (.file b)) (h2 : fs p = none → ∀ n, fs (p ++ '/' :: n) = none) :
    fs.rmtree p p = none ∧ ∀ n, fs.rmtree p (p ++ '/' :: n) = none := by
  cases h : fs p with
  | none =>
    have : fs.rmtree p = fs := by unfold FS.rmtree; rw [if_neg (by simp [h])]
    rw [this]; exact ⟨h, h2 h⟩
  | some n => cases n with
    | file b => exact absurd h (h1 b)
    | dir => exact rmtree_self h

/-- A file of a directory, with its content -/
def FileOf (lib : ConvLib) (a : Str × Res Str) (b : Str × Bytes) : Prop := b.1 = a.1 ∧ ∃ t, a.2 = .ok t ∧ Spec.Writes (lib.text t) b.2

theorem jsonBody_writes {α : Type} {r : Res α} {json : α → List BodyStep} {b : Bytes} :
    Spec.Writes (jsonBody r json) b ↔ ∃ a, r = .ok a ∧ Spec.Writes (json a) b := by
  cases r with
  | error e => simp [jsonBody, writes_iff, bodyErr]
  | ok a => simp [jsonBody]

theorem openAndWrite_other (fs : FS) {p q : Str} (body) (f) (h : q ≠ p) : (openAndWrite fs p body f).1 q = fs q := by
  unfold openAndWrite
  cases f.open_ with
  | some e => rfl
  | none =>
    simp only
    split
    · rfl
    · split
      · rfl
      · simp only [FS.set_other _ h]

theorem openAndWrite_ok {fs : FS} {p : Str} {body} {f} (h : (openAndWrite fs p body f).2 = .ok ()) :
    bodyErr body = none ∧ (openAndWrite fs p body f).1 p = some (.file (bodyBytes body)) := by
  unfold openAndWrite at h ⊢
  cases ho : f.open_ with
  | some e => rw [ho] at h; simp at h
  | none =>
    rw [ho] at h
    simp only at h ⊢
    split at h
    · simp at h
    · rename_i h1
      split at h
      · simp at h
      · rename_i h2
        rw [if_neg h1, if_neg h2]
        have hc : f.close = none := by
          cases hc : f.close with
          | none => rfl
          | some ke => simp [closeFile, hc] at h
        simp only [closeFile_quiet hc] at h ⊢
        obtain ⟨h1, h2, -⟩ := writeBody_ok h
        exact ⟨bodyErr_none.2 h2, by simp [h1]⟩

theorem openAndWrite_quiet {fs : FS} {p : Str} {body} {f : WriteFaults} (hf : f.Quiet) (h1 : fs (dirname p) = some .dir) (h2 : fs p ≠ some .dir) :
    (openAndWrite fs p body f).2 = match bodyErr body with
      | none => .ok ()
      | some e => .error e := by
  unfold openAndWrite
  simp only [hf.2.1, h1, ne_eq, not_true, if_false, if_neg h2, closeFile_quiet hf.2.2.2]
  exact writeBody_quiet hf.2.2.1 _ _ _

theorem writeDirFiles_other (lib : ConvLib) {p q : Str} (hp : Spec.Named p) (hq : ∀ n, q ≠ p ++ '/' :: n) (f : Nat → WriteFaults) :
    ∀ (files : List (Str × Res Str)) (i : Nat) (fs : FS), (∀ a ∈ files, '/' ∉ a.1) → (writeDirFiles lib p f i fs files).1 q = fs q := by
  intro files
  induction files with
  | nil => intro i fs _; rfl
  | cons a rest ih =>
    intro i fs hl
    obtain ⟨name, text⟩ := a
    have hn : '/' ∉ name := hl (name, text) (by simp)
    have ho := openAndWrite_other fs (jsonBody text lib.text) (f i) (p := pjoin p name) (q := q) (by
      rw [hp.pjoin_dir hn]; exact hq name)
    simp only [writeDirFiles]
    rcases hw : openAndWrite fs (pjoin p name) (jsonBody text lib.text) (f i) with ⟨fs', r⟩
    rw [hw] at ho
    cases r with
    | error e => exact ho
    | ok u => exact (ih _ _ (fun a ha => hl a (by simp [ha]))).trans ho

theorem fileNamed_cons (f : Str × Bytes) (l : List (Str × Bytes)) (n : Str) :
    Spec.fileNamed (f :: l) n = (Spec.fileNamed l n).or (if f.1 = n then some (.file f.2) else none) := by
  unfold Spec.fileNamed
  rw [List.reverse_cons, List.find?_append]
  cases h : l.reverse.find? (fun f => decide (f.1 = n)) with
  | some x => simp
  | none =>
    by_cases hf : f.1 = n
    · simp [hf]
    · simp [hf]

theorem writeDirFiles_ok (lib : ConvLib) {p : Str} (hp : Spec.Named p) (f : Nat → WriteFaults) :
    ∀ (files : List (Str × Res Str)) (i : Nat) (fs : FS), (∀ a ∈ files, '/' ∉ a.1) → (writeDirFiles lib p f i fs files).2 = .ok () →
      ∃ l, List.Forall₂ (FileOf lib) files l ∧
        ∀ n, (writeDirFiles lib p f i fs files).1 (p ++ '/' :: n) = (Spec.fileNamed l n).or (fs (p ++ '/' :: n)) := by
  intro files
  induction files with
  | nil => intro i fs _ _; exact ⟨[], .nil, fun n => by simp [writeDirFiles, Spec.fileNamed]⟩
  | cons a rest ih =>
    intro i fs hl hr
    obtain ⟨name, text⟩ := a
    have hn : '/' ∉ name := hl (name, text) (by simp)
    have ho := fun q hq => openAndWrite_other fs (jsonBody text lib.text) (f i) (p := pjoin p name) (q := q) hq
    have hk := openAndWrite_ok (fs := fs) (p := pjoin p name) (body := jsonBody text lib.text) (f := f i)
    rw [hp.pjoin_dir hn] at ho hk
    simp only [writeDirFiles] at hr ⊢
    rw [hp.pjoin_dir hn] at hr ⊢
    rcases hw : openAndWrite fs (p ++ '/' :: name) (jsonBody text lib.text) (f i) with ⟨fs', r⟩
    rw [hw] at ho hk hr
    cases r with
    | error e => simp at hr
    | ok u =>
      obtain ⟨h1, h2⟩ := hk rfl
      simp only at hr h2 ho ⊢
      obtain ⟨l, hl1, hl2⟩ := ih _ _ (fun a ha => hl a (by simp [ha])) hr
      obtain ⟨t, ht1, ht2⟩ := jsonBody_writes.1 (writes_iff.2 ⟨h1, rfl⟩)
      refine ⟨(name, bodyBytes (jsonBody text lib.text)) :: l, .cons ⟨rfl, t, ht1, ht2⟩ hl1, fun n => ?_⟩
      rw [hl2, fileNamed_cons, Option.or_assoc]
      congr 1
      by_cases he : name = n
      · subst he; simp [h2]
      · rw [ho _ (by simpa using fun h => he h.symm)]; simp [he]

/-- The first error in the files of a directory -/
def filesErr (lib : ConvLib) (files : List (Str × Res Str)) : Option Err := files.findSome? fun a => bodyErr (jsonBody a.2 lib.text)

theorem filesErr_none {lib : ConvLib} {files : List (Str × Res Str)} : filesErr lib files = none ↔ ∃ l, List.Forall₂ (FileOf lib) files l := by
  induction files with
  | nil => simp [filesErr]
  | cons a rest ih =>
    have : filesErr lib (a :: rest) = none ↔ bodyErr (jsonBody a.2 lib.text) = none ∧ filesErr lib rest = none := by
      simp only [filesErr, List.findSome?_cons]
      cases bodyErr (jsonBody a.2 lib.text) <;> simp
    rw [this, ih]
    constructor
    · rintro ⟨h, l, hl⟩
      obtain ⟨t, ht1, ht2⟩ := jsonBody_writes.1 (writes_iff.2 ⟨h, rfl⟩)
      exact ⟨(a.1, _) :: l, .cons ⟨rfl, t, ht1, ht2⟩ hl⟩
    · rintro ⟨l, hl⟩
      cases hl with
      | cons hx hr =>
        obtain ⟨h1, t, h2, h3⟩ := hx
        exact ⟨(writes_iff.1 (jsonBody_writes.2 ⟨t, h2, h3⟩)).1, _, hr⟩

theorem writeDirFiles_quiet (lib : ConvLib) {p : Str} (hp : Spec.Named p) (f : Nat → WriteFaults) (hf : ∀ i, (f i).Quiet) :
    ∀ (files : List (Str × Res Str)) (i : Nat) (fs : FS), (∀ a ∈ files, '/' ∉ a.1) → fs p = some .dir →
      (∀ n, fs (p ++ '/' :: n) ≠ some .dir) → (writeDirFiles lib p f i fs files).2 = match filesErr lib files with
        | none => .ok ()
        | some e => .error e := by
  intro files
  induction files with
  | nil => intro i fs _ _ _; rfl
  | cons a rest ih =>
    intro i fs hl hd hnd
    obtain ⟨name, text⟩ := a
    have hn : '/' ∉ name := hl (name, text) (by simp)
    have ho := fun q hq => openAndWrite_other fs (jsonBody text lib.text) (f i) (p := p ++ '/' :: name) (q := q) hq
    have hk := openAndWrite_ok (fs := fs) (p := p ++ '/' :: name) (body := jsonBody text lib.text) (f := f i)
    have hr := openAndWrite_quiet (fs := fs) (p := p ++ '/' :: name) (body := jsonBody text lib.text) (hf i)
      (by rw [dirname_child hp hn]; exact hd) (hnd name)
    have hfe : filesErr lib ((name, text) :: rest) = (bodyErr (jsonBody text lib.text)).or (filesErr lib rest) := by
      simp only [filesErr, List.findSome?_cons]
      cases bodyErr (jsonBody text lib.text) <;> simp
    rw [hfe]
    simp only [writeDirFiles]
    rw [hp.pjoin_dir hn]
    rcases hw : openAndWrite fs (p ++ '/' :: name) (jsonBody text lib.text) (f i) with ⟨fs', r⟩
    rw [hw] at ho hk hr
    simp only at hr
    subst hr
    cases hb : bodyErr (jsonBody text lib.text) with
    | some e => rfl
    | none =>
      rw [hb] at hk
      obtain ⟨-, h2⟩ := hk rfl
      simp only [Option.none_or]
      simp only at ho h2
      apply ih _ _ (fun a ha => hl a (by simp [ha]))
      · rw [ho _ (by simp)]; exact hd
      · intro n
        by_cases he : name = n
        · subst he; rw [h2]; simp
        · rw [ho _ (by simpa using fun h => he h.symm)]; exact hnd n

/-! ### Steps -/

/-- The paths of a step -/
def OutStep.Own : OutStep → Str → Prop
  | .file p _ _, q => q = p
  | .fail _, _ => False
  | .dir p _, q => q = p ∨ ∃ n, q = p ++ '/' :: n

/-- The paths are names in directories. -/
def OutStep.Local : OutStep → Prop
  | .file p _ _ => Spec.Named p ∧ dirname p ≠ []
  | .fail _ => True
  | .dir p files => Spec.Named p ∧ ∀ fl, files = .ok fl → ∀ a ∈ fl, '/' ∉ a.1

/-- What is at the paths of the step is not in the way. -/
def OutStep.Pre (fs : FS) : OutStep → Prop
  | .file p _ _ => fs p ≠ some .dir
  | .fail _ => True
  | .dir p _ => (∀ b, fs p ≠ some (.file b)) ∧ (fs p = none → ∀ n, fs (p ++ '/' :: n) = none)

/-- The result of the step is on disk. -/
def OutStep.Has (lib : ConvLib) (fs : FS) : OutStep → Prop
  | .file p _ body => bodyErr body = none ∧ fs p = some (.file (bodyBytes body))
  | .fail _ => False
  | .dir p files => ∃ fl l, files = .ok fl ∧ List.Forall₂ (FileOf lib) fl l ∧ Spec.OnDisk fs p (.dir l)

/-- Nothing is at the paths of the step. -/
def OutStep.Gone (fs : FS) : OutStep → Prop
  | .file p _ _ => fs p = none
  | .fail _ => True
  | .dir p _ => fs p = none ∧ ∀ n, fs (p ++ '/' :: n) = none

/-- The error of the step when there is no fault -/
def OutStep.err (lib : ConvLib) : OutStep → Option Err
  | .file _ err body => (bodyErr body).map err
  | .fail e => some e
  | .dir _ (.error e) => some e
  | .dir _ (.ok fl) => filesErr lib fl

theorem DirsAdded.touches {p : Str} {fs fs' : FS} (h : DirsAdded (dirPrefixes p) fs fs') :
    TouchesOnly (fun q => q = p ∨ ∃ n, q = p ++ '/' :: n) fs fs' := by
  intro q hq
  rcases h q with h | ⟨h, n, d⟩
  · exact Or.inl h
  · refine Or.inr ⟨⟨p, Or.inl rfl, ?_⟩, n, d⟩
    rcases (mem_dirPrefixes h).2 with rfl | ⟨r, hr⟩
    · exact absurd (Or.inl rfl) hq
    · exact Or.inr ⟨r, hr⟩

theorem rmtree_touches (fs : FS) (p : Str) : TouchesOnly (fun q => q = p ∨ ∃ n, q = p ++ '/' :: n) fs (fs.rmtree p) := by
  intro q hq
  left
  simp only [not_or, not_exists] at hq
  exact rmtree_other hq.1 hq.2

theorem writeDirTry_touches (lib : ConvLib) (fs : FS) {p : Str} (hp : Spec.Named p) (files : Res (List (Str × Res Str)))
    (hl : ∀ fl, files = .ok fl → ∀ a ∈ fl, '/' ∉ a.1) (f : Nat → WriteFaults) (i : Nat) :
    TouchesOnly (fun q => q = p ∨ ∃ n, q = p ++ '/' :: n) fs (writeDirTry lib fs p files f i).1 := by
  have hm := (makedirs_dirsAdded fs p (f i).makedirs).touches
  unfold writeDirTry
  rcases hfs : fs.makedirs p (f i).makedirs with ⟨fs1, r⟩
  rw [hfs] at hm
  cases r with
  | error e => exact hm
  | ok u =>
    cases files with
    | error e => exact hm
    | ok fl =>
      refine hm.trans ?_
      intro q hq
      left
      simp only [not_or, not_exists] at hq
      exact writeDirFiles_other lib hp hq.2 f fl (i + 1) fs1 (hl fl rfl)

theorem OutStep.run_touches (lib : ConvLib) (fs : FS) (f : Nat → WriteFaults) (i : Nat) (s : OutStep) (hs : s.Local) :
    TouchesOnly s.Own fs (s.run lib fs f i).1 := by
  cases s with
  | file p err body => exact writeFileOrRemove_touchesOnly _ _ _ _
  | fail e => exact TouchesOnly.refl _ _
  | dir p files =>
    simp only [OutStep.run]
    refine (rmtree_touches fs p).trans ?_
    have ht := writeDirTry_touches lib (fs.rmtree p) hs.1 files hs.2 f i
    unfold writeDirOrRemove
    rcases hw : writeDirTry lib (fs.rmtree p) p files f i with ⟨fs1, r⟩
    rw [hw] at ht
    cases r with
    | ok u => exact ht
    | error e => exact ht.trans (rmtree_touches fs1 p)

theorem writeDirTry_clean (lib : ConvLib) (fs : FS) {p : Str} (hp : Spec.Named p) (files : Res (List (Str × Res Str)))
    (hl : ∀ fl, files = .ok fl → ∀ a ∈ fl, '/' ∉ a.1) (f : Nat → WriteFaults) (i : Nat)
    (h1 : fs p = none) (h2 : ∀ n, fs (p ++ '/' :: n) = none) :
    match writeDirTry lib fs p files f i with
    | (fs', .ok ()) => OutStep.Has lib fs' (.dir p files)
    | (fs', .error _) => (∀ b, fs' p ≠ some (.file b)) ∧ (fs' p = none → ∀ n, fs' (p ++ '/' :: n) = none) := by
  have hm := makedirs_dirsAdded fs p (f i).makedirs
  have hok : (fs.makedirs p (f i).makedirs).2 = .ok () → (fs.makedirs p (f i).makedirs).1 p = some .dir := by
    unfold FS.makedirs
    rw [if_neg (by simpa using hp.ne_nil)]
    intro h
    refine (makedirsGo_ok _ _ _ h).1 p ?_
    simp only [dirPrefixes, List.mem_filter, List.mem_map, List.mem_range]
    have hlen := List.length_pos_iff.2 (splitChar_ne_nil '/' p)
    refine ⟨⟨(splitChar '/' p).length - 1, by omega, ?_⟩, by simpa using hp.ne_nil⟩
    rw [Nat.sub_add_cancel hlen, List.take_length, join_splitChar]
  unfold writeDirTry
  rcases hfs : fs.makedirs p (f i).makedirs with ⟨fs1, r⟩
  rw [hfs] at hm hok
  have hunder : ∀ n, fs1 (p ++ '/' :: n) = none := by
    intro n
    rcases hm (p ++ '/' :: n) with h | ⟨h, -, -⟩
    · exact h.trans (h2 n)
    · exact absurd (mem_dirPrefixes_length h) (by simp)
  have hself : fs1 p = none ∨ fs1 p = some .dir := by
    rcases hm p with h | ⟨-, -, h⟩
    · left; exact h.trans h1
    · right; exact h
  cases r with
  | error e =>
    refine ⟨fun b hb => ?_, fun _ => hunder⟩
    rcases hself with h | h <;> rw [h] at hb <;> simp at hb
  | ok u =>
    have hdir := hok rfl
    simp only at hdir
    cases files with
    | error e => exact ⟨by simp [hdir], by simp [hdir]⟩
    | ok fl =>
      simp only
      have ho := writeDirFiles_other lib hp (q := p) (by intro n h; have := congrArg List.length h; simp at this) f fl (i + 1) fs1 (hl fl rfl)
      have hk := writeDirFiles_ok lib hp f fl (i + 1) fs1 (hl fl rfl)
      rcases hw : writeDirFiles lib p f (i + 1) fs1 fl with ⟨fs2, r⟩
      rw [hw] at ho hk
      simp only at ho hk
      cases r with
      | error e => exact ⟨by simp [ho, hdir], by simp [ho, hdir]⟩
      | ok u =>
        obtain ⟨l, hl1, hl2⟩ := hk rfl
        refine ⟨fl, l, rfl, hl1, ho.trans hdir, fun n => ?_⟩
        rw [hl2, hunder, Option.or_none]

theorem OutStep.run_clean (lib : ConvLib) (fs : FS) (f : Nat → WriteFaults) (hf : ∀ i, (f i).remove = false) (i : Nat) (s : OutStep)
    (hs : s.Local) (hp : s.Pre fs) :
    match s.run lib fs f i with
    | (fs', .ok ()) => s.Has lib fs'
    | (fs', .error _) => s.Gone fs' := by
  cases s with
  | file p err body =>
    have h := writeFileOrRemove_clean (fs := fs) (p := p) (body := body.map (mapStep err)) (f := (f i).mapWrite err) (hf i) hs.1
    simp only [OutStep.run]
    rcases hw : writeFileOrRemove fs p (body.map (mapStep err)) ((f i).mapWrite err) with ⟨fs', r⟩
    rw [hw] at h
    cases r with
    | ok u =>
      simp only at h ⊢
      refine ⟨?_, ?_⟩
      · have := h.1; rw [bodyErr_map] at this; simpa using this
      · rw [h.2, bodyBytes_map]
    | error e => exact h hp
  | fail e => trivial
  | dir p files =>
    obtain ⟨g1, g2⟩ := rmtree_gone hp.1 hp.2
    have h := writeDirTry_clean lib (fs.rmtree p) hs.1 files hs.2 f i g1 g2
    simp only [OutStep.run, writeDirOrRemove]
    rcases hw : writeDirTry lib (fs.rmtree p) p files f i with ⟨fs', r⟩
    rw [hw] at h
    cases r with
    | ok u => exact h
    | error e => exact rmtree_gone h.1 h.2

theorem Quiet.mapWrite {f : WriteFaults} (h : f.Quiet) (err : Err → Err) : (f.mapWrite err).Quiet :=
  ⟨h.1, h.2.1, fun i => by simp [WriteFaults.mapWrite, h.2.2.1 i], h.2.2.2⟩

theorem not_dirOf_self {p : Str} (hp : Spec.Named p) : ¬ Spec.DirOf p p := by
  rintro (h | ⟨r, h⟩)
  · exact hp.not_root h
  · have := congrArg List.length h; simp at this

theorem OutStep.run_quiet (lib : ConvLib) (fs : FS) (f : Nat → WriteFaults) (hf : ∀ i, (f i).Quiet) (i : Nat) (s : OutStep)
    (hs : s.Local) (hp : s.Pre fs) (ho : Open s.Own fs) :
    (s.run lib fs f i).2 = match s.err lib with
      | none => .ok ()
      | some e => .error e := by
  cases s with
  | file p err body =>
    simp only [OutStep.run]
    rw [writeFileOrRemove_quiet (Quiet.mapWrite (hf i) err) hs.1 hp _ hs.2]
    · rw [bodyErr_map]; rfl
    · intro q hq
      exact ho p q rfl hq (by rintro rfl; exact not_dirOf_self hs.1 hq)
  | fail e => rfl
  | dir p files =>
    obtain ⟨g1, g2⟩ := rmtree_gone hp.1 hp.2
    have hm := makedirs_dirsAdded (fs.rmtree p) p (f i).makedirs
    have hr : ((fs.rmtree p).makedirs p (f i).makedirs).2 = .ok () := by
      rw [(hf i).1]
      unfold FS.makedirs
      rw [if_neg (by simpa using hs.1.ne_nil)]
      apply makedirsGo_succeeds
      intro d hd b
      rcases (mem_dirPrefixes hd).2 with rfl | ⟨r, hr⟩
      · rw [g1]; simp
      · have h1 : d ≠ p := by rintro rfl; have := congrArg List.length hr; simp at this
        have h2 : ∀ n, d ≠ p ++ '/' :: n := by rintro n rfl; have := congrArg List.length hr; simp at this
        rw [rmtree_other h1 h2]
        exact ho p d (Or.inl rfl) (Or.inr ⟨r, hr⟩) (by rintro (h | ⟨n, h⟩); exacts [h1 h, h2 n h]) b
    have hok : ((fs.rmtree p).makedirs p (f i).makedirs).1 p = some .dir := by
      have hc := writeDirTry_clean lib (fs.rmtree p) hs.1 (.ok []) (by simp) f i g1 g2
      unfold writeDirTry at hc
      rcases hfs : (fs.rmtree p).makedirs p (f i).makedirs with ⟨fs1, r⟩
      rw [hfs] at hc hr
      simp only at hr
      subst hr
      simp only [writeDirFiles] at hc
      obtain ⟨_, _, _, _, h, _⟩ := hc
      exact h
    have hres : (writeDirOrRemove lib (fs.rmtree p) p files f i).2 = (writeDirTry lib (fs.rmtree p) p files f i).2 := by
      unfold writeDirOrRemove
      rcases writeDirTry lib (fs.rmtree p) p files f i with ⟨fs', r⟩
      cases r <;> rfl
    simp only [OutStep.run]
    rw [hres]
    unfold writeDirTry
    rcases hfs : (fs.rmtree p).makedirs p (f i).makedirs with ⟨fs1, r⟩
    rw [hfs] at hm hr hok
    simp only at hr hok hm
    subst hr
    cases files with
    | error e => rfl
    | ok fl =>
      simp only [OutStep.err]
      refine writeDirFiles_quiet lib hs.1 f hf fl (i + 1) fs1 (hs.2 fl rfl) hok ?_
      intro n
      rcases hm (p ++ '/' :: n) with h | ⟨h, -, -⟩
      · rw [show fs1 (p ++ '/' :: n) = _ from h, g2]; simp
      · exact absurd (mem_dirPrefixes_length h) (by simp)

theorem OutStep.has_err {lib : ConvLib} {fs : FS} {s : OutStep} (h : s.Has lib fs) : s.err lib = none := by
  cases s with
  | file p err body => simp [OutStep.err, h.1]
  | fail e => exact h.elim
  | dir p files =>
    obtain ⟨fl, l, rfl, h, -⟩ := h
    exact filesErr_none.2 ⟨l, h⟩

end Cdtb
