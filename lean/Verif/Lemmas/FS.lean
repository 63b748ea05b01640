import Verif.Model.Tools
import Verif.Lemmas.Str
/-! Lemmas about the file system model. -/
namespace Cdtb
set_option autoImplicit false
open Py

@[simp] theorem FS.set_self (fs : FS) (p n) : fs.set p n p = n := by simp [FS.set]
theorem FS.set_other (fs : FS) {p q : Str} (h : q ≠ p) (n) : fs.set p n q = fs q := by simp [FS.set, h]

/-- `fs'` differs from `fs` only by directories of `ds` created where there was nothing. -/
def DirsAdded (ds : List Str) (fs fs' : FS) : Prop :=
  ∀ q, fs' q = fs q ∨ (q ∈ ds ∧ fs q = none ∧ fs' q = some .dir)

theorem DirsAdded.refl (ds fs) : DirsAdded ds fs fs := fun _ => Or.inl rfl

theorem makedirsGo_dirsAdded (fs : FS) (f) (ds : List Str) : DirsAdded ds fs (makedirsGo fs f ds).1 := by
  induction ds generalizing fs f with
  | nil => rcases f with _ | ⟨_ | k, e⟩ <;> simp [makedirsGo, DirsAdded.refl]
  | cons d ds ih =>
    have main : ∀ f', DirsAdded (d :: ds) fs (match fs d with
        | none => makedirsGo (fs.set d (some .dir)) f' ds
        | some .dir => makedirsGo fs f' ds
        | some (.file _) => (fs, .error (.os 20))).1 := by
      intro f' q
      cases hd : fs d with
      | none =>
        simp only
        rcases ih (fs.set d (some .dir)) f' q with h | ⟨h1, h2, h3⟩
        · by_cases hq : q = d
          · subst hq; right; rw [h]; simp [hd]
          · left; rw [h, FS.set_other _ hq]
        · have hq : q ≠ d := by rintro rfl; simp at h2
          right; rw [FS.set_other _ hq] at h2; exact ⟨by simp [h1], h2, h3⟩
      | some n =>
        cases n with
        | file b => left; rfl
        | dir =>
          simp only
          rcases ih fs f' q with h | ⟨h1, h2, h3⟩
          · exact Or.inl h
          · exact Or.inr ⟨by simp [h1], h2, h3⟩
    rcases f with _ | ⟨_ | k, e⟩
    · simp only [makedirsGo, Option.map_none]; exact main none
    · simp [makedirsGo, DirsAdded.refl]
    · simp only [makedirsGo, Option.map_some, Nat.add_sub_cancel]; exact main (some (k, e))

/-- When it succeeds, all directories exist. -/
theorem makedirsGo_ok (fs : FS) (f) (ds : List Str) (h : (makedirsGo fs f ds).2 = .ok ()) :
    (∀ d ∈ ds, (makedirsGo fs f ds).1 d = some .dir) ∧ (∀ d ∈ ds, ∀ b, fs d ≠ some (.file b)) ∧
    (∀ k e, f = some (k, e) → ds.length < k) := by
  induction ds generalizing fs f with
  | nil =>
    refine ⟨by simp, by simp, ?_⟩
    rintro k e rfl
    cases k with
    | zero => simp [makedirsGo] at h
    | succ k => simp
  | cons d ds ih =>
    have main : ∀ f', (match fs d with
        | none => makedirsGo (fs.set d (some .dir)) f' ds
        | some .dir => makedirsGo fs f' ds
        | some (.file _) => (fs, .error (.os 20))).2 = .ok () →
        (∀ d' ∈ d :: ds, (match fs d with
        | none => makedirsGo (fs.set d (some .dir)) f' ds
        | some .dir => makedirsGo fs f' ds
        | some (.file _) => (fs, .error (.os 20))).1 d' = some .dir) ∧
        (∀ d' ∈ d :: ds, ∀ b, fs d' ≠ some (.file b)) ∧ (∀ k e, f' = some (k, e) → ds.length < k) := by
      intro f' h'
      cases hd : fs d with
      | none =>
        rw [hd] at h'
        simp only at h' ⊢
        obtain ⟨h1, h2, h3⟩ := ih _ _ h'
        refine ⟨?_, ?_, h3⟩
        · intro d' hd'
          rcases List.mem_cons.1 hd' with rfl | hd'
          · rcases makedirsGo_dirsAdded (fs.set d' (some .dir)) f' ds d' with h | ⟨_, _, h⟩
            · rw [h]; simp
            · exact h
          · exact h1 d' hd'
        · intro d' hd' b
          by_cases hq : d' = d
          · subst hq; simp [hd]
          · have := h2 d' (by simpa [hq] using hd') b
            rwa [FS.set_other _ hq] at this
      | some n =>
        cases n with
        | file b => rw [hd] at h'; simp at h'
        | dir =>
          rw [hd] at h'
          simp only at h' ⊢
          obtain ⟨h1, h2, h3⟩ := ih _ _ h'
          refine ⟨?_, ?_, h3⟩
          · intro d' hd'
            rcases List.mem_cons.1 hd' with rfl | hd'
            · rcases makedirsGo_dirsAdded fs f' ds d' with h | ⟨_, _, h⟩
              · rw [h, hd]
              · exact h
            · exact h1 d' hd'
          · intro d' hd' b
            rcases List.mem_cons.1 hd' with rfl | hd'
            · simp [hd]
            · exact h2 d' hd' b
    rcases f with _ | ⟨_ | k, e⟩
    · simp only [makedirsGo, Option.map_none] at h ⊢
      obtain ⟨h1, h2, h3⟩ := main none h
      exact ⟨h1, h2, by simp⟩
    · simp [makedirsGo] at h
    · simp only [makedirsGo, Option.map_some, Nat.add_sub_cancel] at h ⊢
      obtain ⟨h1, h2, h3⟩ := main (some (k, e)) h
      refine ⟨h1, h2, ?_⟩
      intro k' e' he
      simp only [Option.some.injEq, Prod.mk.injEq] at he
      have := h3 k e rfl
      simp; omega

theorem makedirsGo_succeeds (fs : FS) (ds : List Str) (h : ∀ d ∈ ds, ∀ b, fs d ≠ some (.file b)) :
    (makedirsGo fs none ds).2 = .ok () := by
  induction ds generalizing fs with
  | nil => simp [makedirsGo]
  | cons d ds ih =>
    simp only [makedirsGo, Option.map_none]
    cases hd : fs d with
    | none =>
      simp only
      apply ih
      intro d' hd' b
      by_cases hq : d' = d
      · subst hq; simp
      · rw [FS.set_other _ hq]; exact h d' (by simp [hd']) b
    | some n =>
      cases n with
      | file b => exact absurd hd (h d (by simp) b)
      | dir => exact ih fs (fun d' hd' => h d' (by simp [hd']))

/-- Concatenation of the data written by a body. -/
def bodyBytes (body : List BodyStep) : Bytes :=
  (body.map fun s => match s with | .write b => b | .raise _ => []).flatten

theorem writeBody_ok {f : WriteFaults} {i : Nat} {acc : Bytes} {body : List BodyStep}
    (h : (writeBody f i acc body).2 = .ok ()) :
    (writeBody f i acc body).1 = acc ++ bodyBytes body ∧ (∀ s ∈ body, ∃ b, s = .write b) ∧
    (∀ j < body.length, f.write (i + j) = none) := by
  induction body generalizing i acc with
  | nil => simp [writeBody, bodyBytes]
  | cons s rest ih =>
    cases s with
    | raise e => simp [writeBody] at h
    | write b =>
      simp only [writeBody] at h ⊢
      cases hf : f.write i with
      | some ke => rw [hf] at h; simp at h
      | none =>
        rw [hf] at h
        simp only at h ⊢
        obtain ⟨h1, h2, h3⟩ := ih h
        refine ⟨by rw [h1]; simp [bodyBytes], ?_, ?_⟩
        · intro s hs
          rcases List.mem_cons.1 hs with rfl | hs
          · exact ⟨b, rfl⟩
          · exact h2 s hs
        · intro j hj
          cases j with
          | zero => exact hf
          | succ j => have := h3 j (by simpa using hj); rw [← this]; congr 1; omega

theorem writeBody_succeeds {f : WriteFaults} {i : Nat} {acc : Bytes} {body : List BodyStep}
    (hb : ∀ s ∈ body, ∃ b, s = .write b) (hf : ∀ j, f.write j = none) :
    (writeBody f i acc body).2 = .ok () := by
  induction body generalizing i acc with
  | nil => simp [writeBody]
  | cons s rest ih =>
    obtain ⟨b, rfl⟩ := hb s (by simp)
    simp only [writeBody, hf]
    exact ih (fun s hs => hb s (by simp [hs]))

/-- Whatever happens, what is written is a prefix of the intended content. -/
theorem writeBody_prefix (f : WriteFaults) (i : Nat) (acc : Bytes) (body : List BodyStep) :
    (writeBody f i acc body).1 <+: acc ++ bodyBytes body := by
  induction body generalizing i acc with
  | nil => simp [writeBody, bodyBytes]
  | cons s rest ih =>
    cases s with
    | raise e => simp [writeBody]
    | write b =>
      simp only [writeBody]
      cases hf : f.write i with
      | some ke =>
        simp only
        have : bodyBytes (.write b :: rest) = b ++ bodyBytes rest := by simp [bodyBytes]
        rw [this, ← List.append_assoc]
        exact ((List.prefix_append_right_inj acc).2 (List.take_prefix _ _)).trans (List.prefix_append _ _)
      | none =>
        simp only
        have : acc ++ bodyBytes (.write b :: rest) = (acc ++ b) ++ bodyBytes rest := by simp [bodyBytes]
        rw [this]; exact ih _ _

/-- A directory prefix is a proper ancestor of any path below it. -/
theorem join_take_prefix (sep : Str) (ps : List Str) (i : Nat) (hi : i < ps.length) :
    join sep (ps.take (i + 1)) = join sep ps ∨ ∃ r, join sep ps = join sep (ps.take (i + 1)) ++ sep ++ r := by
  induction ps generalizing i with
  | nil => simp at hi
  | cons p ps ih =>
    cases ps with
    | nil => left; simp
    | cons q qs =>
      cases i with
      | zero => right; exact ⟨join sep (q :: qs), by simp [join]⟩
      | succ i =>
        have := ih i (by simpa using hi)
        simp only [List.take_succ_cons, join] at this ⊢
        rcases this with h | ⟨r, h⟩
        · left; rw [h]
        · right; exact ⟨r, by rw [h]; simp⟩

theorem mem_dirPrefixes {p q : Str} (h : q ∈ dirPrefixes p) : q ≠ [] ∧ (q = p ∨ ∃ r, p = q ++ '/' :: r) := by
  simp only [dirPrefixes, List.mem_filter, List.mem_map, List.mem_range] at h
  obtain ⟨⟨i, hi, rfl⟩, hne⟩ := h
  refine ⟨by simpa using hne, ?_⟩
  rcases join_take_prefix ['/'] (splitChar '/' p) i hi with h | ⟨r, h⟩
  · left; rw [h, join_splitChar]
  · right; rw [join_splitChar] at h; exact ⟨r, by simpa using h⟩

theorem rstripChar_length_le (c : Char) (s : Str) : (rstripChar c s).length ≤ s.length := by
  simp only [rstripChar, List.length_reverse]
  exact Nat.le_trans (List.dropWhile_sublist _).length_le (by simp)

/-- `dirname p` is shorter than `p` when there is a base name. -/
theorem dirname_length {p : Str} (h : basename p ≠ []) : (dirname p).length < p.length := by
  unfold dirname basename psplit at *
  cases hs : rsplit1 '/' p with
  | none =>
    rw [hs] at h; simp at h ⊢
    exact List.length_pos_iff.2 h
  | some db =>
    obtain ⟨d, b⟩ := db
    have hp := (rsplit1_eq_some.1 hs).1
    rw [hs] at h
    simp only at h ⊢
    split at h <;> rename_i hc
    · simp only [hc, if_true, hp]
      simp only at h
      have := List.length_pos_iff.2 h
      simp; omega
    · simp only [hc, if_false, hp]
      simp only at h
      have h1 := rstripChar_length_le '/' (d ++ ['/'])
      have := List.length_pos_iff.2 h
      simp at h1 ⊢; omega

theorem mem_dirPrefixes_length {p q : Str} (h : q ∈ dirPrefixes p) : q.length ≤ p.length := by
  rcases (mem_dirPrefixes h).2 with rfl | ⟨r, rfl⟩ <;> simp

theorem not_mem_dirPrefixes_dirname {p : Str} (h : basename p ≠ []) : p ∉ dirPrefixes (dirname p) := by
  intro hm
  have := mem_dirPrefixes_length hm
  have := dirname_length h
  omega

/-! ### `writeTry` / `writeFileOrRemove` -/

/-- `fs'` and `fs` agree except at `p`, and except directories of `ds` created where there was nothing. -/
def OnlyTouches (p : Str) (ds : List Str) (fs fs' : FS) : Prop :=
  ∀ q, q ≠ p → fs' q = fs q ∨ (q ∈ ds ∧ fs q = none ∧ fs' q = some .dir)

theorem makedirs_dirsAdded (fs : FS) (p f) : DirsAdded (dirPrefixes p) fs (fs.makedirs p f).1 := by
  unfold FS.makedirs
  split
  · exact DirsAdded.refl _ _
  · exact makedirsGo_dirsAdded _ _ _

theorem writeTry_touches (fs : FS) (path : Str) (body) (f) :
    OnlyTouches path (dirPrefixes (dirname path)) fs (writeTry fs path body f).1 := by
  intro q hq
  have h := makedirs_dirsAdded fs (dirname path) f.makedirs q
  unfold writeTry
  rcases hm : fs.makedirs (dirname path) f.makedirs with ⟨fs1, r⟩
  rw [hm] at h
  cases r with
  | error e => exact h
  | ok u =>
    simp only
    cases f.open_ with
    | some e => exact h
    | none =>
      simp only
      split
      · exact h
      · simp only [FS.set_other _ hq]; exact h

theorem remove_other (fs : FS) {p q : Str} (h : q ≠ p) (b) : fs.remove p b q = fs q := by
  unfold FS.remove
  split
  · rfl
  · rcases fs p with _ | _ | _
    · rfl
    · exact FS.set_other _ h _
    · rfl

theorem writeFileOrRemove_touches (fs : FS) (path : Str) (body) (f) :
    OnlyTouches path (dirPrefixes (dirname path)) fs (writeFileOrRemove fs path body f).1 := by
  intro q hq
  have h := writeTry_touches fs path body f q hq
  unfold writeFileOrRemove
  rcases hm : writeTry fs path body f with ⟨fs1, r⟩
  rw [hm] at h
  cases r with
  | error e => simp only [remove_other _ hq]; exact h
  | ok u => exact h

theorem writeTry_ok {fs : FS} {path : Str} {body f} (h : (writeTry fs path body f).2 = .ok ()) :
    (writeTry fs path body f).1 path = some (.file (bodyBytes body)) ∧
    (∀ s ∈ body, ∃ b, s = .write b) ∧ f.open_ = none ∧ f.close = none ∧
    (∀ j < body.length, f.write j = none) ∧
    (fs.makedirs (dirname path) f.makedirs).2 = .ok () := by
  unfold writeTry at h ⊢
  rcases hm : fs.makedirs (dirname path) f.makedirs with ⟨fs1, r⟩
  rw [hm] at h
  cases r with
  | error e => simp at h
  | ok u =>
    simp only at h ⊢
    cases ho : f.open_ with
    | some e => rw [ho] at h; simp at h
    | none =>
      rw [ho] at h
      simp only at h ⊢
      split at h
      · simp at h
      · rename_i hd
        simp only [hd, if_false]
        have hc : f.close = none := by
          cases hc : f.close with
          | none => rfl
          | some ke => simp [closeFile, hc] at h
        simp only [closeFile, hc] at h ⊢
        obtain ⟨h1, h2, h3⟩ := writeBody_ok h
        simp only [FS.set_self, h1, List.nil_append, true_and]
        refine ⟨h2, ?_⟩
        simpa using h3

theorem writeFileOrRemove_result (fs path body f) :
    (writeFileOrRemove fs path body f).2 = (writeTry fs path body f).2 := by
  unfold writeFileOrRemove
  rcases writeTry fs path body f with ⟨fs1, r⟩
  cases r <;> rfl

theorem writeFileOrRemove_ok_fs {fs path body f} (h : (writeFileOrRemove fs path body f).2 = .ok ()) :
    (writeFileOrRemove fs path body f).1 = (writeTry fs path body f).1 := by
  unfold writeFileOrRemove at h ⊢
  rcases hw : writeTry fs path body f with ⟨fs1, r⟩
  rw [hw] at h
  cases r
  · simp at h
  · rfl

theorem writeFileOrRemove_error_fs {fs path body f e} (h : (writeFileOrRemove fs path body f).2 = .error e) :
    (writeFileOrRemove fs path body f).1 = (writeTry fs path body f).1.remove path f.remove := by
  unfold writeFileOrRemove at h ⊢
  rcases hw : writeTry fs path body f with ⟨fs1, r⟩
  rw [hw] at h
  cases r
  · rfl
  · simp at h

theorem remove_not_file (fs : FS) (p : Str) (b : Bytes) : fs.remove p false p ≠ some (.file b) := by
  unfold FS.remove
  simp only [Bool.false_eq_true, if_false]
  cases hp : fs p with
  | none => simp [hp]
  | some n => cases n <;> simp [hp]

end Cdtb
