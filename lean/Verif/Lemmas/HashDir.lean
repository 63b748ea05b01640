import Verif.Spec.HashDir
import Verif.Lemmas.FS
import Verif.Lemmas.Path
import Mathlib.Tactic.IntervalCases
/-! Lemmas about the updates of hash files. -/
namespace Cdtb
set_option autoImplicit false
open Py Spec

/-! ## Dates -/

theorem isLeap_iff (y : Nat) : isLeap y = true ↔ leapYear y := by
  simp [isLeap, leapYear]

theorem monthLengths_eq (y : Nat) : monthLengths y = monthDays y := by
  unfold monthLengths monthDays
  by_cases h : leapYear y
  · rw [if_pos ((isLeap_iff y).2 h), if_pos h]
  · rw [if_neg (fun h' => h ((isLeap_iff y).1 h')), if_neg h]

theorem monthDays_sum (y : Nat) : (leapYear y ∧ (monthDays y).sum = 366) ∨ (¬leapYear y ∧ (monthDays y).sum = 365) := by
  unfold monthDays
  by_cases h : leapYear y
  · rw [if_pos h]; exact Or.inl ⟨h, rfl⟩
  · rw [if_neg h]; exact Or.inr ⟨h, rfl⟩

theorem days_years (y : Nat) (h : 1970 ≤ y) :
    (((List.range (y - 1970)).map fun i => (monthDays (1970 + i)).sum).sum : Nat) + 719162 =
      (y - 1) * 365 + (y - 1) / 4 - (y - 1) / 100 + (y - 1) / 400 := by
  obtain ⟨n, rfl⟩ := Nat.exists_eq_add_of_le h
  induction n with
  | zero => rfl
  | succ n ih =>
    have hs : 1970 + (n + 1) - 1970 = (1970 + n - 1970) + 1 := by omega
    rw [hs, List.range_succ, List.map_append, List.sum_append]
    have ih := ih (by omega)
    have e1 : 1970 + n - 1970 = n := Nat.add_sub_cancel_left _ _
    have e : ((List.map (fun i => (monthDays (1970 + i)).sum) [1970 + n - 1970]).sum) = (monthDays (1970 + n)).sum := by
      rw [e1, List.map_cons, List.map_nil, List.sum_cons, List.sum_nil, Nat.add_zero]
    rw [e]
    generalize (List.map (fun i => (monthDays (1970 + i)).sum) (List.range (1970 + n - 1970))).sum = k at ih ⊢
    rcases monthDays_sum (1970 + n) with ⟨h1, h2⟩ | ⟨h1, h2⟩ <;> rw [h2] <;> unfold leapYear at h1 <;> omega

theorem timestampUTC_eq {y m d hour min sec : Nat} (hy : 1970 ≤ y) (hd : 1 ≤ d) :
    timestampUTC y (m - 1) d hour min sec = ((daysSince1970 y m d * 86400 + hour * 3600 + min * 60 + sec : Nat) : Int) := by
  unfold timestampUTC daysSince1970
  have := days_years y hy
  rw [monthLengths_eq]
  generalize ((monthDays y).take (m - 1)).sum = a
  generalize (((List.range (y - 1970)).map fun i => (monthDays (1970 + i)).sum).sum : Nat) = b at *
  simp only
  rw [← this]
  omega

theorem digitChar_digit {n : Nat} (h : n < 10) : '0' ≤ Char.ofNat (48 + n) ∧ Char.ofNat (48 + n) ≤ '9' ∧ (Char.ofNat (48 + n)).toNat = 48 + n := by
  interval_cases n <;> decide

theorem digitsNat_two {n : Nat} (h : n < 100) : digitsNat (twoDigits n) = some n := by
  obtain ⟨h1, h2, h3⟩ := digitChar_digit (n := n / 10) (by omega)
  obtain ⟨h4, h5, h6⟩ := digitChar_digit (n := n % 10) (by omega)
  unfold digitsNat twoDigits
  simp only [List.all_cons, List.all_nil, h1, h2, h4, h5, and_self, decide_true, Bool.and_self, if_true, List.foldl_cons,
    List.foldl_nil, h3, h6]
  congr 1; omega

theorem digitsNat_four {n : Nat} (h : n < 10000) : digitsNat (fourDigits n) = some n := by
  obtain ⟨h1, h2, h3⟩ := digitChar_digit (n := n / 100 / 10) (by omega)
  obtain ⟨h4, h5, h6⟩ := digitChar_digit (n := n / 100 % 10) (by omega)
  obtain ⟨g1, g2, g3⟩ := digitChar_digit (n := n % 100 / 10) (by omega)
  obtain ⟨g4, g5, g6⟩ := digitChar_digit (n := n % 100 % 10) (by omega)
  unfold digitsNat fourDigits twoDigits
  simp only [List.cons_append, List.nil_append, List.all_cons, List.all_nil, h1, h2, h4, h5, g1, g2, g4, g5, and_self, decide_true, Bool.and_self, if_true, List.foldl_cons,
    List.foldl_nil, h3, h6, g3, g6]
  congr 1; omega

theorem dayNames_three {wd : Str} (h : wd ∈ dayNames) : ∃ a b c, wd = [a, b, c] := by
  simp only [dayNames, List.map_cons, List.map_nil, List.mem_cons, List.not_mem_nil, or_false] at h
  rcases h with rfl | rfl | rfl | rfl | rfl | rfl | rfl <;> exact ⟨_, _, _, rfl⟩

theorem monthNames_three {m : Nat} {month : Str}
    (h : ["Jan", "Feb", "Mar", "Apr", "May", "Jun", "Jul", "Aug", "Sep", "Oct", "Nov", "Dec"][m]? = some (String.ofList month)) :
    month ∈ monthNames ∧ monthNames.idxOf month = m ∧ ∃ a b c, month = [a, b, c] := by
  have hm : m < 12 := by
    by_contra hc
    rw [List.getElem?_eq_none (by simpa using hc)] at h
    exact absurd h (by simp)
  have hmonth : ∀ s : String, some s = some (String.ofList month) → month = s.toList := by
    intro s hs
    have := congrArg String.toList (Option.some.inj hs)
    rw [String.toList_ofList] at this
    exact this.symm
  interval_cases m <;>
    · have := hmonth _ h
      subst this
      refine ⟨by decide +kernel, by decide +kernel, _, _, _, rfl⟩

/-- A date of HTTP is understood. -/
theorem parseHttpDate_date {s : Str} {t : Nat} (h : HttpDate s t) : parseHttpDate s = .ok (t : Int) := by
  obtain ⟨wd, hwd, y, m, d, hour, min, sec, month, hmon, hy, hy', hm, hd, ⟨n, hn, hdn⟩, hh, hmi, hs, ht, rfl⟩ := h
  have hwd' : wd ∈ dayNames := hwd
  obtain ⟨hmem, hidx, x1, x2, x3, rfl⟩ := monthNames_three hmon
  obtain ⟨w1, w2, w3, rfl⟩ := dayNames_three hwd'
  have hn31 : n ≤ 31 := by
    have : n ∈ monthDays y := List.mem_of_getElem? hn
    unfold monthDays at this
    simp only [List.mem_cons, List.not_mem_nil, or_false] at this
    split at this <;> omega
  have hd2 := digitsNat_two (n := d) (by omega)
  have hh2 := digitsNat_two (n := hour) (by omega)
  have hmi2 := digitsNat_two (n := min) (by omega)
  have hs2 := digitsNat_two (n := sec) (by omega)
  have hy4 := digitsNat_four (n := y) (by omega)
  unfold parseHttpDate
  unfold fourDigits at hy4 ⊢
  unfold twoDigits at *
  simp only [List.cons_append, List.nil_append, List.length_cons, List.length_nil, List.drop_succ_cons, List.drop_zero,
    List.take_succ_cons, List.take_zero, hwd', hmem, and_self, if_true, hidx, hd2, hh2, hmi2, hs2] at hy4 ⊢
  rw [hy4]
  simp only
  rw [monthLengths_eq, List.getD_eq_getElem?_getD, hn]
  simp only [Option.getD_some, hd, hdn, hh, hmi, hs, and_true, true_and]
  rw [if_pos (by omega), timestampUTC_eq hy hd, ht]

/-! ## Updates -/

theorem pjoin_inDir {dir name : Str} (hd : dir ≠ []) (hn : '/' ∉ name) : pjoin dir name = inDir dir name := by
  unfold pjoin inDir
  have h1 : ¬ startsWith name ['/'] = true := by
    rw [startsWith_iff]; rintro ⟨t, rfl⟩; exact hn (by simp)
  rw [if_neg h1]
  have he : dir.isEmpty = false := by simpa using hd
  rw [he, Bool.false_or]
  by_cases h : dir.getLast? = some '/'
  · rw [if_pos h, if_pos]
    obtain ⟨t, rfl⟩ := List.getLast?_eq_some_iff.1 h
    exact endsWith_iff.2 ⟨t, rfl⟩
  · rw [if_neg h, if_neg]
    · simp
    · intro h'
      obtain ⟨t, rfl⟩ := endsWith_iff.1 h'
      exact h (by simp)

theorem inDir_split (dir name : Str) : ∃ d', inDir dir name = d' ++ ['/'] ++ name ∧ d'.length ≤ dir.length ∧ dir.length ≤ d'.length + 1 := by
  unfold inDir
  by_cases h : dir.getLast? = some '/'
  · rw [if_pos h]
    obtain ⟨t, rfl⟩ := List.getLast?_eq_some_iff.1 h
    exact ⟨t, rfl, by simp, by simp⟩
  · rw [if_neg h]; exact ⟨dir, by simp, by simp, by simp⟩

theorem inDir_inj {dir a b : Str} (h : inDir dir a = inDir dir b) : a = b := by
  unfold inDir at h
  split at h
  · exact List.append_cancel_left h
  · exact List.cons.inj (List.append_cancel_left h) |>.2

theorem basename_inDir {dir name : Str} (hn : '/' ∉ name) : basename (inDir dir name) = name := by
  obtain ⟨d', h, -⟩ := inDir_split dir name
  unfold basename
  rw [h, psplit_dir (Or.inr ⟨d', rfl⟩) hn]

/-- The directories above a file of a directory do not include the files of the directory. -/
theorem inDir_not_prefix {dir a b : Str} (ha : '/' ∉ a) (hb : b ≠ []) (hb' : '/' ∉ b) :
    inDir dir b ∉ dirPrefixes (dirname (inDir dir a)) := by
  intro hm
  have h1 := mem_dirPrefixes_length hm
  obtain ⟨d1, e1, l1, l1'⟩ := inDir_split dir a
  obtain ⟨d2, e2, l2, l2'⟩ := inDir_split dir b
  have hdir : dirname (inDir dir a) = dirname (inDir dir b) := by
    unfold dirname
    have : d1 = d2 := by
      unfold inDir at e1 e2
      split at e1
      · rename_i h
        rw [if_pos h] at e2
        have := List.append_cancel_right e1
        have := List.append_cancel_right e2
        simp_all
      · rename_i h
        rw [if_neg h] at e2
        have e1' : dir ++ '/' :: a = d1 ++ '/' :: a := by simpa using e1
        have e2' : dir ++ '/' :: b = d2 ++ '/' :: b := by simpa using e2
        exact (List.append_cancel_right e1').symm.trans (List.append_cancel_right e2')
    rw [e1, e2, psplit_dir (Or.inr ⟨d1, rfl⟩) ha, psplit_dir (Or.inr ⟨d2, rfl⟩) hb', this]
  rw [hdir] at h1
  have := dirname_length (p := inDir dir b) (by rw [basename_inDir hb']; exact hb)
  omega

/-- A file of the directory after a failed write: it is not there. -/
theorem write_failed {fs : FS} {path : Str} {body : List BodyStep} {f : WriteFaults} {e : Err} (hb : basename path ≠ [])
    (hp : fs path ≠ some .dir) (hf : f.remove = false) (h : (writeFileOrRemove fs path body f).2 = .error e) :
    (writeFileOrRemove fs path body f).1 path = none := by
  rw [writeFileOrRemove_error_fs h, hf]
  have hd : (writeTry fs path body f).1 path ≠ some .dir := by
    have hmk := makedirs_dirsAdded fs (dirname path) f.makedirs path
    unfold writeTry
    rcases hm : fs.makedirs (dirname path) f.makedirs with ⟨fs1, r⟩
    rw [hm] at hmk
    have h1 : fs1 path ≠ some .dir := by
      rcases hmk with hmk | ⟨hmk, -⟩
      · simp only at hmk; rw [hmk]; exact hp
      · exact absurd hmk (not_mem_dirPrefixes_dirname hb)
    cases r with
    | error e => exact h1
    | ok u =>
      simp only
      cases f.open_ with
      | some e => exact h1
      | none =>
        simp only
        rw [if_neg h1]
        simp
  have hnf := remove_not_file (writeTry fs path body f).1 path
  cases hx : (writeTry fs path body f).1.remove path false path with
  | none => rfl
  | some n =>
    cases n with
    | file b => exact absurd hx (hnf b)
    | dir =>
      exfalso
      unfold FS.remove at hx
      simp only [Bool.false_eq_true, if_false] at hx
      rcases hy : (writeTry fs path body f).1 path with _ | _ | _
      · rw [hy] at hx; simp [hy] at hx
      · rw [hy] at hx; simp at hx
      · exact hd hy

theorem write_opened {fs : FS} {path : Str} {body : List BodyStep} {f : WriteFaults}
    (h : (writeFileOrRemove fs path body f).2 = .ok ()) : fileOpened fs path f = true := by
  rw [writeFileOrRemove_result] at h
  unfold writeTry at h
  unfold fileOpened
  rcases hm : fs.makedirs (dirname path) f.makedirs with ⟨fs1, r⟩
  rw [hm] at h
  cases r with
  | error e => simp at h
  | ok u =>
    simp only at h ⊢
    cases ho : f.open_ with
    | some e => rw [ho] at h; simp at h
    | none =>
      rw [ho] at h
      simp only at h
      split at h
      · simp at h
      · rename_i hd; simp [hd]

/-- The part of an update that downloads -/
theorem fetchHashfile_ok {d d' : TimedFS} {path : Str} {c : UpdateCall} (h : fetchHashfile d path c = (d', .ok ())) :
    ∃ b, c.get = .ok b ∧ d'.fs path = some (.file b) ∧ d'.mtime path = c.now := by
  unfold fetchHashfile at h
  cases hg : c.get with
  | error e => rw [hg] at h; simp at h
  | ok b =>
    rw [hg] at h
    simp only [Prod.mk.injEq] at h
    obtain ⟨rfl, h⟩ := h
    refine ⟨b, rfl, ?_, ?_⟩
    · simp only
      rw [writeFileOrRemove_ok_fs h]
      rw [writeFileOrRemove_result] at h
      rw [(writeTry_ok h).1]; simp [bodyBytes]
    · simp only
      rw [write_opened h]; simp

theorem fetchHashfile_error {d d' : TimedFS} {path : Str} {c : UpdateCall} {e : Err} (hb : basename path ≠ [])
    (hp : d.fs path ≠ some .dir) (hf : c.faults.remove = false) (h : fetchHashfile d path c = (d', .error e)) :
    (c.get = .error e ∧ d' = d) ∨ ((∃ b, c.get = .ok b) ∧ d'.fs path = none) := by
  unfold fetchHashfile at h
  cases hg : c.get with
  | error e' => rw [hg] at h; simp at h; exact Or.inl ⟨by rw [h.2], h.1.symm⟩
  | ok b =>
    rw [hg] at h
    simp only [Prod.mk.injEq] at h
    obtain ⟨rfl, h⟩ := h
    exact Or.inr ⟨⟨b, rfl⟩, write_failed hb hp hf h⟩

theorem fetchHashfile_frame {d : TimedFS} {path q : Str} {c : UpdateCall} (hq : q ≠ path) :
    ((fetchHashfile d path c).1.fs q = d.fs q ∨
      (q ∈ dirPrefixes (dirname path) ∧ d.fs q = none ∧ (fetchHashfile d path c).1.fs q = some .dir)) ∧
    (fetchHashfile d path c).1.mtime q = d.mtime q := by
  unfold fetchHashfile
  cases c.get with
  | error e => exact ⟨Or.inl rfl, rfl⟩
  | ok b =>
    refine ⟨writeFileOrRemove_touches d.fs path [.write b] c.faults q hq, ?_⟩
    simp only
    split
    · simp [hq]
    · rfl

/-- An update either leaves everything as it is, or downloads. -/
theorem updateHashfile_cases (dir : Str) (d : TimedFS) (b : Str) (c : UpdateCall) :
    (∃ r reqs, updateHashfile dir d b c = (d, r, reqs) ∧ HashRequest.get ∉ reqs) ∨
    ∃ reqs, updateHashfile dir d b c = ((fetchHashfile d (pjoin dir b) c).1, (fetchHashfile d (pjoin dir b) c).2, reqs ++ [.get]) := by
  unfold updateHashfile
  have hreqs : HashRequest.get ∉ (checkUpdate d (pjoin dir b) c).2 := by
    unfold checkUpdate
    cases d.stat (pjoin dir b) <;> simp
  simp only
  split
  · rename_i h; rw [h] at hreqs; exact Or.inl ⟨_, _, rfl, hreqs⟩
  · exact Or.inr ⟨_, rfl⟩
  · exact Or.inr ⟨_, rfl⟩
  · rename_i h; rw [h] at hreqs; exact Or.inl ⟨_, _, rfl, hreqs⟩

end Cdtb
