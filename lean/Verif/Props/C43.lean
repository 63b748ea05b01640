import Verif.Model.Rads
import Verif.Lemmas.Str
import Verif.Lemmas.Num
/-!
# C43  Package manifest lines and export paths decode exactly
-/
namespace Cdtb
set_option autoImplicit false
open Py

/-- A line of a package manifest: the path (after a leading `/`), the name of the package, offset, size and a type,
separated by commas. The end of the line is in the last field. -/
def Spec.pkgLine (path package : Str) (offset size : Int) (typ : Str) : Str :=
  '/' :: path ++ ',' :: package ++ ',' :: showInt offset ++ ',' :: showInt size ++ ',' :: typ

theorem showInt_char {n : Int} {c : Char} (h : c ∈ showInt n) : c = '-' ∨ c ∈ "0123456789".toList := by
  have key : ∀ d < 10, digitChar d ∈ "0123456789".toList := by decide +kernel
  unfold showInt at h
  split at h
  · rcases List.mem_cons.1 h with rfl | h
    · exact Or.inl rfl
    · obtain ⟨d, hd, rfl⟩ := showNat_mem (by omega) (by omega) h
      exact Or.inr (key d (by omega))
  · obtain ⟨d, hd, rfl⟩ := showNat_mem (by omega) (by omega) h
    exact Or.inr (key d (by omega))

theorem showInt_nocomma (n : Int) : ',' ∉ showInt n := by
  intro h
  rcases showInt_char h with h | h
  · revert h; decide
  · revert h; decide +kernel

theorem splitChar_pkgLine {path package typ : Str} {offset size : Int} (h1 : ',' ∉ path) (h2 : ',' ∉ package) (h3 : ',' ∉ typ) :
    splitChar ',' (Spec.pkgLine path package offset size typ) =
      ['/' :: path, package, showInt offset, showInt size, typ] := by
  have h0 : ',' ∉ ('/' :: path) := by
    simp only [List.mem_cons, not_or]; exact ⟨by decide, h1⟩
  have e : Spec.pkgLine path package offset size typ =
      ('/' :: path) ++ ',' :: (package ++ ',' :: (showInt offset ++ ',' :: (showInt size ++ ',' :: typ))) := by
    simp [Spec.pkgLine]
  rw [e, splitChar_append h0, splitChar_append h2, splitChar_append (showInt_nocomma _),
    splitChar_append (showInt_nocomma _), splitChar_of_not_mem h3]

theorem endsWith_append (a b : Str) : endsWith (a ++ b) b = true := endsWith_iff.2 ⟨a, rfl⟩

/-- A line gives back its path, package, offset and size; the extract path is the path without the `.compressed`
suffix when there is one, and then the file is compressed; otherwise it is the path itself. -/
theorem C43_line (path package typ : Str) (offset size : Int) (h1 : ',' ∉ path) (h2 : ',' ∉ package) (h3 : ',' ∉ typ) :
    ∃ pf, parsePkgLine (Spec.pkgLine path package offset size typ) = .ok pf ∧
      pf.path = path ∧ pf.package = package ∧ pf.offset = offset ∧ pf.size = size ∧
      (∀ p, path = p ++ ".compressed".toList → pf.compressed = true ∧ pf.extractPath = p) ∧
      ((¬ ∃ p, path = p ++ ".compressed".toList) → pf.compressed = false ∧ pf.extractPath = path) := by
  unfold parsePkgLine
  rw [splitChar_pkgLine h1 h2 h3]
  refine ⟨⟨path, package, offset, size, endsWith path ".compressed".toList,
    if endsWith path ".compressed".toList then path.take (path.length - 11) else path⟩, ?_, rfl, rfl, rfl, rfl, ?_, ?_⟩
  · simp only [intOrErr, int10_showInt, bind, Except.bind, List.drop_succ_cons, List.drop_zero, pure, Except.pure]
  · rintro p rfl
    refine ⟨endsWith_append _ _, ?_⟩
    rw [if_pos (endsWith_append _ _), List.length_append, show ".compressed".toList.length = 11 from rfl, Nat.add_sub_cancel,
      List.take_left]
  · intro h
    have : endsWith path ".compressed".toList = false := by
      rw [Bool.eq_false_iff]
      intro h'
      exact h (endsWith_iff.1 h')
    exact ⟨this, by rw [this]; rfl⟩

/-- A line with another number of fields raises `ValueError`. -/
theorem C43_fields (fields : List Str) (hc : ∀ f ∈ fields, ',' ∉ f) (h0 : fields ≠ []) (hn : fields.length ≠ 5) :
    parsePkgLine (join [','] fields) = .error .value := by
  unfold parsePkgLine
  rw [splitChar_join h0 hc]
  split
  · simp at hn
  · rfl

theorem universal_append_line {l : Str} (h : '\r' ∉ l) (crlf : Bool) (r : Str) :
    universalNewlines (l ++ (if crlf then ['\r', '\n'] else ['\n']) ++ r) = l ++ '\n' :: universalNewlines r := by
  induction l with
  | nil => cases crlf <;> simp [universalNewlines]
  | cons c l ih =>
    simp only [List.mem_cons, not_or] at h
    have hc : c ≠ '\r' := Ne.symm h.1
    rw [List.cons_append, List.cons_append]
    rw [universalNewlines.eq_def]
    split
    · simp at *
    · rename_i h'; exact absurd (List.cons.inj h').1 hc
    · rename_i h'
      obtain ⟨rfl, rfl⟩ := List.cons.inj h'
      rw [if_neg hc, ih h.2]
      rfl

theorem fileLines_append_line {l : Str} (h : '\n' ∉ l) (r : Str) :
    fileLines (l ++ '\n' :: r) = (l ++ ['\n']) :: fileLines r := by
  induction l with
  | nil => simp [fileLines]
  | cons c l ih =>
    simp only [List.mem_cons, not_or] at h
    rw [List.cons_append, fileLines, if_neg (Ne.symm h.1), ih h.2]
    rfl

/-- Text made of lines, each ended by `\n` or `\r\n` -/
def Spec.textOf (ls : List (Str × Bool)) : Str := (ls.map fun l => l.1 ++ if l.2 then ['\r', '\n'] else ['\n']).flatten

theorem fileLines_textOf {ls : List (Str × Bool)} (h : ∀ l ∈ ls, '\n' ∉ l.1 ∧ '\r' ∉ l.1) :
    fileLines (universalNewlines (Spec.textOf ls)) = ls.map fun l => l.1 ++ ['\n'] := by
  induction ls with
  | nil => rfl
  | cons l ls ih =>
    have hl := h l (by simp)
    simp only [Spec.textOf, List.map_cons, List.flatten_cons]
    rw [universal_append_line hl.2, fileLines_append_line hl.1]
    exact congrArg _ (ih fun x hx => h x (by simp [hx]))

/-- A manifest whose first line starts with `PKG1` gives one file for each other line, in order, whatever the kind of
line ends. -/
theorem C43_manifest (magic : Str) (e : Bool) (ls : List (Str × Bool)) (hm : '\n' ∉ magic ∧ '\r' ∉ magic)
    (h : ∀ l ∈ ls, '\n' ∉ l.1 ∧ '\r' ∉ l.1) :
    parsePkgManifest (Spec.textOf (("PKG1".toList ++ magic, e) :: ls)) =
      ls.mapM fun l => parsePkgLine (l.1 ++ ['\n']) := by
  unfold parsePkgManifest
  rw [fileLines_textOf]
  · simp only [List.map_cons]
    rw [if_pos (startsWith_iff.2 ⟨magic ++ ['\n'], by simp⟩), List.mapM_map]
    rfl
  · intro l hl
    rcases List.mem_cons.1 hl with rfl | hl
    · refine ⟨?_, ?_⟩ <;> rw [List.mem_append, not_or] <;> exact ⟨by decide, by first | exact hm.1 | exact hm.2⟩
    · exact h l hl

/-- Another first line is rejected. -/
theorem C43_magic (l : Str) (e : Bool) (ls : List (Str × Bool)) (hm : ¬ ∃ r, l = "PKG1".toList ++ r)
    (hn : ∀ x ∈ (l, e) :: ls, '\n' ∉ x.1 ∧ '\r' ∉ x.1) :
    parsePkgManifest (Spec.textOf ((l, e) :: ls)) = .error .assertion ∧ parsePkgManifest [] = .error .assertion := by
  refine ⟨?_, rfl⟩
  unfold parsePkgManifest
  rw [fileLines_textOf hn]
  simp only [List.map_cons]
  rw [if_neg]
  · rfl
  · intro h
    obtain ⟨r, hr⟩ := startsWith_iff.1 h
    apply hm
    rcases List.eq_nil_or_concat r with rfl | ⟨r', x, rfl⟩
    · rw [List.append_nil] at hr
      have := congrArg List.getLast? hr
      simp at this
    · rw [List.concat_eq_append, ← List.append_assoc] at hr
      exact ⟨r', (List.append_inj' hr rfl).1⟩

/-- Files of a project version: for each extract path of the manifest, the last line having it. -/
theorem C43_files (pfs : List PkgFile) (p : Str) :
    (packageFiles pfs).get? p = (pfs.reverse.find? fun pf => pf.extractPath = p) := by
  unfold packageFiles
  rw [Dict.get?_ofList]
  rw [← List.map_reverse]
  induction pfs.reverse with
  | nil => rfl
  | cons x l ih =>
    rw [List.map_cons, List.find?_cons, List.find?_cons]
    by_cases h : x.extractPath = p
    · simp [h]
    · simpa [h] using ih

/-- The export path is what follows the first five components, lowercased. -/
theorem C43_relpath (a b c d e rest : Str) (ha : '/' ∉ a) (hb : '/' ∉ b) (hc : '/' ∉ c) (hd : '/' ∉ d) (he : '/' ∉ e) :
    radsRelpath (a ++ '/' :: b ++ '/' :: c ++ '/' :: d ++ '/' :: e ++ '/' :: rest) = .ok (lower rest) := by
  have key : ∀ {x : Str} {n : Nat} {r : Str}, '/' ∉ x → afterSlashes (n + 1) (x ++ '/' :: r) = afterSlashes n r := by
    intro x n r hx
    rw [afterSlashes, split1_eq_some.2 ⟨rfl, hx⟩]
  simp only [radsRelpath, List.append_assoc, List.cons_append]
  rw [key ha, key hb, key hc, key hd, key he]
  rfl

/-- A path with fewer components raises `IndexError`. -/
theorem C43_relpath_short (path : Str) (h : path.count '/' < 5) : radsRelpath path = .error .index := by
  have key : ∀ (n : Nat) (s : Str), s.count '/' < n → afterSlashes n s = .error .index := by
    intro n
    induction n with
    | zero => intro s h; omega
    | succ n ih =>
      intro s h
      rw [afterSlashes]
      rcases hs : split1 '/' s with _ | ⟨x, r⟩
      · rfl
      · simp only
        apply ih
        obtain ⟨rfl, hx⟩ := split1_eq_some.1 hs
        rw [List.count_append, List.count_cons_self] at h
        omega
  rw [radsRelpath, key 5 path h]
  rfl

/-! Non-vacuity -/
example : parsePkgLine "/projects/lol/releases/0.0.1.2/files/A.bin.compressed,BIN_0x01,12,345,0\n".toList =
    .ok ⟨"projects/lol/releases/0.0.1.2/files/A.bin.compressed".toList, "BIN_0x01".toList, 12, 345, true,
      "projects/lol/releases/0.0.1.2/files/A.bin".toList⟩ := by decide +kernel
example : radsRelpath "projects/lol/releases/0.0.1.2/files/Data/A.bin".toList = .ok "data/a.bin".toList := by
  decide +kernel
example : parsePkgManifest "PKG1\r\n/a.compressed,B,0,3,0\r\n/b,B,3,4,0".toList =
    .ok [⟨"a.compressed".toList, "B".toList, 0, 3, true, "a".toList⟩, ⟨"b".toList, "B".toList, 3, 4, false, "b".toList⟩] := by
  decide +kernel
example : parsePkgLine "/a,B,0,3".toList = .error .value := by decide +kernel

end Cdtb
