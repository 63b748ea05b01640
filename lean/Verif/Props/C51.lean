import Verif.Model.Tft
import Verif.Lemmas.Str
import Verif.Lemmas.Dict
import Mathlib.Data.List.Induction
/-!
# C51  Text translation tables
-/
namespace Cdtb
set_option autoImplicit false
open Py

/-! ## Specification -/

/-- Lines of a translation file: entries `tr "key" = "value"`, and lines that are something else. -/
inductive Spec.TrText where
  | entry (key value : Str)
  | other (line : Bytes)

/-- An entry as written by the game -/
def Spec.trEntry (key value : Str) : Str := "tr \"".toList ++ key ++ "\" = \"".toList ++ value ++ "\"".toList

/-- Content of the lines, without the line break -/
def Spec.TrText.bytes : Spec.TrText → Bytes
  | .entry k v => utf8Bytes (Spec.trEntry k v)
  | .other l => l

/-- Keys have no `=` and are on one line, as values; other lines are on one line and do not begin with `tr "`. -/
def Spec.TrText.Valid : Spec.TrText → Prop
  | .entry k v => '=' ∉ k ∧ '\n' ∉ k ∧ '\n' ∉ v
  | .other l => (10 : UInt8) ∉ l ∧ ¬ utf8Bytes "tr \"".toList <+: l

/-- A file: each line is followed by a line break. -/
def Spec.trFile (lines : List Spec.TrText) : Bytes := lines.flatMap fun l => l.bytes ++ [10]

/-- The value of a key: that of the last entry with this key -/
def Spec.trValue (lines : List Spec.TrText) (key : Str) : Option Str :=
  (lines.reverse.findSome? fun l => match l with
    | .entry k v => if k = key then some v else none
    | .other _ => none)

/-! ## Lemmas -/

theorem byteLines_line (l rest : Bytes) (h : (10 : UInt8) ∉ l) : byteLines (l ++ 10 :: rest) = (l ++ [10]) :: byteLines rest := by
  induction l with
  | nil => simp [byteLines]
  | cons b l ih =>
    have hb : b ≠ 10 := fun e => h (e ▸ List.mem_cons_self)
    rw [List.cons_append, byteLines, if_neg hb, ih fun h' => h (List.mem_cons_of_mem _ h')]
    rfl

theorem byteLines_last (l : Bytes) (h : (10 : UInt8) ∉ l) (hne : l ≠ []) : byteLines l = [l] := by
  induction l with
  | nil => exact absurd rfl hne
  | cons b l ih =>
    have hb : b ≠ 10 := fun e => h (e ▸ List.mem_cons_self)
    rw [byteLines, if_neg hb]
    cases l with
    | nil => simp [byteLines]
    | cons c l => rw [ih (fun h' => h (List.mem_cons_of_mem _ h')) (by simp)]

/-- A line break is a byte of the encoding of the character only. -/
theorem utf8Bytes_newline {s : Str} (h : '\n' ∉ s) : (10 : UInt8) ∉ utf8Bytes s := by
  intro hb
  obtain ⟨c, hc, hb⟩ := List.mem_flatMap.1 hb
  have hc0 : c.val.toNat ≠ 10 := by
    intro h0
    have : c = '\n' := Char.ext (UInt32.toNat_inj.1 h0)
    exact h (this ▸ hc)
  have key : ∀ n, n ≠ 10 → n < 256 → (10 : UInt8) ≠ UInt8.ofNat n := by
    intro n h1 h2 h3
    have := congrArg UInt8.toNat h3
    simp at this
    omega
  unfold String.utf8EncodeChar at hb
  simp only at hb
  split at hb
  · simp only [List.mem_singleton] at hb
    exact key _ (by omega) (by omega) hb
  · split at hb
    · simp only [List.mem_cons, List.not_mem_nil, or_false] at hb
      rcases hb with hb | hb <;> exact key _ (by omega) (by omega) hb
    · split at hb
      · simp only [List.mem_cons, List.not_mem_nil, or_false] at hb
        rcases hb with hb | hb | hb <;> exact key _ (by omega) (by omega) hb
      · simp only [List.mem_cons, List.not_mem_nil, or_false] at hb
        rcases hb with hb | hb | hb | hb <;> exact key _ (by omega) (by omega) hb

theorem trPrefix_eq : utf8Bytes "tr \"".toList = trPrefix := by decide +kernel

/-- A line of text that is an entry, with anything between the value and the end of the line -/
theorem trLine_text (k v e : Str) (hk : '=' ∉ k) :
    trLine (utf8Bytes ("tr \"".toList ++ k ++ "\" = \"".toList ++ v ++ e)) = .ok (some (k, ((v ++ e).take ((v ++ e).length - 2)))) := by
  have hs : "tr \"".toList ++ k ++ "\" = \"".toList ++ v ++ e = ("tr \"".toList ++ k ++ "\" ".toList) ++ '=' :: (" \"".toList ++ v ++ e) := by
    simp
  unfold trLine
  rw [if_pos, utf8_utf8Bytes]
  · simp only
    rw [hs, (split1_eq_some (a := "tr \"".toList ++ k ++ "\" ".toList) (b := " \"".toList ++ v ++ e)).2 ⟨rfl, by simp [hk]⟩]
    simp only [sliceEnds]
    congr 3
    · rw [show ("tr \"".toList ++ k ++ "\" ".toList).length - 2 = ("tr \"".toList ++ k).length by simp]
      rw [List.take_left']
      · rfl
      · rfl
    · rw [List.append_assoc, show " \"".toList = [' ', '"'] from rfl]
      simp only [List.cons_append, List.nil_append, List.length_cons]
      rcases hn : (v ++ e).length with _ | _ | n
      · simp
      · simp
      · rw [show n + 1 + 1 + 1 + 1 - 2 = n + 2 by omega, show n + 1 + 1 - 2 = n by omega]
        simp
  · rw [List.append_assoc, List.append_assoc, List.append_assoc, utf8Bytes_append, trPrefix_eq]
    exact List.isPrefixOf_iff_prefix.2 (List.prefix_append _ _)

theorem trLine_entry (k v : Str) (hk : '=' ∉ k) : trLine (utf8Bytes (Spec.trEntry k v) ++ [10]) = .ok (some (k, v)) := by
  have h := trLine_text k v "\"\n".toList hk
  have e : utf8Bytes (Spec.trEntry k v) ++ [10] = utf8Bytes ("tr \"".toList ++ k ++ "\" = \"".toList ++ v ++ "\"\n".toList) := by
    rw [show ([10] : Bytes) = utf8Bytes ['\n'] by decide +kernel, ← utf8Bytes_append]
    simp [Spec.trEntry]
  rw [e, h]
  congr 3
  rw [show (v ++ "\"\n".toList).length - 2 = v.length by simp]
  exact List.take_left' rfl

theorem trLine_other (l : Bytes) (h1 : (10 : UInt8) ∉ l) (h : ¬ utf8Bytes "tr \"".toList <+: l) : trLine (l ++ [10]) = .ok none := by
  unfold trLine
  rw [if_neg]
  rw [List.isPrefixOf_iff_prefix, ← trPrefix_eq]
  rintro ⟨t, ht⟩
  apply h
  rcases List.eq_nil_or_concat t with rfl | ⟨u, b, rfl⟩
  · rw [List.append_nil] at ht
    have : (10 : UInt8) ∈ utf8Bytes "tr \"".toList := by rw [ht]; simp
    exact absurd this (by decide +kernel)
  · rw [List.concat_eq_append, ← List.append_assoc] at ht
    exact ⟨u, (List.append_inj' ht rfl).1⟩

theorem byteLines_trFile (lines : List Spec.TrText) (rest : Bytes) (h : ∀ l ∈ lines, l.Valid) :
    byteLines (Spec.trFile lines ++ rest) = lines.map (fun l => l.bytes ++ [10]) ++ byteLines rest := by
  induction lines with
  | nil => rfl
  | cons l ls ih =>
    have hl : (10 : UInt8) ∉ l.bytes := by
      have := h l List.mem_cons_self
      cases l with
      | entry k v =>
        apply utf8Bytes_newline
        obtain ⟨_, h2, h3⟩ := this
        simp [Spec.trEntry, h2, h3]
      | other b => exact this.1
    have : Spec.trFile (l :: ls) ++ rest = l.bytes ++ 10 :: (Spec.trFile ls ++ rest) := by simp [Spec.trFile]
    rw [this, byteLines_line _ _ hl, ih fun x hx => h x (List.mem_cons_of_mem _ hx)]
    rfl

/-- The entries, in order -/
def trPairs (lines : List Spec.TrText) : List (Str × Str) := lines.filterMap fun l => match l with
  | .entry k v => some (k, v)
  | .other _ => none

theorem trLines_append (d : Dict Str Str) (lines : List Spec.TrText) (rest : List Bytes) (h : ∀ l ∈ lines, l.Valid) :
    trLines d (lines.map (fun l => l.bytes ++ [10]) ++ rest) = trLines ((trPairs lines).foldl (fun d kv => d.set kv.1 kv.2) d) rest := by
  induction lines generalizing d with
  | nil => rfl
  | cons l ls ih =>
    have ih := fun d => ih d fun x hx => h x (List.mem_cons_of_mem _ hx)
    have hv := h l List.mem_cons_self
    cases l with
    | entry k v =>
      rw [List.map_cons, List.cons_append, trLines, Spec.TrText.bytes, trLine_entry k v hv.1]
      simp only [ih]
      rfl
    | other b =>
      rw [List.map_cons, List.cons_append, trLines, Spec.TrText.bytes, trLine_other b hv.1 hv.2]
      simp only [ih]
      rfl

theorem get?_trPairs (lines : List Spec.TrText) (key : Str) : (Dict.ofList (trPairs lines)).get? key = Spec.trValue lines key := by
  unfold Spec.trValue Dict.ofList
  induction lines using List.reverseRecOn with
  | nil => rfl
  | append_singleton ls l ih =>
    have hp : trPairs (ls ++ [l]) = trPairs ls ++ trPairs [l] := by simp [trPairs]
    rw [hp, List.foldl_append, List.reverse_append]
    simp only [List.reverse_singleton, List.singleton_append, List.findSome?_cons]
    cases l with
    | entry k v =>
      simp only [trPairs, List.filterMap_cons, List.filterMap_nil, List.foldl_cons, List.foldl_nil]
      rw [Dict.get?_set]
      by_cases hk : k = key
      · subst hk; simp
      · rw [if_neg (by simpa [eq_comm] using hk)]
        simp only [hk, if_false]
        exact ih
    | other b =>
      simp only [trPairs, List.filterMap_cons, List.filterMap_nil, List.foldl_nil]
      exact ih

/-! ## Theorems -/

/-- A text file maps each key to the value of its last entry; the first three bytes of the file are not considered. -/
theorem C51_text (env : RstEnv) (gv : Nat) (head : Bytes) (lines : List Spec.TrText) (hh : head.length = 3) (hr : head ≠ "RST".toUTF8.toList)
    (h : ∀ l ∈ lines, l.Valid) :
    ∃ d, loadTranslations env gv (head ++ Spec.trFile lines) = .ok (.text d) ∧ ∀ key, d.get? key = Spec.trValue lines key := by
  refine ⟨Dict.ofList (trPairs lines), ?_, get?_trPairs lines⟩
  have hr' : head ≠ [0x52, 0x53, 0x54] := by
    intro e
    apply hr
    rw [e]
    decide +kernel
  unfold loadTranslations
  rw [List.take_left' hh, if_neg hr', List.drop_left' hh]
  have e := byteLines_trFile lines [] h
  rw [List.append_nil] at e
  rw [e, trLines_append _ _ _ h]
  rfl

/-- The first line of a text file is never an entry of the table. -/
theorem C51_first_line (env : RstEnv) (gv : Nat) (key value : Str) (lines : List Spec.TrText)
    (h : ∀ l ∈ Spec.TrText.entry key value :: lines, l.Valid) :
    ∃ d, loadTranslations env gv (Spec.trFile (.entry key value :: lines)) = .ok (.text d) ∧ ∀ k, d.get? k = Spec.trValue lines k := by
  have hv := h _ List.mem_cons_self
  let first := utf8Bytes ("\"".toList ++ key ++ "\" = \"".toList ++ value ++ "\"".toList)
  have hf : Spec.TrText.Valid (.other first) := by
    constructor
    · apply utf8Bytes_newline
      obtain ⟨_, h2, h3⟩ := hv
      simp [h2, h3]
    · intro hp
      have : first = 34 :: utf8Bytes (key ++ "\" = \"".toList ++ value ++ "\"".toList) := by
        simp only [first, List.append_assoc]
        rw [utf8Bytes_append, show utf8Bytes "\"".toList = [34] by decide +kernel]
        rfl
      rw [this, trPrefix_eq, trPrefix, List.cons_prefix_cons] at hp
      exact absurd hp.1 (by decide)
  have e : Spec.trFile (.entry key value :: lines) = [116, 114, 32] ++ Spec.trFile (.other first :: lines) := by
    have e1 : utf8Bytes (Spec.trEntry key value) = [116, 114, 32] ++ first := by
      rw [show ([116, 114, 32] : Bytes) = utf8Bytes "tr ".toList by decide +kernel, ← utf8Bytes_append]
      simp [Spec.trEntry]
    simp only [Spec.trFile, List.flatMap_cons]
    rw [show (Spec.TrText.entry key value).bytes = utf8Bytes (Spec.trEntry key value) from rfl, e1]
    simp [Spec.TrText.bytes]
  rw [e]
  obtain ⟨d, h1, h2⟩ := C51_text env gv [116, 114, 32] (.other first :: lines) rfl (by decide +kernel) (by
    intro l hl
    rcases List.mem_cons.1 hl with rfl | hl
    · exact hf
    · exact h l (List.mem_cons_of_mem _ hl))
  refine ⟨d, h1, fun k => ?_⟩
  rw [h2]
  unfold Spec.trValue
  rw [List.reverse_cons, List.findSome?_append]
  simp

/-- When the last line has no line break, the last character of its value is lost. -/
theorem C51_no_line_break (env : RstEnv) (gv : Nat) (head : Bytes) (lines : List Spec.TrText) (key value : Str) (c : Char)
    (hh : head.length = 3) (hr : head ≠ "RST".toUTF8.toList) (h : ∀ l ∈ lines, l.Valid) (hk : Spec.TrText.Valid (.entry key (value ++ [c]))) :
    ∃ d, loadTranslations env gv (head ++ Spec.trFile lines ++ utf8Bytes (Spec.trEntry key (value ++ [c]))) = .ok (.text d) ∧
      d.get? key = some value := by
  refine ⟨(Dict.ofList (trPairs lines)).set key value, ?_, by rw [Dict.get?_set]; simp⟩
  have hr' : head ≠ [0x52, 0x53, 0x54] := by
    intro e
    apply hr
    rw [e]
    decide +kernel
  unfold loadTranslations
  rw [List.append_assoc, List.take_left' hh, if_neg hr', List.drop_left' hh, byteLines_trFile lines _ h, trLines_append _ _ _ h, byteLines_last]
  · have e : Spec.trEntry key (value ++ [c]) = "tr \"".toList ++ key ++ "\" = \"".toList ++ value ++ [c, '"'] := by simp [Spec.trEntry]
    rw [trLines, e, trLine_text _ _ _ hk.1]
    simp only [trLines, show (value ++ [c, '"']).length - 2 = value.length by simp, List.take_left]
    rfl
  · apply utf8Bytes_newline
    obtain ⟨_, h2, h3⟩ := hk
    simp [Spec.trEntry, h2, h3]
    simpa [eq_comm] using h3
  · unfold Spec.trEntry
    rw [List.append_assoc, List.append_assoc, List.append_assoc, utf8Bytes_append, trPrefix_eq]
    simp [trPrefix]

/-- With Windows line breaks, values keep their final quote. -/
theorem C51_crlf (env : RstEnv) (gv : Nat) (head : Bytes) (key value : Str)
    (hh : head.length = 3) (hr : head ≠ "RST".toUTF8.toList) (hk : Spec.TrText.Valid (.entry key value)) :
    loadTranslations env gv (head ++ utf8Bytes (Spec.trEntry key value) ++ [13, 10]) = .ok (.text [(key, value ++ ['"'])]) := by
  have hr' : head ≠ [0x52, 0x53, 0x54] := by
    intro e
    apply hr
    rw [e]
    decide +kernel
  unfold loadTranslations
  rw [List.append_assoc, List.take_left' hh, if_neg hr', List.drop_left' hh,
    show utf8Bytes (Spec.trEntry key value) ++ [13, 10] = (utf8Bytes (Spec.trEntry key value) ++ [13]) ++ 10 :: [] by simp,
    byteLines_line]
  · have e : utf8Bytes (Spec.trEntry key value) ++ [13] ++ [10] = utf8Bytes ("tr \"".toList ++ key ++ "\" = \"".toList ++ value ++ "\"\r\n".toList) := by
      rw [List.append_assoc, show ([13] ++ [10] : Bytes) = utf8Bytes ['\r', '\n'] by decide +kernel, ← utf8Bytes_append]
      simp [Spec.trEntry]
    rw [byteLines, trLines, e, trLine_text _ _ _ hk.1]
    simp only [trLines]
    rw [show value ++ "\"\r\n".toList = (value ++ ['"']) ++ ['\r', '\n'] by simp]
    rw [show ((value ++ ['"']) ++ ['\r', '\n']).length - 2 = (value ++ ['"']).length by simp, List.take_left]
    rfl
  · obtain ⟨_, h2, h3⟩ := hk
    rw [List.mem_append, not_or]
    refine ⟨utf8Bytes_newline (by simp [Spec.trEntry, h2, h3]), by decide⟩

/-- An entry without `=` makes loading fail, wherever it is (after the first three bytes). -/
theorem C51_malformed (env : RstEnv) (gv : Nat) (head : Bytes) (lines : List Spec.TrText) (s : Str) (rest : Bytes)
    (hh : head.length = 3) (hr : head ≠ "RST".toUTF8.toList) (h : ∀ l ∈ lines, l.Valid) (h1 : '=' ∉ s) (h2 : '\n' ∉ s) :
    loadTranslations env gv (head ++ Spec.trFile lines ++ utf8Bytes ("tr \"".toList ++ s) ++ 10 :: rest) = .error .value := by
  have hr' : head ≠ [0x52, 0x53, 0x54] := by
    intro e
    apply hr
    rw [e]
    decide +kernel
  unfold loadTranslations
  rw [List.append_assoc, List.append_assoc, List.take_left' hh, if_neg hr', List.drop_left' hh, byteLines_trFile lines _ h, trLines_append _ _ _ h,
    byteLines_line]
  · have : trLine (utf8Bytes ("tr \"".toList ++ s) ++ [10]) = .error .value := by
      unfold trLine
      rw [if_pos, show ([10] : Bytes) = utf8Bytes ['\n'] by decide +kernel, ← utf8Bytes_append, utf8_utf8Bytes]
      · simp only
        rw [split1_eq_none.2]
        simp [h1]
      · rw [utf8Bytes_append, trPrefix_eq, List.append_assoc]
        exact List.isPrefixOf_iff_prefix.2 (List.prefix_append _ _)
    rw [trLines, this]
    rfl
  · exact utf8Bytes_newline (by simp [h2])

/-- Files that begin with `RST` are read as RST files. -/
theorem C51_rst (env : RstEnv) (gv : Nat) (data : Bytes) :
    loadTranslations env gv ("RST".toUTF8.toList ++ data) = ((parseRst env gv).run ("RST".toUTF8.toList ++ data)).map .rst := by
  have e : "RST".toUTF8.toList = [0x52, 0x53, 0x54] := by decide +kernel
  unfold loadTranslations
  rw [e, if_pos (by rfl)]
  cases (parseRst env gv).run ([0x52, 0x53, 0x54] ++ data) <;> rfl

/-! ## A concrete file -/

def exTr : List Spec.TrText := [.other (utf8Bytes "# comment".toList), .entry "a".toList "x=1".toList, .entry "b".toList "é".toList,
  .entry "a".toList "y".toList]

example : ∀ l ∈ exTr, l.Valid := by
  intro l hl
  simp only [exTr, List.mem_cons, List.not_mem_nil, or_false] at hl
  rcases hl with rfl | rfl | rfl | rfl
  · exact ⟨by decide +kernel, by rw [trPrefix_eq]; decide +kernel⟩
  · exact ⟨by decide, by decide, by decide⟩
  · exact ⟨by decide, by decide, by decide⟩
  · exact ⟨by decide, by decide, by decide⟩

example : Spec.trValue exTr "a".toList = some "y".toList ∧ Spec.trValue exTr "b".toList = some "é".toList ∧ Spec.trValue exTr "c".toList = none := by
  decide +kernel

end Cdtb
