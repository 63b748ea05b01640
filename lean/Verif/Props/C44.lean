import Verif.Model.Hashes
import Verif.Lemmas.Hex
import Verif.Lemmas.Str
import Verif.Props.C29
import Verif.Props.C42
import Verif.Props.C43
import Mathlib.Order.Defs.LinearOrder
/-!
# C44  Hash files round-trip through save and load

`HashFile.save` and `HashFile.load` are the methods of `HashFile`; a `HashFile` has the content of the file on disk, the
number of digits of hashes, and the loaded table (a dict, `Dict.WF` says that its keys are distinct, which holds for
all Python dicts).
-/
namespace Cdtb
set_option autoImplicit false
open Py

/-! ## Specification -/

/-- A line of a hash file: the hash on `w` lowercase hexadecimal digits, a space, the path -/
structure Spec.HashRow (w : Nat) (line : Str) (h : Int) (path : Str) : Prop where
  ex : ∃ hex : Str, line = hex ++ ' ' :: path ∧ hex.length = w ∧ (∀ c ∈ hex, c ∈ Spec.hexDigits) ∧ (Spec.hexValue hex : Int) = h

/-- A path that can be in a hash file -/
def Spec.NoLineBreak (s : Str) : Prop := '\n' ∉ s ∧ '\r' ∉ s

/-- The same table -/
def Spec.SameTable (d e : Dict Int Str) : Prop := ∀ h, d.get? h = e.get? h

/-! ## Hexadecimal -/

theorem digitVal_hexDigit : ∀ c ∈ Spec.hexDigits, digitVal 16 c = some (Spec.hexDigits.idxOf c) ∧ c ≠ '_' ∧ isSpace c = false ∧
    c ≠ '-' ∧ c ≠ '+' ∧ c ≠ 'x' ∧ c ≠ 'X' ∧ c ≠ ' ' := by decide +kernel

theorem digitsGo_hexDigits (s : Str) (h : ∀ c ∈ s, c ∈ Spec.hexDigits) (acc : Nat) (prev : Bool) (hp : prev = true ∨ s ≠ []) :
    digitsGo 16 acc prev s = some (s.foldl (fun a c => 16 * a + Spec.hexDigits.idxOf c) acc) := by
  induction s generalizing acc prev with
  | nil => simp_all [digitsGo]
  | cons c s ih =>
    obtain ⟨h1, h2, _⟩ := digitVal_hexDigit c (h c (by simp))
    rw [digitsGo, if_neg h2, h1]
    simp only
    rw [ih (fun x hx => h x (by simp [hx])) _ _ (Or.inl rfl), List.foldl_cons, Nat.mul_comm]

theorem int16_hexDigits (s : Str) (h : ∀ c ∈ s, c ∈ Spec.hexDigits) (hne : s ≠ []) : int16 s = some (Spec.hexValue s : Int) := by
  unfold int16
  rw [strip_eq_self (fun c hc => (digitVal_hexDigit c (h c hc)).2.2.1)]
  cases s with
  | nil => exact absurd rfl hne
  | cons c s =>
    obtain ⟨_, _, _, h3, h4, _⟩ := digitVal_hexDigit c (h c (by simp))
    split
    · simp_all
    · simp_all
    · rw [dropHexPrefix_of_no_x (fun c hc => by
        obtain ⟨_, _, _, _, _, h5, h6, _⟩ := digitVal_hexDigit c (h c hc)
        exact ⟨h5, h6⟩), digitsGo_hexDigits _ h _ _ (Or.inr hne)]
      rfl

theorem hexW_hexDigits {w n : Nat} {c : Char} (hc : c ∈ hexW w n) : c ∈ Spec.hexDigits := by
  obtain ⟨d, hd, rfl⟩ := hexW_mem hc; exact (idxOf_digitChar d hd).2

theorem hexW_ne_nil (w n : Nat) : hexW w n ≠ [] := by rw [zpad_digits]; simp [digitsRev_ne_nil]

theorem fmtHex_mem {w : Nat} {h : Int} {c : Char} (hc : c ∈ fmtHex w h) : c = '-' ∨ c ∈ Spec.hexDigits := by
  unfold fmtHex at hc
  split at hc
  · rcases List.mem_cons.1 hc with h | h
    · exact .inl h
    · exact .inr (hexW_hexDigits h)
  · exact .inr (hexW_hexDigits hc)

theorem fmtHex_plain {w : Nat} {h : Int} : ' ' ∉ fmtHex w h ∧ Spec.NoLineBreak (fmtHex w h) := by
  refine ⟨fun hc => ?_, fun hc => ?_, fun hc => ?_⟩ <;> rcases fmtHex_mem hc with h | h <;> revert h <;> decide

theorem int16_fmtHex (w : Nat) (h : Int) : int16 (fmtHex w h) = some h := by
  unfold fmtHex
  split
  · have hmem : ∀ c ∈ '-' :: hexW (w - 1) h.natAbs, isSpace c = false := by
      intro c hc
      rcases List.mem_cons.1 hc with rfl | hc
      · decide
      · exact (digitVal_hexDigit c (hexW_hexDigits hc)).2.2.1
    unfold int16
    rw [strip_eq_self hmem]
    simp only
    rw [dropHexPrefix_of_no_x (fun c hc => by
        obtain ⟨_, _, _, _, _, h5, h6, _⟩ := digitVal_hexDigit c (hexW_hexDigits hc)
        exact ⟨h5, h6⟩), digitsGo_hexDigits _ (fun c hc => hexW_hexDigits hc) _ _ (Or.inr (hexW_ne_nil _ _))]
    have := hexValue_hexW (w - 1) h.natAbs
    unfold Spec.hexValue at this
    rw [this]
    show some (-(h.natAbs : Int)) = some h
    congr 1; omega
  · rw [int16_hexW]; congr 1; omega

/-! ## Lines -/

theorem rstrip_newline {s : Str} (h : '\n' ∉ s) : rstripChar '\n' (s ++ ['\n']) = s ∧ rstripChar '\n' s = s := by
  have h' : s.reverse.dropWhile (· = '\n') = s.reverse := by
    apply dropWhile_eq_self
    intro x hx
    simp only [decide_eq_false_iff_not]
    rintro rfl
    exact h (by simpa using hx)
  constructor
  · simp [rstripChar, h']
  · simp [rstripChar, h']

theorem parseHashLine_ok {hex s : Str} {h : Int} (h1 : ' ' ∉ hex) (h2 : int16 hex = some h) (hs : '\n' ∉ s) :
    parseHashLine (hex ++ ' ' :: s ++ ['\n']) = .ok (h, s) ∧ parseHashLine (hex ++ ' ' :: s) = .ok (h, s) := by
  constructor
  · unfold parseHashLine
    rw [(split1_eq_some (a := hex) (b := s ++ ['\n'])).2 ⟨by simp, h1⟩]
    simp only [h2, (rstrip_newline hs).1]
  · unfold parseHashLine
    rw [(split1_eq_some (a := hex) (b := s)).2 ⟨by simp, h1⟩]
    simp only [h2, (rstrip_newline hs).2]

theorem hashLines_text (w : Nat) (rows : List (Int × Str)) (h : ∀ kv ∈ rows, Spec.NoLineBreak kv.2) :
    (fileLines (universalNewlines ((rows.map (hashLine w)).flatten))).mapM parseHashLine = .ok rows := by
  have e : (rows.map (hashLine w)).flatten = Spec.textOf (rows.map fun kv => (fmtHex w kv.1 ++ ' ' :: kv.2, false)) := by
    simp only [Spec.textOf, List.map_map]
    congr 1
  rw [e, fileLines_textOf]
  · rw [List.map_map, List.mapM_map]
    have := mapM_ok_of (parseHashLine ∘ ((fun l : Str × Bool => l.1 ++ ['\n']) ∘ fun kv : Int × Str => (fmtHex w kv.1 ++ ' ' :: kv.2, false)))
      id rows (fun kv hkv => (parseHashLine_ok fmtHex_plain.1 (int16_fmtHex w kv.1) (h kv hkv).1).1)
    rw [List.map_id] at this
    exact this
  · intro l hl
    obtain ⟨kv, hkv, rfl⟩ := List.mem_map.1 hl
    have hf := @fmtHex_plain w kv.1
    have hn := h kv hkv
    simp only [Spec.NoLineBreak] at hf hn
    simp [hf.2.1, hf.2.2, hn.1, hn.2]

theorem sortByPath_perm (d : Dict Int Str) : (sortByPath d).Perm d := List.perm_insertionSort _ _

theorem Dict.mem_of_ofList {K V : Type} [DecidableEq K] {l : List (K × V)} {k : K} {v : V} (h : (Dict.ofList l).get? k = some v) :
    (k, v) ∈ l := by
  rw [Dict.get?_ofList] at h
  obtain ⟨x, hx, rfl⟩ := Option.map_eq_some_iff.1 h
  have h1 := List.mem_of_find?_eq_some hx
  have h2 := List.find?_some hx
  have h2' : x.1 = k := of_decide_eq_true h2
  rw [← h2']
  simpa using h1

theorem Dict.get?_perm {K V : Type} [DecidableEq K] {d e : Dict K V} (hd : Dict.WF d) (hp : e.Perm d) (k : K) : e.get? k = d.get? k := by
  have he : Dict.WF e := (hp.map Prod.fst).nodup_iff.2 hd
  apply Option.ext
  intro v
  rw [← Dict.mem_iff_get? hd, ← Dict.mem_iff_get? he, hp.mem_iff]

theorem loadText_saveText (w : Nat) (d : Dict Int Str) (hd : Dict.WF d) (hb : ∀ kv ∈ d, Spec.NoLineBreak kv.2) :
    loadText (saveText w d) = .ok (sortByPath d) := by
  have hp := sortByPath_perm d
  unfold loadText saveText
  rw [hashLines_text w _ (fun kv hkv => hb kv (hp.mem_iff.1 hkv))]
  show Except.ok (Dict.ofList (sortByPath d)) = _
  rw [Dict.ofList_of_nodup ((hp.map Prod.fst).nodup_iff.2 hd)]

/-! ## Theorems -/

instance strTotal : Std.Total fun a b : Int × Str => a.2 ≤ b.2 := ⟨fun a b => List.le_total a.2 b.2⟩
instance strTrans : IsTrans (Int × Str) fun a b => a.2 ≤ b.2 := ⟨fun _ _ _ h1 h2 => List.le_trans h1 h2⟩

/-- The saved file has one line for each entry, sorted by path, with the hash on the chosen number of digits. -/
theorem C44_text (hf : HashFile) (d : Dict Int Str) (hl : hf.hashes = some d) (hw : 0 < hf.size)
    (hr : ∀ kv ∈ d, 0 ≤ kv.1 ∧ kv.1 < 16 ^ hf.size) :
    ∃ (lines : List Str) (rows : List (Int × Str)), hf.save.1.file = some ((lines.map (· ++ ['\n'])).flatten) ∧
      List.Forall₂ (fun l kv => Spec.HashRow hf.size l kv.1 kv.2) lines rows ∧
      rows.Perm d ∧ rows.Pairwise (fun a b => a.2 ≤ b.2) ∧ hf.save.2 = .ok () := by
  refine ⟨(sortByPath d).map fun kv => fmtHex hf.size kv.1 ++ ' ' :: kv.2, sortByPath d, ?_, ?_, sortByPath_perm d,
    List.pairwise_insertionSort _ _, ?_⟩
  · rw [HashFile.save, hl]
    simp only [saveText, List.map_map]
    congr 1
  · rw [List.forall₂_map_left_iff]
    apply List.forall₂_same.2
    intro kv hkv
    obtain ⟨h1, h2⟩ := hr kv ((sortByPath_perm d).mem_iff.1 hkv)
    refine ⟨fmtHex hf.size kv.1, rfl, ?_, ?_, ?_⟩
    · rw [fmtHex, if_neg (by omega)]
      obtain ⟨w, hw'⟩ : ∃ w, hf.size = w + 1 := ⟨hf.size - 1, by omega⟩
      rw [hw'] at h2 ⊢
      apply hexW_length
      have : ((kv.1.natAbs : Nat) : Int) < ((16 ^ (w + 1) : Nat) : Int) := by
        rw [Int.natAbs_of_nonneg h1]; push_cast; exact h2
      exact_mod_cast this
    · intro c hc
      rw [fmtHex, if_neg (by omega)] at hc
      exact hexW_hexDigits hc
    · rw [fmtHex, if_neg (by omega), hexValue_hexW]
      omega
  · rw [HashFile.save, hl]

/-- Saving a table then loading the file gives the same table, if and only if no path has a line break. This holds for
all tables, and hashes of any size and sign. -/
theorem C44_roundtrip (hf : HashFile) (d : Dict Int Str) (hd : Dict.WF d) (hl : hf.hashes = some d) :
    (∃ d', (hf.save.1.load true).2 = .ok d' ∧ Spec.SameTable d' d) ↔ ∀ kv ∈ d, Spec.NoLineBreak kv.2 := by
  have e : (hf.save.1.load true).2 = loadText (saveText hf.size d) := by
    rw [HashFile.save, hl]
    simp only [HashFile.load]
    split <;> simp_all
  rw [e]
  constructor
  · rintro ⟨d', h1, h2⟩ ⟨k, p⟩ hkv
    have hk : d'.get? k = some p := by rw [h2 k]; exact (Dict.mem_iff_get? hd).1 hkv
    have key : ∀ text t, loadText text = .ok t → ∀ k p, t.get? k = some p → Spec.NoLineBreak p := by
      intro text t ht k p hk
      unfold loadText at ht
      rcases hm : (fileLines (universalNewlines text)).mapM parseHashLine with er | l
      · rw [hm] at ht; simp [bind, Except.bind] at ht
      · rw [hm] at ht
        simp only [bind, Except.bind, pure, Except.pure, Except.ok.injEq] at ht
        subst ht
        have hmem := Dict.mem_of_ofList hk
        have huni : ∀ s : Str, '\r' ∉ universalNewlines s := by
          intro s
          fun_induction universalNewlines s with
          | case1 => simp
          | case2 r ih => simp [ih]
          | case3 c r h1 ih =>
            simp only [List.mem_cons, not_or]
            refine ⟨?_, ih⟩
            split
            · decide
            · rename_i h; exact fun h' => h h'.symm
        have hlines : ∀ s : Str, '\r' ∉ s → ∀ x ∈ fileLines s, '\r' ∉ x ∧ ∃ b, '\n' ∉ b ∧ (x = b ∨ x = b ++ ['\n']) := by
          intro s
          fun_induction fileLines s with
          | case1 => simp
          | case2 r ih =>
            intro hs x hx
            simp only [List.mem_cons, not_or] at hs
            rcases List.mem_cons.1 hx with rfl | hx
            · exact ⟨by simp, [], by simp, .inr rfl⟩
            · exact ih hs.2 x hx
          | case3 c r hc hr ih =>
            intro hs x hx
            simp only [List.mem_cons, not_or] at hs
            simp only [List.mem_singleton] at hx
            subst hx
            exact ⟨by simp [hs.1], [c], by simp [Ne.symm hc], .inl rfl⟩
          | case4 c r hc l ls hr ih =>
            intro hs x hx
            simp only [List.mem_cons, not_or] at hs
            rcases List.mem_cons.1 hx with rfl | hx
            · obtain ⟨i1, b, i2, i3⟩ := ih hs.2 l (by rw [hr]; simp)
              refine ⟨by simp [hs.1, i1], c :: b, by simp [i2, Ne.symm hc], ?_⟩
              rcases i3 with rfl | rfl <;> simp
            · exact ih hs.2 x (by rw [hr]; simp [hx])
        have hparse : ∀ (ls : List Str) l, ls.mapM parseHashLine = .ok l → ∀ kv ∈ l, ∃ x ∈ ls, parseHashLine x = .ok kv := by
          intro ls
          induction ls with
          | nil => intro l h; cases h; simp
          | cons x ls ih =>
            intro l h
            rw [List.mapM_cons] at h
            rcases hx : parseHashLine x with er | y
            · rw [hx] at h; simp [bind, Except.bind] at h
            · rcases hm : ls.mapM parseHashLine with er | l'
              · rw [hx, hm] at h; simp [bind, Except.bind] at h
              · rw [hx, hm] at h
                simp only [bind, Except.bind, pure, Except.pure, Except.ok.injEq] at h
                subst h
                intro kv hkv
                rcases List.mem_cons.1 hkv with rfl | hkv
                · exact ⟨x, by simp, hx⟩
                · obtain ⟨z, hz, hz'⟩ := ih l' hm kv hkv
                  exact ⟨z, by simp [hz], hz'⟩
        obtain ⟨x, hx, hpx⟩ := hparse _ _ hm _ hmem
        obtain ⟨h3, b, h4, h5⟩ := hlines _ (huni text) x hx
        unfold parseHashLine at hpx
        split at hpx
        · simp at hpx
        · rename_i a s hs
          obtain ⟨hs1, hs2⟩ := split1_eq_some.1 hs
          split at hpx
          · simp at hpx
          · simp only [Except.ok.injEq, Prod.mk.injEq] at hpx
            obtain ⟨_, rfl⟩ := hpx
            have hsub : ∀ c ∈ rstripChar '\n' s, c ∈ s := by
              intro c hc
              simp only [rstripChar, List.mem_reverse] at hc
              simpa using (List.dropWhile_sublist _).subset hc
            refine ⟨?_, fun hc => h3 (by rw [hs1]; simp [hsub _ hc])⟩
            rcases h5 with h5 | h5
            · intro hc
              apply h4
              rw [← h5, hs1]
              simp [hsub _ hc]
            · -- the line is `b ++ "\n"`, and ends with `s`
              have hs' : s = [] ∨ ∃ s', s = s' ++ ['\n'] ∧ '\n' ∉ s' := by
                rcases List.eq_nil_or_concat s with rfl | ⟨s', c, rfl⟩
                · exact .inl rfl
                · right
                  rw [List.concat_eq_append] at *
                  have e1 : b ++ ['\n'] = (a ++ ' ' :: s') ++ [c] := by rw [← h5, hs1]; simp
                  obtain ⟨e2, e3⟩ := List.append_inj' e1 rfl
                  simp only [List.cons.injEq, and_true] at e3
                  subst e3
                  exact ⟨s', rfl, fun hc => h4 (by rw [e2]; simp [hc])⟩
              rcases hs' with rfl | ⟨s', rfl, hs''⟩
              · simp [rstripChar]
              · rw [(rstrip_newline hs'').1]; exact hs''
    exact key _ _ h1 k p hk
  · intro hb
    exact ⟨_, loadText_saveText hf.size d hd hb, fun h => Dict.get?_perm hd (sortByPath_perm d) h⟩

/-- Saving, loading and saving again gives the same file, byte for byte. -/
theorem C44_stable (hf : HashFile) (d : Dict Int Str) (hd : Dict.WF d) (hl : hf.hashes = some d)
    (hb : ∀ kv ∈ d, Spec.NoLineBreak kv.2) :
    ((hf.save.1.load true).1.save).1.file = hf.save.1.file := by
  have h1 : hf.save.1 = { hf with file := some (saveText hf.size d) } := by rw [HashFile.save, hl]
  have h2 : (hf.save.1.load true).1 = { hf with file := some (saveText hf.size d), hashes := some (sortByPath d) } := by
    rw [h1]
    simp only [HashFile.load, loadText_saveText hf.size d hd hb]
  rw [h2, h1]
  simp only [HashFile.save, saveText]
  have : sortByPath (sortByPath d) = sortByPath d := by
    unfold sortByPath
    exact List.Pairwise.insertionSort_eq (List.pairwise_insertionSort _ _)
  rw [this]

/-- Loading a file: each line gives an entry, whatever the line ends and the number of digits, and the last line of a hash
wins. -/
theorem C44_last_wins (hf : HashFile) (rows : List (Str × Str × Bool))
    (hr : ∀ r ∈ rows, r.1 ≠ [] ∧ (∀ c ∈ r.1, c ∈ Spec.hexDigits) ∧ Spec.NoLineBreak r.2.1)
    (hf1 : hf.file = some (Spec.textOf (rows.map fun r => (r.1 ++ ' ' :: r.2.1, r.2.2)))) :
    ∃ d, (hf.load true).2 = .ok d ∧ ∀ h : Int, d.get? h = (rows.reverse.find? fun r => (Spec.hexValue r.1 : Int) = h).map fun r => r.2.1 := by
  have e : (fileLines (universalNewlines (Spec.textOf (rows.map fun r => (r.1 ++ ' ' :: r.2.1, r.2.2))))).mapM parseHashLine =
      .ok (rows.map fun r => ((Spec.hexValue r.1 : Int), r.2.1)) := by
    have hsp : ∀ r ∈ rows, ' ' ∉ r.1 ∧ Spec.NoLineBreak r.1 := by
      intro r hr'
      obtain ⟨_, h2, _⟩ := hr r hr'
      exact ⟨fun hc => absurd (h2 _ hc) (by decide), fun hc => absurd (h2 _ hc) (by decide), fun hc => absurd (h2 _ hc) (by decide)⟩
    rw [fileLines_textOf]
    · rw [List.map_map, List.mapM_map]
      exact mapM_ok_of _ (fun r : Str × Str × Bool => ((Spec.hexValue r.1 : Int), r.2.1)) rows (fun r hr' =>
        (parseHashLine_ok (hsp r hr').1 (int16_hexDigits r.1 (hr r hr').2.1 (hr r hr').1) (hr r hr').2.2.1).1)
    · intro l hl
      obtain ⟨r, hr', rfl⟩ := List.mem_map.1 hl
      have h1 := (hsp r hr').2
      have h2 := (hr r hr').2.2
      simp only [Spec.NoLineBreak] at h1 h2
      simp [h1.1, h1.2, h2.1, h2.2]
  refine ⟨Dict.ofList (rows.map fun r => ((Spec.hexValue r.1 : Int), r.2.1)), ?_, ?_⟩
  · simp only [HashFile.load, hf1, loadText, e]
    rfl
  · intro h
    rw [Dict.get?_ofList, ← List.map_reverse, find?_map_key]

/-- The table is read once: later loads give the same table even if the file changes, unless forced. A missing file is an
error, and a file with a line that has no space or no valid hash too: then the loaded table does not change. -/
theorem C44_load (hf : HashFile) :
    (∀ d, hf.hashes = some d → hf.load false = (hf, .ok d)) ∧
    (hf.file = none → (hf.load true = (hf, .error .fileNotFound)) ∧ (hf.hashes = none → hf.load false = (hf, .error .fileNotFound))) ∧
    (∀ before l after, hf.file = some (before ++ l ++ '\n' :: after) → (before = [] ∨ ∃ b, before = b ++ ['\n']) → Spec.NoLineBreak l →
      ' ' ∉ l → (∃ e, hf.load true = (hf, .error e))) := by
  refine ⟨fun d h => by simp [HashFile.load, h], fun h => ⟨by simp [HashFile.load, h], fun h' => by simp [HashFile.load, h, h']⟩, ?_⟩
  intro before l after h hb hl hsp
  have hbad : parseHashLine (l ++ ['\n']) = .error .value := by
    unfold parseHashLine
    rw [split1_eq_none.2 (by simp [hsp])]
  have hmem : (l ++ ['\n']) ∈ fileLines (universalNewlines (before ++ l ++ '\n' :: after)) := by
    have hu : ∀ b : Str, ∀ r : Str, ∃ b', universalNewlines (b ++ '\n' :: r) = b' ++ '\n' :: universalNewlines r := by
      intro b r
      fun_induction universalNewlines b with
      | case1 => exact ⟨[], by simp [universalNewlines]⟩
      | case2 b ih =>
        obtain ⟨b', hb'⟩ := ih
        exact ⟨'\n' :: b', by simp [universalNewlines, hb']⟩
      | case3 c b hnc ih =>
        obtain ⟨b', hb'⟩ := ih
        by_cases hc : c = '\r'
        · subst hc
          cases b with
          | nil => exact ⟨[], by simp [universalNewlines]⟩
          | cons d b =>
            have hd : d ≠ '\n' := fun he => hnc b rfl (by rw [he])
            refine ⟨'\n' :: b', ?_⟩
            rw [List.cons_append, universalNewlines.eq_def]
            split
            · simp at *
            · rename_i h'
              simp only [List.cons_append, List.cons.injEq] at h'
              exact absurd h'.2.1 hd
            · rename_i h'
              obtain ⟨rfl, rfl⟩ := List.cons.inj h'
              rw [hb']; rfl
        · refine ⟨c :: b', ?_⟩
          rw [List.cons_append, universalNewlines.eq_def]
          split
          · simp at *
          · rename_i h'; exact absurd (List.cons.inj h').1 hc
          · rename_i h'
            obtain ⟨rfl, rfl⟩ := List.cons.inj h'
            rw [if_neg hc, hb']; rfl
    have hlast : universalNewlines (l ++ '\n' :: after) = l ++ '\n' :: universalNewlines after := by
      have := universal_append_line hl.2 false after
      simp only [Bool.false_eq_true, if_false] at this
      rw [← this]; simp
    have hfl : ∀ (b : Str) r, ∀ x ∈ fileLines r, x ∈ fileLines (b ++ '\n' :: r) := by
      intro b r x hx
      induction b with
      | nil => simp [fileLines, hx]
      | cons c b ih =>
        rw [List.cons_append, fileLines]
        split
        · simp [ih]
        · have hne : ∀ b : Str, ∃ y ys, fileLines (b ++ '\n' :: r) = y :: ys ∧ x ∈ ys := by
            intro b
            induction b with
            | nil => exact ⟨['\n'], fileLines r, by simp [fileLines], hx⟩
            | cons c b ih =>
              obtain ⟨y, ys, h1, h2⟩ := ih
              rw [List.cons_append, fileLines, h1]
              split
              · exact ⟨_, _, rfl, by simp [h2]⟩
              · exact ⟨_, _, rfl, h2⟩
          obtain ⟨y, ys, h1, h2⟩ := hne b
          rw [h1]
          simp [h2]
    have hself : (l ++ ['\n']) ∈ fileLines (l ++ '\n' :: universalNewlines after) := by
      rw [fileLines_append_line hl.1]; simp
    rcases hb with rfl | ⟨b, rfl⟩
    · rw [List.nil_append, hlast]; exact hself
    · obtain ⟨b', hb'⟩ := hu b (l ++ '\n' :: after)
      rw [show b ++ ['\n'] ++ l ++ '\n' :: after = b ++ '\n' :: (l ++ '\n' :: after) by simp, hb', hlast]
      exact hfl _ _ _ hself
  have herr : ∀ ls : List Str, (l ++ ['\n']) ∈ ls → ∃ e, ls.mapM parseHashLine = .error e := by
    intro ls
    induction ls with
    | nil => simp
    | cons x ls ih =>
      intro hx
      rw [List.mapM_cons]
      rcases hp : parseHashLine x with e | y
      · exact ⟨e, rfl⟩
      · rcases List.mem_cons.1 hx with he | hx
        · rw [he, hp] at hbad; simp at hbad
        · obtain ⟨e, he⟩ := ih hx
          rw [he]
          exact ⟨e, rfl⟩
  obtain ⟨e, he⟩ := herr _ hmem
  exact ⟨e, by simp only [HashFile.load, h, loadText, he]; rfl⟩

/-! ## Interrupted saves -/

theorem universal_id {s : Str} (h : '\r' ∉ s) : universalNewlines s = s := by
  induction s with
  | nil => rfl
  | cons c s ih =>
    simp only [List.mem_cons, not_or] at h
    rw [universalNewlines.eq_def]
    split
    · simp at *
    · rename_i h'; exact absurd (List.cons.inj h').1 (Ne.symm h.1)
    · rename_i h'
      obtain ⟨rfl, rfl⟩ := List.cons.inj h'
      rw [if_neg (Ne.symm h.1), ih h.2]

theorem fileLines_single {s : Str} (h : '\n' ∉ s) (hne : s ≠ []) : fileLines s = [s] := by
  induction s with
  | nil => exact absurd rfl hne
  | cons c s ih =>
    simp only [List.mem_cons, not_or] at h
    rw [fileLines, if_neg (Ne.symm h.1)]
    cases s with
    | nil => rfl
    | cons d s => rw [ih h.2 (by simp)]

theorem take_hashLines (w : Nat) (rows : List (Int × Str)) (h : ∀ kv ∈ rows, Spec.NoLineBreak kv.2) (k : Nat) (l : List (Int × Str))
    (hl : (fileLines ((rows.map (hashLine w)).flatten.take k)).mapM parseHashLine = .ok l) :
    ∀ kv ∈ l, ∃ kv' ∈ rows, kv.1 = kv'.1 ∧ kv.2 <+: kv'.2 := by
  induction rows generalizing k l with
  | nil =>
    simp [fileLines] at hl
    cases hl; simp
  | cons r rows ih =>
    have hr := h r (by simp)
    have hp := @fmtHex_plain w r.1
    have hnb : '\n' ∉ fmtHex w r.1 ++ ' ' :: r.2 := by
      simp only [List.mem_append, List.mem_cons, not_or]
      exact ⟨hp.2.1, by decide, hr.1⟩
    have e : hashLine w r = (fmtHex w r.1 ++ ' ' :: r.2) ++ ['\n'] := by simp [hashLine]
    rw [List.map_cons, List.flatten_cons, List.take_append] at hl
    by_cases hk : (hashLine w r).length ≤ k
    · rw [List.take_of_length_le hk, e, List.append_assoc, List.singleton_append, fileLines_append_line hnb, ← e, List.mapM_cons] at hl
      have hpl : parseHashLine (hashLine w r) = .ok r := (parseHashLine_ok hp.1 (int16_fmtHex w r.1) hr.1).1
      rw [hpl] at hl
      rcases hm : (fileLines ((rows.map (hashLine w)).flatten.take (k - (hashLine w r).length))).mapM parseHashLine with er | l'
      · rw [e] at hm hl
        rw [hm] at hl
        simp [bind, Except.bind] at hl
      · have hm' := hm
        rw [e] at hm' hl
        rw [hm'] at hl
        simp only [bind, Except.bind, pure, Except.pure, Except.ok.injEq] at hl
        subst hl
        intro kv hkv
        rcases List.mem_cons.1 hkv with rfl | hkv
        · exact ⟨kv, by simp, rfl, List.prefix_rfl⟩
        · obtain ⟨kv', h1, h2⟩ := ih (fun x hx => h x (by simp [hx])) _ _ hm kv hkv
          exact ⟨kv', by simp [h1], h2⟩
    · have hk' : k < (hashLine w r).length := by omega
      rw [show k - (hashLine w r).length = 0 by omega, List.take_zero, List.append_nil] at hl
      have hlen : k ≤ (fmtHex w r.1 ++ ' ' :: r.2).length := by
        rw [e] at hk'; simp at hk' ⊢; omega
      rw [e, List.take_append_of_le_length hlen, List.take_append] at hl
      by_cases hk2 : k ≤ (fmtHex w r.1).length
      · rw [show k - (fmtHex w r.1).length = 0 by omega, List.take_zero, List.append_nil] at hl
        by_cases hnil : (fmtHex w r.1).take k = []
        · rw [hnil] at hl
          simp [fileLines] at hl
          cases hl; simp
        · rw [fileLines_single (fun hc => hp.2.1 (List.mem_of_mem_take hc)) hnil, List.mapM_cons] at hl
          have : parseHashLine ((fmtHex w r.1).take k) = .error .value := by
            unfold parseHashLine
            rw [split1_eq_none.2 (fun hc => hp.1 (List.mem_of_mem_take hc))]
          rw [this] at hl
          simp [bind, Except.bind] at hl
      · obtain ⟨j, hj⟩ : ∃ j, k - (fmtHex w r.1).length = j + 1 := ⟨k - (fmtHex w r.1).length - 1, by omega⟩
        rw [hj, List.take_of_length_le (by omega), List.take_succ_cons] at hl
        have hn2 : '\n' ∉ r.2.take j := fun hc => hr.1 (List.mem_of_mem_take hc)
        rw [fileLines_single _ (by simp)] at hl
        · rw [List.mapM_cons, (parseHashLine_ok hp.1 (int16_fmtHex w r.1) hn2).2] at hl
          simp [bind, Except.bind, pure, Except.pure] at hl
          subst hl
          intro kv hkv
          simp only [List.mem_singleton] at hkv
          subst hkv
          exact ⟨r, by simp, rfl, List.take_prefix _ _⟩
        · simp only [List.mem_append, List.mem_cons, not_or]
          exact ⟨hp.2.1, by decide, hn2⟩

/-- If saving is interrupted at any point, what can be loaded never has a wrong hash, but a path may be cut. -/
theorem C44_interrupted (hf : HashFile) (d : Dict Int Str) (hd : Dict.WF d) (hl : hf.hashes = some d) (hb : ∀ kv ∈ d, Spec.NoLineBreak kv.2)
    (k : Nat) (text : Str) (ht : hf.save.1.file = some text) (hf' : HashFile) (hf1 : hf'.file = some (text.take k)) (d' : Dict Int Str)
    (h : (hf'.load true).2 = .ok d') :
    ∀ n p, d'.get? n = some p → ∃ s, d.get? n = some s ∧ p <+: s := by
  have e : text = saveText hf.size d := by
    rw [HashFile.save, hl] at ht
    simpa using ht.symm
  subst e
  have hp := sortByPath_perm d
  have hnr : '\r' ∉ (saveText hf.size d).take k := by
    intro hc
    have := List.mem_of_mem_take hc
    simp only [saveText, List.mem_flatten, List.mem_map] at this
    obtain ⟨l, ⟨kv, hkv, rfl⟩, hc⟩ := this
    have := (hb kv (hp.mem_iff.1 hkv)).2
    have h2 := (@fmtHex_plain hf.size kv.1).2.2
    simp [hashLine, this, h2] at hc
  simp only [HashFile.load, hf1, loadText, universal_id hnr] at h
  rcases hm : (fileLines ((saveText hf.size d).take k)).mapM parseHashLine with er | l
  · rw [hm] at h; simp [bind, Except.bind] at h
  · rw [hm] at h
    simp only [bind, Except.bind, pure, Except.pure, Except.ok.injEq] at h
    subst h
    intro n p hn
    obtain ⟨kv', h1, h2, h3⟩ := take_hashLines hf.size (sortByPath d) (fun kv hkv => hb kv (hp.mem_iff.1 hkv)) k l hm _ (Dict.mem_of_ofList hn)
    simp only at h2 h3
    exact ⟨kv'.2, by rw [h2]; exact (Dict.mem_iff_get? hd).1 (hp.mem_iff.1 h1), h3⟩

/-- Finding: it does happen. For any table with a non-empty path, there is a point where an interruption leaves a file that
loads without error, and gives a cut path for a known hash. -/
theorem C44_interrupted_cut (hf : HashFile) (d : Dict Int Str) (hd : Dict.WF d) (hl : hf.hashes = some d) (hb : ∀ kv ∈ d, Spec.NoLineBreak kv.2)
    (n : Int) (s : Str) (hn : d.get? n = some s) (p : Str) (hps : p <+: s) :
    ∃ text k d', hf.save.1.file = some text ∧ (HashFile.load ⟨some (text.take k), hf.size, none⟩ true).2 = .ok d' ∧ d'.get? n = some p := by
  have hp := sortByPath_perm d
  have hmem : (n, s) ∈ sortByPath d := hp.mem_iff.2 ((Dict.mem_iff_get? hd).2 hn)
  obtain ⟨a, b, hab⟩ := List.append_of_mem hmem
  obtain ⟨q, rfl⟩ := hps
  have hbr : ∀ kv ∈ a, Spec.NoLineBreak kv.2 := fun kv hkv => hb kv (hp.mem_iff.1 (by rw [hab]; simp [hkv]))
  have hs : Spec.NoLineBreak (p ++ q) := hb (n, p ++ q) (hp.mem_iff.1 hmem)
  have hpn : Spec.NoLineBreak p := ⟨fun h => hs.1 (by simp [h]), fun h => hs.2 (by simp [h])⟩
  let pre := (a.map (hashLine hf.size)).flatten
  let cut := pre ++ (fmtHex hf.size n ++ ' ' :: p)
  have hpl := @fmtHex_plain hf.size n
  have htake : ∃ rest, saveText hf.size d = cut ++ rest := by
    refine ⟨q ++ '\n' :: (b.map (hashLine hf.size)).flatten, ?_⟩
    simp [saveText, hab, hashLine, cut, pre]
  obtain ⟨rest, hrest⟩ := htake
  refine ⟨saveText hf.size d, cut.length, Dict.ofList (a ++ [(n, p)]), by rw [HashFile.save, hl], ?_, ?_⟩
  · have htk : (saveText hf.size d).take cut.length = cut := by rw [hrest]; simp
    simp only [HashFile.load, htk, loadText]
    have hparse : (fileLines (universalNewlines cut)).mapM parseHashLine = .ok (a ++ [(n, p)]) := by
      have hgen : ∀ a : List (Int × Str), (∀ kv ∈ a, Spec.NoLineBreak kv.2) →
          (fileLines (universalNewlines ((a.map (hashLine hf.size)).flatten ++ (fmtHex hf.size n ++ ' ' :: p)))).mapM parseHashLine = .ok (a ++ [(n, p)]) := by
        intro a
        induction a with
        | nil =>
          intro _
          have h1 : '\r' ∉ fmtHex hf.size n ++ ' ' :: p := by
            simp only [List.mem_append, List.mem_cons, not_or]
            exact ⟨hpl.2.2, by decide, hpn.2⟩
          have h2 : '\n' ∉ fmtHex hf.size n ++ ' ' :: p := by
            simp only [List.mem_append, List.mem_cons, not_or]
            exact ⟨hpl.2.1, by decide, hpn.1⟩
          rw [List.map_nil, List.flatten_nil, List.nil_append, universal_id h1, fileLines_single h2 (by simp), List.mapM_cons,
            (parseHashLine_ok hpl.1 (int16_fmtHex hf.size n) hpn.1).2]
          rfl
        | cons r a ih =>
          intro ha
          have hr := ha r (by simp)
          have hp := @fmtHex_plain hf.size r.1
          have h1 : '\r' ∉ fmtHex hf.size r.1 ++ ' ' :: r.2 := by
            simp only [List.mem_append, List.mem_cons, not_or]
            exact ⟨hp.2.2, by decide, hr.2⟩
          have h2 : '\n' ∉ fmtHex hf.size r.1 ++ ' ' :: r.2 := by
            simp only [List.mem_append, List.mem_cons, not_or]
            exact ⟨hp.2.1, by decide, hr.1⟩
          have e : ((r :: a).map (hashLine hf.size)).flatten ++ (fmtHex hf.size n ++ ' ' :: p) =
              (fmtHex hf.size r.1 ++ ' ' :: r.2) ++ ['\n'] ++ ((a.map (hashLine hf.size)).flatten ++ (fmtHex hf.size n ++ ' ' :: p)) := by
            simp [hashLine]
          have hu := universal_append_line h1 false ((a.map (hashLine hf.size)).flatten ++ (fmtHex hf.size n ++ ' ' :: p))
          simp only [Bool.false_eq_true, if_false] at hu
          rw [e, hu, fileLines_append_line h2, List.mapM_cons, (parseHashLine_ok hp.1 (int16_fmtHex hf.size r.1) hr.1).1,
            ih (fun x hx => ha x (by simp [hx]))]
          rfl
      exact hgen a hbr
    rw [hparse]
    rfl
  · rw [Dict.get?_ofList]
    simp

/-! ## A concrete case -/

def exHashes : Dict Int Str := [(0xff, "b c".toList), (0x123456789abcdef0, "a".toList), (-5, "b c".toList)]

example : Dict.WF exHashes ∧ ∀ kv ∈ exHashes, Spec.NoLineBreak kv.2 := by
  refine ⟨by unfold Dict.WF; decide +kernel, ?_⟩
  unfold Spec.NoLineBreak
  decide +kernel

example : saveText 16 exHashes = "123456789abcdef0 a\n00000000000000ff b c\n-000000000000005 b c\n".toList := by decide +kernel

example : loadText "ff x\r\n0FF y z\nff00 \n".toList = .ok [(0xff, "y z".toList), (0xff00, [])] := by decide +kernel

/-! ## Cases that meet the hypotheses -/

/-- `C44_text`: all the hashes fit in the width -/
example : ∀ kv ∈ ([(0xff, "b c".toList), (0x12, "a".toList)] : Dict Int Str), 0 ≤ kv.1 ∧ kv.1 < 16 ^ 8 := by decide +kernel

/-- `C44_load`: a line without space; nothing is loaded -/
example : (HashFile.load ⟨some "ff x\nbad\n12 y\n".toList, 16, none⟩ true).2 = .error .value := by decide +kernel

/-- `C44_interrupted`: the last line is cut, the loaded path is the start of the saved one -/
example : (HashFile.load ⟨some ((saveText 8 [(0xff, "b c".toList), (0x12, "a".toList)]).take 21), 8, none⟩ true).2 =
    .ok [(0x12, "a".toList), (0xff, "b".toList)] := by decide +kernel

end Cdtb
