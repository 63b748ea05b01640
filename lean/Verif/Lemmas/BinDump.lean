import Verif.Spec.BinDump
import Verif.Lemmas.Num
import Verif.Props.C43
/-!
# Lemmas on the text of BIN files: layout
-/
namespace Cdtb
set_option autoImplicit false
open Py Spec

/-- Known names of a library -/
def DumpLib.known (lib : DumpLib) (k : BinHashKind) (h : Nat) : Option Str := (lib.env.known k).get? h

/-! ## Characters -/

theorem hexW_char {w n : Nat} {c : Char} (h : c ∈ hexW w n) : c ∈ "0123456789abcdef".toList := by
  obtain ⟨d, hd, rfl⟩ := hexW_mem h
  clear h
  revert d
  decide +kernel

theorem hexW_not {w n : Nat} {c : Char} (hc : c ∉ "0123456789abcdef".toList) : c ∉ hexW w n := fun h => hc (hexW_char h)

theorem pyQuote_cases (s : Str) : pyQuote s = '\'' ∨ pyQuote s = '"' := by
  unfold pyQuote; split <;> simp

theorem pyEscape_nonl (p : Char → Bool) (q c : Char) (hq : q = '\'' ∨ q = '"') : '\n' ∉ pyEscape p q c := by
  have hx : ∀ w n, '\n' ∉ hexW w n := fun w n => hexW_not (by decide)
  unfold pyEscape
  split_ifs with h1 h2 h3 h4 h5 h6 h7 h8
  · rcases h1 with rfl | rfl
    · rcases hq with rfl | rfl <;> decide
    · decide
  · decide
  · decide
  · decide
  · simp [hx]
  · simp only [List.mem_singleton]; exact fun h => h3 h.symm
  · simp [hx]
  · simp [hx]
  · simp [hx]

theorem pyRepr_nonl (p : Char → Bool) (s : Str) : '\n' ∉ pyRepr p s := by
  have hq := pyQuote_cases s
  unfold pyRepr
  simp only [List.cons_append, List.mem_cons, List.mem_append, List.mem_flatMap, List.not_mem_nil, or_false, not_or, not_exists, not_and]
  refine ⟨?_, fun c _ => pyEscape_nonl p _ c hq, ?_⟩ <;> rcases hq with h | h <;> rw [h] <;> decide

theorem showInt_not {n : Int} {c : Char} (hc : c ≠ '-' ∧ c ∉ "0123456789".toList) : c ∉ showInt n := by
  intro h
  rcases showInt_char h with h | h
  · exact hc.1 h
  · exact hc.2 h

theorem join_not {c : Char} {sep : Str} (hs : c ∉ sep) {l : List Str} (h : ∀ s ∈ l, c ∉ s) : c ∉ join sep l := by
  induction l with
  | nil => simp [join]
  | cons a l ih =>
    cases l with
    | nil => simpa [join] using h a (by simp)
    | cons b l =>
      simp only [join, List.mem_append, not_or]
      exact ⟨⟨h a (by simp), hs⟩, ih (fun s hs => h s (by simp [hs]))⟩

theorem tupleText_not {c : Char} (hc : c ∉ "(, )".toList) {l : List Str} (h : ∀ s ∈ l, c ∉ s) : c ∉ tupleText l := by
  have h1 : c ∉ ", ".toList := by simp at hc ⊢; tauto
  have h2 := join_not h1 h
  simp at hc
  simp only [tupleText, List.cons_append, List.mem_cons, List.mem_append, List.not_mem_nil, or_false, not_or]
  exact ⟨hc.1, h2, by tauto⟩

theorem typeName_nonl (t : BinType) : '\n' ∉ t.name := by cases t <;> decide

section
variable {lib : DumpLib}

theorem hashStr_nonl {k : BinHashKind} {h : Nat} (hk : ∀ s, lib.known k h = some s → '\n' ∉ s) : '\n' ∉ (lib.env.mk' k h).str := by
  unfold BinHash.str BinEnv.mk'
  cases hs : (lib.env.known k).get? h with
  | some s => exact hk s hs
  | none =>
    simp only [BinHash.hex, List.cons_append, List.mem_cons, List.mem_append, List.not_mem_nil, or_false, not_or]
    refine ⟨by decide, ?_, by decide⟩
    split <;> exact hexW_not (by decide)

theorem hashRepr_nonl (k : BinHashKind) (h : Nat) : '\n' ∉ lib.hashRepr (lib.env.mk' k h) := by
  unfold DumpLib.hashRepr BinEnv.mk'
  cases hs : (lib.env.known k).get? h with
  | some s => exact pyRepr_nonl _ _
  | none =>
    simp only [BinHash.hex, List.cons_append, List.mem_cons, List.mem_append, List.not_mem_nil, or_false, not_or]
    refine ⟨by decide, ?_, by decide⟩
    split <;> exact hexW_not (by decide)

theorem float_not (hf : FloatTexts lib.floatRepr) {c : Char} (hc : c ∈ [' ', '\n', '>', ',', '(', ')', 'N']) (b : Nat) : c ∉ lib.floatRepr b :=
  fun h => hf.chars b c h hc

/-! ## Indentation -/

theorem reprIndent_append (a b : Str) : reprIndent (a ++ b) = reprIndent a ++ reprIndent b := by simp [reprIndent]

theorem reprIndent_id {s : Str} (h : '\n' ∉ s) : reprIndent s = s := by
  induction s with
  | nil => rfl
  | cons c s ih =>
    simp only [List.mem_cons, not_or] at h
    have := ih h.2
    unfold reprIndent at this ⊢
    rw [List.flatMap_cons, if_neg (fun hc => h.1 hc.symm), this]
    rfl

theorem reprIndent_newline (d : Nat) : reprIndent (newline d) = newline (d + 1) := by
  have h : '\n' ∉ List.replicate (2 * d) ' ' := by
    intro h; have := List.eq_of_mem_replicate h; revert this; decide
  have := reprIndent_id h
  unfold newline
  rw [show '\n' :: List.replicate (2 * d) ' ' = ['\n'] ++ List.replicate (2 * d) ' ' from rfl, reprIndent_append, this]
  rw [show 2 * (d + 1) = 2 * d + 1 + 1 from by omega]
  rfl

theorem reprIndent_flatMap {α : Type} (l : List α) (f : α → Str) : reprIndent (l.flatMap f) = l.flatMap (fun a => reprIndent (f a)) := by
  induction l with
  | nil => rfl
  | cons a l ih => rw [List.flatMap_cons, reprIndent_append, ih, List.flatMap_cons]

theorem reprIndent_listAt (d : Nat) (l : List Str) : reprIndent (listAt d l) = listAt (d + 1) (l.map reprIndent) := by
  unfold listAt
  cases l with
  | nil => rfl
  | cons a l =>
    simp only [List.isEmpty_cons, Bool.false_eq_true, if_false, List.map_cons, reprIndent_append, reprIndent_newline, reprIndent_flatMap]
    rw [← List.map_cons, List.flatMap_map, show reprIndent "[".toList = "[".toList from rfl, show reprIndent "]".toList = "]".toList from rfl]

theorem shift_newlines (l : List Str) : '\n' :: l.flatMap (fun s => "  ".toList ++ s ++ "\n".toList) = l.flatMap (fun s => newline 1 ++ s) ++ ['\n'] := by
  induction l with
  | nil => rfl
  | cons a l ih =>
    rw [List.flatMap_cons, List.flatMap_cons]
    have e : newline 1 = '\n' :: "  ".toList := rfl
    rw [e]
    have : "\n".toList ++ l.flatMap (fun s => "  ".toList ++ s ++ "\n".toList) = l.flatMap (fun s => newline 1 ++ s) ++ ['\n'] := ih
    simp only [List.append_assoc, List.cons_append] at this ⊢
    rw [this]
    rfl

theorem reprIndentList_eq (l : List Str) : reprIndentList l = listAt 0 (l.map reprIndent) := by
  unfold reprIndentList listAt
  cases l with
  | nil => rfl
  | cons a l =>
    simp only [List.isEmpty_cons, Bool.false_eq_true, if_false, List.map_cons]
    rw [← List.map_cons]
    generalize hl : a :: l = l'
    have := shift_newlines (l'.map reprIndent)
    rw [List.flatMap_map] at this
    have e : "[\n".toList = '[' :: ['\n'] := rfl
    rw [e]
    have e2 : newline 0 = ['\n'] := rfl
    rw [e2]
    simp only [List.cons_append, List.nil_append] at this ⊢
    rw [show "[".toList = ['['] from rfl]
    simp only [List.cons_append, List.nil_append]
    rw [← List.cons_append, this]

theorem reprIndent_wrap (v : BinValue) (s : Str) : reprIndent (wrapRepr v s) = wrapRepr v (reprIndent s) := by
  have key : ∀ a b : Str, '\n' ∉ a → '\n' ∉ b → reprIndent (a ++ s ++ b) = a ++ reprIndent s ++ b := by
    intro a b ha hb
    rw [reprIndent_append, reprIndent_append, reprIndent_id ha, reprIndent_id hb]
  unfold wrapRepr
  split
  · exact key _ _ (by decide +kernel) (by decide +kernel)
  · exact key _ _ (by decide +kernel) (by decide +kernel)
  · exact key _ _ (by decide +kernel) (by decide +kernel)
  · exact key _ _ (by decide +kernel) (by decide +kernel)
  · exact key _ _ (by decide +kernel) (by decide +kernel)
  · rfl

theorem reprIndent_typed (t : BinType) (v : BinValue) (s : Str) : reprIndent (typedText t v s) = typedText t v (reprIndent s) := by
  have key : ∀ a : Str, '\n' ∉ a → reprIndent (a ++ s) = a ++ reprIndent s := by
    intro a ha
    rw [reprIndent_append, reprIndent_id ha]
  unfold typedText
  split
  · exact key _ (typeName_nonl t)
  · exact key _ (by decide +kernel)
  · exact key _ (by decide +kernel)
  · exact key _ (by decide +kernel)
  · exact key _ (by decide +kernel)
  · refine key _ ?_
    rw [List.mem_append, not_or]
    exact ⟨typeName_nonl t, by decide +kernel⟩

theorem atom_nonl (hf : FloatTexts lib.floatRepr) :
    (∀ l, '\n' ∉ lib.text (.tuple l)) ∧ (∀ b, '\n' ∉ lib.text (.bool b)) ∧ (∀ n, '\n' ∉ lib.text (.int n)) ∧ (∀ b, '\n' ∉ lib.text (.float b)) ∧
    (∀ l, '\n' ∉ lib.text (.floats l)) ∧ (∀ l, '\n' ∉ lib.text (.matrix l)) ∧ (∀ s, '\n' ∉ lib.text (.str s)) ∧ ∀ k h, '\n' ∉ lib.text (.hashed k h) := by
  have hfl : ∀ b, '\n' ∉ lib.floatRepr b := float_not hf (by decide)
  have hint : ∀ n, '\n' ∉ showInt n := fun n => showInt_not (by decide)
  refine ⟨?_, ?_, ?_, ?_, ?_, ?_, ?_, ?_⟩
  · intro l; simp only [DumpLib.text]; exact tupleText_not (by decide) (by simp [hint])
  · intro b; cases b <;> simp only [DumpLib.text] <;> decide
  · intro n; simp only [DumpLib.text]; exact hint n
  · intro b; simp only [DumpLib.text]; exact hfl b
  · intro l; simp only [DumpLib.text]; exact tupleText_not (by decide) (by simp [hfl])
  · intro l; simp only [DumpLib.text]
    refine tupleText_not (by decide) ?_
    intro s hs
    obtain ⟨r, -, rfl⟩ := List.mem_map.1 hs
    exact tupleText_not (by decide) (by simp [hfl])
  · intro s; simp only [DumpLib.text]; exact pyRepr_nonl _ _
  · intro k h; simp only [DumpLib.text]; exact hashRepr_nonl k h

theorem keyStr_nonl (hf : FloatTexts lib.floatRepr) {k : BinValue} (h : ClearKey lib.known k) : '\n' ∉ keyStr lib k (lib.text k) := by
  obtain ⟨a1, a2, a3, a4, a5, a6, a7, a8⟩ := atom_nonl hf
  cases h with
  | tuple => exact a1 _
  | bool => exact a2 _
  | int => exact a3 _
  | float h => exact a4 _
  | floats h => exact a5 _
  | matrix h => exact a6 _
  | str h1 h2 => exact h1
  | hashed h => exact hashStr_nonl (fun s hs => (h s hs).1)

mutual
theorem indent_textAt (hf : FloatTexts lib.floatRepr) (hn : ClearNames lib.known) (d : Nat) :
    ∀ v, ClearValue lib.known v → reprIndent (textAt lib d v) = textAt lib (d + 1) v
  | .tuple l, _ => by simp only [textAt]; exact reprIndent_id ((atom_nonl hf).1 _)
  | .bool b, _ => by simp only [textAt]; exact reprIndent_id ((atom_nonl hf).2.1 _)
  | .int n, _ => by simp only [textAt]; exact reprIndent_id ((atom_nonl hf).2.2.1 _)
  | .float b, _ => by simp only [textAt]; exact reprIndent_id ((atom_nonl hf).2.2.2.1 _)
  | .floats l, _ => by simp only [textAt]; exact reprIndent_id ((atom_nonl hf).2.2.2.2.1 _)
  | .matrix l, _ => by simp only [textAt]; exact reprIndent_id ((atom_nonl hf).2.2.2.2.2.1 _)
  | .str s, _ => by simp only [textAt]; exact reprIndent_id ((atom_nonl hf).2.2.2.2.2.2.1 _)
  | .hashed k h, _ => by simp only [textAt]; exact reprIndent_id ((atom_nonl hf).2.2.2.2.2.2.2 _ _)
  | .list vt vs, h => by
    have h' : ClearValues lib.known vs := by cases h; assumption
    simp only [textAt, reprIndent_append, reprIndent_listAt, reprIndent_id (typeName_nonl vt), indent_itemsAt hf hn (d + 1) vs h']
    rfl
  | .struct h fs, hc => by
    have h' : ClearFields lib.known fs := by cases hc; assumption
    have hw := hashStr_nonl (lib := lib) (k := .type) (h := h) (fun s hs => (hn.word _ _ _ hs (.inr rfl)).2.1)
    simp only [textAt]
    split
    · rfl
    · simp only [reprIndent_append, reprIndent_listAt, reprIndent_id hw, indent_fieldsAt hf hn (d + 1) fs h']; rfl
  | .embedded h fs, hc => by
    have h' : ClearFields lib.known fs := by cases hc; assumption
    have hw := hashStr_nonl (lib := lib) (k := .type) (h := h) (fun s hs => (hn.word _ _ _ hs (.inr rfl)).2.1)
    simp only [textAt, reprIndent_append, reprIndent_listAt, reprIndent_id hw, indent_fieldsAt hf hn (d + 1) fs h']; rfl
  | .option vt none, _ => by
    simp only [textAt, reprIndent_append, reprIndent_id (typeName_nonl vt)]; rfl
  | .option vt (some v), h => by
    have h' : ClearValue lib.known v := by cases h; assumption
    simp only [textAt, reprIndent_append, reprIndent_id (typeName_nonl vt), reprIndent_wrap, indent_textAt hf hn d v h']; rfl
  | .map kt vt ps, h => by
    have h' : ClearPairs lib.known ps := by cases h; assumption
    simp only [textAt, reprIndent_append, reprIndent_id (typeName_nonl vt), reprIndent_id (typeName_nonl kt), reprIndent_newline, indent_pairsAt hf hn (d + 1) ps h']; rfl
theorem indent_itemsAt (hf : FloatTexts lib.floatRepr) (hn : ClearNames lib.known) (d : Nat) :
    ∀ vs, ClearValues lib.known vs → (itemsAt lib d vs).map reprIndent = itemsAt lib (d + 1) vs
  | [], _ => rfl
  | v :: vs, h => by
    have h1 : ClearValue lib.known v := by cases h; assumption
    have h2 : ClearValues lib.known vs := by cases h; assumption
    simp only [itemsAt, List.map_cons, reprIndent_wrap, indent_textAt hf hn d v h1, indent_itemsAt hf hn d vs h2]
theorem indent_fieldsAt (hf : FloatTexts lib.floatRepr) (hn : ClearNames lib.known) (d : Nat) :
    ∀ fs, ClearFields lib.known fs → (fieldsAt lib d fs).map reprIndent = fieldsAt lib (d + 1) fs
  | [], _ => rfl
  | .mk n t v :: fs, h => by
    have h1 : ClearValue lib.known v := by cases h; assumption
    have h2 : ClearFields lib.known fs := by cases h; assumption
    have hw := hashStr_nonl (lib := lib) (k := .field) (h := n) (fun s hs => (hn.word _ _ _ hs (.inl rfl)).2.1)
    simp only [fieldsAt, List.map_cons, reprIndent_append, reprIndent_typed, reprIndent_id hw, indent_textAt hf hn d v h1, indent_fieldsAt hf hn d fs h2]
    rfl
theorem indent_pairsAt (hf : FloatTexts lib.floatRepr) (hn : ClearNames lib.known) (d : Nat) :
    ∀ ps, ClearPairs lib.known ps → reprIndent (pairsAt lib d ps) = pairsAt lib (d + 1) ps
  | [], _ => rfl
  | .mk k v :: ps, h => by
    have h0 : ClearKey lib.known k := by cases h; assumption
    have h1 : ClearValue lib.known v := by cases h; assumption
    have h2 : ClearPairs lib.known ps := by cases h; assumption
    simp only [pairsAt, reprIndent_append, reprIndent_newline, reprIndent_id (keyStr_nonl hf h0), reprIndent_wrap, indent_textAt hf hn d v h1, indent_pairsAt hf hn d ps h2]
    rfl
end

mutual
theorem text_eq (hf : FloatTexts lib.floatRepr) (hn : ClearNames lib.known) :
    ∀ v, ClearValue lib.known v → lib.text v = textAt lib 0 v
  | .tuple l, _ => by simp only [textAt]
  | .bool b, _ => by simp only [textAt]
  | .int n, _ => by simp only [textAt]
  | .float b, _ => by simp only [textAt]
  | .floats l, _ => by simp only [textAt]
  | .matrix l, _ => by simp only [textAt]
  | .str s, _ => by simp only [textAt]
  | .hashed k h, _ => by simp only [textAt]
  | .list vt vs, h => by
    have h' : ClearValues lib.known vs := by cases h; assumption
    simp only [DumpLib.text, textAt, reprIndentList_eq, reprs_eq hf hn vs h', indent_itemsAt hf hn 0 vs h']
  | .struct h fs, hc => by
    have h' : ClearFields lib.known fs := by cases hc; assumption
    simp only [DumpLib.text, textAt, reprIndentList_eq, fieldReprs_eq hf hn fs h', indent_fieldsAt hf hn 0 fs h']
  | .embedded h fs, hc => by
    have h' : ClearFields lib.known fs := by cases hc; assumption
    simp only [DumpLib.text, textAt, reprIndentList_eq, fieldReprs_eq hf hn fs h', indent_fieldsAt hf hn 0 fs h']
  | .option vt none, _ => by simp only [DumpLib.text, textAt]
  | .option vt (some v), h => by
    have h' : ClearValue lib.known v := by cases h; assumption
    simp only [DumpLib.text, textAt, text_eq hf hn v h']
  | .map kt vt ps, h => by
    have h' : ClearPairs lib.known ps := by cases h; assumption
    have := pairsText_eq hf hn ps h'
    simp only [DumpLib.text, textAt]
    rw [show ") {\n".toList = ") {".toList ++ ['\n'] from rfl]
    simp only [List.append_assoc]
    rw [← List.append_assoc ['\n'], List.singleton_append, this]
    simp only [List.append_assoc]
    rfl
theorem reprs_eq (hf : FloatTexts lib.floatRepr) (hn : ClearNames lib.known) :
    ∀ vs, ClearValues lib.known vs → lib.reprs vs = itemsAt lib 0 vs
  | [], _ => rfl
  | v :: vs, h => by
    have h1 : ClearValue lib.known v := by cases h; assumption
    have h2 : ClearValues lib.known vs := by cases h; assumption
    simp only [DumpLib.reprs, itemsAt, text_eq hf hn v h1, reprs_eq hf hn vs h2]
theorem fieldReprs_eq (hf : FloatTexts lib.floatRepr) (hn : ClearNames lib.known) :
    ∀ fs, ClearFields lib.known fs → lib.fieldReprs fs = fieldsAt lib 0 fs
  | [], _ => rfl
  | .mk n t v :: fs, h => by
    have h1 : ClearValue lib.known v := by cases h; assumption
    have h2 : ClearFields lib.known fs := by cases h; assumption
    simp only [DumpLib.fieldReprs, fieldsAt, text_eq hf hn v h1, fieldReprs_eq hf hn fs h2]
theorem pairsText_eq (hf : FloatTexts lib.floatRepr) (hn : ClearNames lib.known) :
    ∀ ps, ClearPairs lib.known ps → '\n' :: lib.pairsText ps = pairsAt lib 1 ps ++ ['\n']
  | [], _ => rfl
  | .mk k v :: ps, h => by
    have h1 : ClearValue lib.known v := by cases h; assumption
    have h2 : ClearPairs lib.known ps := by cases h; assumption
    have := pairsText_eq hf hn ps h2
    simp only [DumpLib.pairsText, pairsAt, text_eq hf hn v h1, reprIndent_wrap, indent_textAt hf hn 0 v h1]
    rw [show newline 1 = '\n' :: "  ".toList from rfl]
    simp only [List.append_assoc, List.cons_append]
    rw [← this]
    rfl
end

end
end Cdtb
