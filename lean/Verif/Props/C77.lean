import Verif.Lemmas.BinTyped
import Verif.Props.C02
import Verif.Lemmas.PyLiteral
/-!
# C77: the text of BIN files tells what is in them

`cdtb bin-dump` prints a BIN file. The text has one heading for each entry, the values are indented by level, and two files with different content have different texts,
provided that names are words, floats are not NaN, and the keys of maps (which are not quoted) have no line break and no `>`.
-/
namespace Cdtb
set_option autoImplicit false
open Py Spec

section
variable {lib : DumpLib}

/-- All values read from a BIN file have the types which the file gives for them. -/
theorem C77_typed {btype : Option Nat} {data : Bytes} {f : BinFile} (h : parseBin btype data = .ok f) : FileTyped f := by
  unfold parseBin Rd.run at h
  split at h
  · rename_i a pos h1
    cases h
    exact parseBinFuel_post _ _ _ _ _ _ h1
  · cases h

theorem headList_text {d : Nat} {α : Type} (l : List α) (f : α → Str) :
    ∃ b, listAt d (l.map f) ++ ">".toList = headList l ++ b ∧ (b = [] ∨ b.head? = some '\n') := by
  cases l with
  | nil => exact ⟨[], rfl, .inl rfl⟩
  | cons a l =>
    refine ⟨(((a :: l).map f).flatMap fun s => newline (d + 1) ++ s) ++ newline d ++ "]".toList ++ ">".toList, ?_, .inr rfl⟩
    simp only [listAt, headList, List.map_cons, List.isEmpty_cons, Bool.false_eq_true, if_false, List.append_assoc]

theorem fieldsAt_map (d : Nat) : ∀ fs : List BinField, ∃ g : BinField → Str, fieldsAt lib d fs = fs.map g := by
  intro fs
  refine ⟨fun f => "<".toList ++ (lib.env.mk' .field f.name).str ++ " ".toList ++ typedText f.type f.value (textAt lib d f.value) ++ ">".toList, ?_⟩
  induction fs with
  | nil => rfl
  | cons f fs ih => obtain ⟨n, t, v⟩ := f; simp only [fieldsAt, List.map_cons, ih]; rfl

theorem patchField_indent (hf : FloatTexts lib.floatRepr) (hn : ClearNames lib.known) {x : BinPatchField} (hp : ClearWord x.path) (hx : ClearValue lib.known x.value) :
    reprIndent (lib.patchFieldRepr x) = "<".toList ++ x.path ++ " ".toList ++ typedText x.type x.value (textAt lib 1 x.value) ++ ">".toList := by
  unfold DumpLib.patchFieldRepr
  rw [reprIndent_append, reprIndent_append, reprIndent_append, reprIndent_append, reprIndent_typed, text_eq hf hn _ hx, indent_textAt hf hn 0 _ hx, reprIndent_id hp.2.1]
  rfl

theorem linkedText_none : linkedText lib none = [] := rfl
theorem linkedText_some (l : List Str) : linkedText lib (some l) = "<Linked: ".toList ++ listAt 0 (l.map (pyRepr lib.printable)) ++ ">\n".toList := rfl
theorem linkedHead_none : linkedHead none = [] := rfl
theorem linkedHead_some (l : List Str) : linkedHead (some l) = ["<Linked: ".toList ++ headList l] := rfl

/-- **Literals.** Texts, and hashes with a known text, are shown as Python literals: between quotes, with escapes for the characters which are not printable. -/
theorem C77_literals (lib : DumpLib) (s t : Str) : (lib.text (.str s) = t ↔ Literal lib.printable s t) ∧
    ∀ b : BinHash, b.s = some s → (lib.hashRepr b = t ↔ Literal lib.printable s t) := by
  refine ⟨?_, fun b hb => ?_⟩
  · rw [literal_iff]; simp only [DumpLib.text]; exact eq_comm
  · rw [literal_iff]; simp only [DumpLib.hashRepr, hb]; exact eq_comm

/-- No control character is printed by a literal, and other characters are ASCII or printable. -/
theorem C77_printable (printable : Char → Bool) (s t : Str) (h : Literal printable s t) : ∀ c ∈ t, ShownAsIs printable c := by
  have hq : ∀ c ∈ "\'\"\\tnrxuU0123456789abcdef".toList, ShownAsIs printable c := by
    intro c hc
    refine .inl ?_
    have : ∀ c ∈ "\'\"\\tnrxuU0123456789abcdef".toList, 32 ≤ c.toNat ∧ c.toNat ≤ 126 := by decide +kernel
    exact this c hc
  have hd : ∀ c ∈ hexDigits, ShownAsIs printable c := fun c hc => hq c (by
    have : hexDigits ⊆ "\'\"\\tnrxuU0123456789abcdef".toList := by decide +kernel
    exact this hc)
  have h1 : ∀ q c t, (q = '\'' ∨ q = '"') → LiteralChar printable q c t → ∀ x ∈ t, ShownAsIs printable x := by
    intro q c t hqq h x hx
    cases h with
    | plain _ h => rw [List.mem_singleton.1 hx]; exact h
    | quote => rcases hqq with rfl | rfl <;> exact hq x (by revert x; decide +kernel)
    | backslash => exact hq x (by revert x; decide +kernel)
    | tab => exact hq x (by revert x; decide +kernel)
    | newline => exact hq x (by revert x; decide +kernel)
    | «return» => exact hq x (by revert x; decide +kernel)
    | hex2 _ _ _ _ _ hh =>
      rcases List.mem_cons.1 hx with rfl | hx
      · exact hq _ (by decide +kernel)
      rcases List.mem_cons.1 hx with rfl | hx
      · exact hq _ (by decide +kernel)
      exact hd x (hh.digits x hx)
    | hex4 _ _ _ _ _ hh =>
      rcases List.mem_cons.1 hx with rfl | hx
      · exact hq _ (by decide +kernel)
      rcases List.mem_cons.1 hx with rfl | hx
      · exact hq _ (by decide +kernel)
      exact hd x (hh.digits x hx)
    | hex8 _ _ _ _ hh =>
      rcases List.mem_cons.1 hx with rfl | hx
      · exact hq _ (by decide +kernel)
      rcases List.mem_cons.1 hx with rfl | hx
      · exact hq _ (by decide +kernel)
      exact hd x (hh.digits x hx)
  have h2 : ∀ q s t, (q = '\'' ∨ q = '"') → LiteralBody printable q s t → ∀ x ∈ t, ShownAsIs printable x := by
    intro q s t hqq h
    induction h with
    | nil => simp
    | cons hc _ ih =>
      intro x hx
      rcases List.mem_append.1 hx with hx | hx
      · exact h1 q _ _ hqq hc x hx
      · exact ih x hx
  intro c hc
  cases h with
  | single t _ h =>
    simp only [List.cons_append, List.mem_cons, List.mem_append, List.not_mem_nil, or_false] at hc
    rcases hc with rfl | hc | rfl
    · exact hq _ (by decide +kernel)
    · exact h2 _ _ _ (.inl rfl) h c hc
    · exact hq _ (by decide +kernel)
  | double t _ _ h =>
    simp only [List.cons_append, List.mem_cons, List.mem_append, List.not_mem_nil, or_false] at hc
    rcases hc with rfl | hc | rfl
    · exact hq _ (by decide +kernel)
    · exact h2 _ _ _ (.inr rfl) h c hc
    · exact hq _ (by decide +kernel)

example : Literal (fun _ => true) "it's\t\x1f".toList "\"it's\\t\\x1f\"".toList := (literal_iff _ _ _).2 (by decide +kernel)

/-- **Layout.** The text of a file is the linked files, the entries and the patches, where each item of a list or of a map is on its own line, indented by two spaces
for each level. -/
theorem C77_layout (hf : FloatTexts lib.floatRepr) (hn : ClearNames lib.known) {f : BinFile} (hc : ClearFile lib.known f) : lib.dump f = fileText lib f := by
  unfold DumpLib.dump fileText
  have e1 : lib.linkedDump f.linked = linkedText lib f.linked := by
    generalize f.linked = o
    cases o with
    | none => rfl
    | some l =>
      unfold DumpLib.linkedDump linkedText
      simp only
      rw [reprIndentList_eq, List.map_map]
      have : (reprIndent ∘ pyRepr lib.printable) = pyRepr lib.printable := by
        funext s; exact reprIndent_id (pyRepr_nonl _ _)
      rw [this]
  have e2 : (f.entries.flatMap fun e => lib.entryRepr e ++ "\n".toList) = f.entries.flatMap fun e => "<BinEntry ".toList ++ lib.hashRepr (lib.env.mk' .entry e.path) ++
      " ".toList ++ (lib.env.mk' .type e.type).str ++ " ".toList ++ listAt 0 (fieldsAt lib 1 e.fields) ++ ">\n".toList := by
    refine List.flatMap_congr fun e he => ?_
    unfold DumpLib.entryRepr
    rw [reprIndentList_eq, fieldReprs_eq hf hn _ (hc.entries e he), indent_fieldsAt hf hn 0 _ (hc.entries e he), List.append_assoc _ ">".toList]
    rfl
  have e3 : ((f.patches.getD []).flatMap fun e => lib.patchEntryRepr e ++ "\n".toList) = (f.patches.getD []).flatMap fun e => "<BinPatchEntry ".toList ++
      lib.hashRepr (lib.env.mk' .entry e.path) ++ " ".toList ++
      listAt 0 (e.fields.map fun x => "<".toList ++ x.path ++ " ".toList ++ typedText x.type x.value (textAt lib 1 x.value) ++ ">".toList) ++ ">\n".toList := by
    refine List.flatMap_congr fun e he => ?_
    unfold DumpLib.patchEntryRepr
    rw [reprIndentList_eq, List.map_map, List.append_assoc _ ">".toList]
    have : (e.fields.map (reprIndent ∘ lib.patchFieldRepr)) =
        e.fields.map fun x => "<".toList ++ x.path ++ " ".toList ++ typedText x.type x.value (textAt lib 1 x.value) ++ ">".toList :=
      List.map_congr_left fun x hx => patchField_indent hf hn (hc.patches e he x hx).1 (hc.patches e he x hx).2
    rw [this]
    rfl
  rw [e1, e2, e3]

/-- One paragraph of the text -/
theorem openLines_para {α : Type} {h : Str} {l : List α} {g : α → Str} {rest : Str} (hh : '\n' ∉ h) (hs : h.head? = some '<') (hd : ∀ x ∈ l, Deep (g x)) :
    openLines (h ++ listAt 0 (l.map g) ++ ">\n".toList ++ rest) = (h ++ headList l) :: openLines rest := by
  obtain ⟨b, hb, hb'⟩ := headList_text (d := 0) l g
  have e : h ++ listAt 0 (l.map g) ++ ">\n".toList ++ rest = (h ++ headList l) ++ b ++ '\n' :: rest := by
    rw [show ">\n".toList = ">".toList ++ ['\n'] from rfl]
    simp only [List.append_assoc]
    rw [← List.append_assoc (listAt 0 _), hb]
    simp only [List.append_assoc]
    rfl
  have hl : '\n' ∉ headList l := by unfold headList; split <;> decide +kernel
  rw [e]
  refine openLines_paragraph ?_ ?_ hb' ?_
  · rw [List.mem_append, not_or]; exact ⟨hh, hl⟩
  · cases h with
    | nil => simp at hs
    | cons c h => simpa using hs
  · have hD : Deep (listAt 0 (l.map g) ++ ">".toList) := (deep_list (by
      intro s hs
      obtain ⟨x, hx, rfl⟩ := List.mem_map.1 hs
      exact hd x hx)).append (deep_nonl (by decide +kernel))
    intro p q hpq
    exact hD (headList l ++ p) q (by rw [hb, hpq]; simp)

/-- **Headings.** The lines that start with `<` are one line for the linked files, if the file has some, then one line for each entry and for each patch, in the order of the
file. All other lines start with a space or with `]`, so `grep '^<'` lists the entries. -/
theorem C77_headings (hf : FloatTexts lib.floatRepr) (hn : ClearNames lib.known) {f : BinFile} (hc : ClearFile lib.known f) :
    ((splitChar '\n' (lib.dump f)).filter fun l => startsWith l "<".toList) = headings lib f := by
  rw [C77_layout hf hn hc]
  change openLines (fileText lib f) = headings lib f
  unfold fileText headings
  have h0 : openLines [] = [] := by decide +kernel
  have hlt : ∀ a b : Str, ('<' :: a ++ b).head? = some '<' := fun a b => rfl
  have hP : ∀ ps : List BinPatchEntry, (∀ e ∈ ps, ∀ x ∈ e.fields, ClearWord x.path ∧ ClearValue lib.known x.value) →
      openLines (ps.flatMap fun e => "<BinPatchEntry ".toList ++ lib.hashRepr (lib.env.mk' .entry e.path) ++ " ".toList ++
        listAt 0 (e.fields.map fun x => "<".toList ++ x.path ++ " ".toList ++ typedText x.type x.value (textAt lib 1 x.value) ++ ">".toList) ++ ">\n".toList) =
      ps.map fun e => "<BinPatchEntry ".toList ++ lib.hashRepr (lib.env.mk' .entry e.path) ++ " ".toList ++ headList e.fields := by
    intro ps
    induction ps with
    | nil => intro _; exact h0
    | cons e ps ih =>
      intro h
      rw [List.flatMap_cons, List.map_cons, openLines_para, ih (fun e he => h e (by simp [he]))]
      · simp only [List.mem_append, not_or]; exact ⟨⟨by decide +kernel, hashRepr_nonl _ _⟩, by decide +kernel⟩
      · rw [List.append_assoc]; rfl
      · intro x hx
        have := h e (by simp) x hx
        exact ((((deep_nonl (by decide +kernel)).append (deep_nonl this.1.2.1)).append (deep_nonl (by decide +kernel))).append (deep_typed (deep_text hf hn 1 _ this.2))).append
          (deep_nonl (by decide +kernel))
  have hE : ∀ (es : List BinEntry) (r : Str), (∀ e ∈ es, ClearFields lib.known e.fields) →
      openLines ((es.flatMap fun e => "<BinEntry ".toList ++ lib.hashRepr (lib.env.mk' .entry e.path) ++ " ".toList ++ (lib.env.mk' .type e.type).str ++ " ".toList ++
        listAt 0 (fieldsAt lib 1 e.fields) ++ ">\n".toList) ++ r) =
      (es.map fun e => "<BinEntry ".toList ++ lib.hashRepr (lib.env.mk' .entry e.path) ++ " ".toList ++ (lib.env.mk' .type e.type).str ++ " ".toList ++ headList e.fields) ++
        openLines r := by
    intro es r
    induction es with
    | nil => intro _; rfl
    | cons e es ih =>
      intro h
      obtain ⟨g, hg⟩ := fieldsAt_map (lib := lib) 1 e.fields
      have hw := hashStr_nonl (lib := lib) (k := .type) (h := e.type) (fun s hs => (hn.word _ _ _ hs (.inr rfl)).2.1)
      rw [List.flatMap_cons, List.map_cons, hg, List.append_assoc, openLines_para, ih (fun e he => h e (by simp [he]))]
      · rfl
      · simp only [List.mem_append, not_or]; exact ⟨⟨⟨⟨by decide +kernel, hashRepr_nonl _ _⟩, by decide +kernel⟩, hw⟩, by decide +kernel⟩
      · rw [List.append_assoc, List.append_assoc, List.append_assoc]; rfl
      · intro x hx
        refine deep_fields hf hn 1 e.fields (h e (by simp)) _ ?_
        rw [hg]
        exact List.mem_map_of_mem hx
  cases hl : f.linked with
  | none =>
    rw [linkedText_none, linkedHead_none, List.nil_append, List.nil_append, hE _ _ hc.entries, hP _ hc.patches]
  | some l =>
    rw [linkedText_some, linkedHead_some, List.append_assoc, openLines_para, hE _ _ hc.entries, hP _ hc.patches]
    · simp only [List.cons_append, List.nil_append]
    · decide +kernel
    · decide +kernel
    · intro x _; exact deep_nonl (pyRepr_nonl _ _)

/-! ## Different files have different texts -/

theorem block_dec {α : Type} {f : α → Str} {ok : α → Prop} {d : Nat}
    (hdec : ∀ a b r r', ok a → ok b → EndsValue r → EndsValue r' → f a ++ r = f b ++ r' → a = b ∧ r = r') :
    ∀ (l l' : List α) (r r' : Str), (∀ a ∈ l, ok a) → (∀ a ∈ l', ok a) → Closing d r → Closing d r' →
      blockAt (d + 1) (l.map f) ++ r = blockAt (d + 1) (l'.map f) ++ r' → l = l' ∧ r = r'
  | [], [], r, r', _, _, _, _, h => ⟨rfl, h⟩
  | [], b :: l', r, r', _, _, hr, _, h => by
    simp only [List.map_cons, List.map_nil, blockAt_cons, List.append_assoc] at h
    exact absurd h (closing_ne hr)
  | a :: l, [], r, r', _, _, _, hr', h => by
    simp only [List.map_cons, List.map_nil, blockAt_cons, List.append_assoc] at h
    exact absurd h.symm (closing_ne hr')
  | a :: l, b :: l', r, r', ha, hb, hr, hr', h => by
    simp only [List.map_cons, blockAt_cons, List.append_assoc] at h
    obtain ⟨rfl, h2⟩ := hdec a b _ _ (ha a (by simp)) (hb b (by simp)) (block_ends hr) (block_ends hr') (List.append_cancel_left h)
    obtain ⟨rfl, h3⟩ := block_dec hdec l l' r r' (fun x hx => ha x (by simp [hx])) (fun x hx => hb x (by simp [hx])) hr hr' h2
    exact ⟨rfl, h3⟩

theorem linked_dec {l l' : List Str} {r r' : Str} (h : listAt 0 (l.map (pyRepr lib.printable)) ++ r = listAt 0 (l'.map (pyRepr lib.printable)) ++ r') : l = l' ∧ r = r' := by
  obtain ⟨h1, h2⟩ := block_dec (ok := fun _ => True) (fun a b r r' _ _ _ _ h => pyRepr_dec _ h) l l' _ _ (by simp) (by simp) closing_list closing_list (listAt_block h)
  exact ⟨h1, (List.cons.inj (List.append_cancel_left h2)).2⟩

theorem patchFields_dec (hf : FloatTexts lib.floatRepr) (hn : ClearNames lib.known) {l l' : List BinPatchField} {r r' : Str}
    (hl : ∀ x ∈ l, OfType x.type x.value ∧ ClearWord x.path ∧ ClearValue lib.known x.value) (hl' : ∀ x ∈ l', OfType x.type x.value ∧ ClearWord x.path ∧ ClearValue lib.known x.value)
    (h : listAt 0 (l.map fun x => "<".toList ++ x.path ++ " ".toList ++ typedText x.type x.value (textAt lib 1 x.value) ++ ">".toList) ++ r =
      listAt 0 (l'.map fun x => "<".toList ++ x.path ++ " ".toList ++ typedText x.type x.value (textAt lib 1 x.value) ++ ">".toList) ++ r') : l = l' ∧ r = r' := by
  have hdec : ∀ (a b : BinPatchField) (r r' : Str), (OfType a.type a.value ∧ ClearWord a.path ∧ ClearValue lib.known a.value) →
      (OfType b.type b.value ∧ ClearWord b.path ∧ ClearValue lib.known b.value) → EndsValue r → EndsValue r' →
      "<".toList ++ a.path ++ " ".toList ++ typedText a.type a.value (textAt lib 1 a.value) ++ ">".toList ++ r =
      "<".toList ++ b.path ++ " ".toList ++ typedText b.type b.value (textAt lib 1 b.value) ++ ">".toList ++ r' → a = b ∧ r = r' := by
    rintro ⟨p, t, v⟩ ⟨p', t', v'⟩ r r' ⟨t1, w1, c1⟩ ⟨t1', w1', c1'⟩ hr hr' h
    simp only at t1 w1 c1 t1' w1' c1'
    simp only [List.append_assoc] at h
    obtain ⟨rfl, h2⟩ := word_sep w1.1 w1'.1 (List.append_cancel_left h)
    obtain ⟨rfl, rfl, h3⟩ := typed_dec t1 t1' (fun he r r' hr hr' h => textAt_dec hf hn v 1 t v' r r' t1 (he ▸ t1') c1 c1' hr hr' h)
      ⟨'>', _, rfl, by simp⟩ ⟨'>', _, rfl, by simp⟩ h2
    exact ⟨rfl, (List.cons.inj h3).2⟩
  obtain ⟨h1, h2⟩ := block_dec hdec l l' _ _ hl hl' closing_list closing_list (listAt_block h)
  exact ⟨h1, (List.cons.inj (List.append_cancel_left h2)).2⟩

theorem patches_dec (hf : FloatTexts lib.floatRepr) (hn : ClearNames lib.known) : ∀ (ps ps' : List BinPatchEntry),
    (∀ e ∈ ps, ∀ x ∈ e.fields, OfType x.type x.value ∧ ClearWord x.path ∧ ClearValue lib.known x.value) →
    (∀ e ∈ ps', ∀ x ∈ e.fields, OfType x.type x.value ∧ ClearWord x.path ∧ ClearValue lib.known x.value) →
    (ps.flatMap fun e => "<BinPatchEntry ".toList ++ lib.hashRepr (lib.env.mk' .entry e.path) ++ " ".toList ++
      listAt 0 (e.fields.map fun x => "<".toList ++ x.path ++ " ".toList ++ typedText x.type x.value (textAt lib 1 x.value) ++ ">".toList) ++ ">\n".toList) =
    (ps'.flatMap fun e => "<BinPatchEntry ".toList ++ lib.hashRepr (lib.env.mk' .entry e.path) ++ " ".toList ++
      listAt 0 (e.fields.map fun x => "<".toList ++ x.path ++ " ".toList ++ typedText x.type x.value (textAt lib 1 x.value) ++ ">".toList) ++ ">\n".toList) → ps = ps'
  | [], [], _, _, _ => rfl
  | [], e :: ps', _, _, h => by
    rw [List.flatMap_cons] at h
    simp only [List.append_assoc, List.flatMap_nil] at h
    exact absurd h (by rw [show "<BinPatchEntry ".toList = '<' :: "BinPatchEntry ".toList from rfl, List.cons_append]; exact (List.cons_ne_nil _ _).symm)
  | e :: ps, [], _, _, h => by
    rw [List.flatMap_cons] at h
    simp only [List.append_assoc, List.flatMap_nil] at h
    exact absurd h (by rw [show "<BinPatchEntry ".toList = '<' :: "BinPatchEntry ".toList from rfl, List.cons_append]; exact List.cons_ne_nil _ _)
  | ⟨p, l⟩ :: ps, ⟨p', l'⟩ :: ps', h1, h2, h => by
    rw [List.flatMap_cons, List.flatMap_cons] at h
    simp only [List.append_assoc] at h
    obtain ⟨rfl, h3⟩ := hashRepr_dec hn (List.append_cancel_left h)
    obtain ⟨rfl, h4⟩ := patchFields_dec hf hn (h1 ⟨p, l⟩ (by simp)) (h2 ⟨p, l'⟩ (by simp)) (by simp only [List.append_assoc]; exact List.append_cancel_left h3)
    have h5 := patches_dec hf hn ps ps' (fun e he => h1 e (by simp [he])) (fun e he => h2 e (by simp [he])) (by simp only [List.append_assoc]; exact List.append_cancel_left h4)
    rw [h5]

theorem entries_dec (hf : FloatTexts lib.floatRepr) (hn : ClearNames lib.known) : ∀ (es es' : List BinEntry) (r r' : Str),
    (∀ e ∈ es, FieldsTyped e.fields ∧ ClearFields lib.known e.fields) → (∀ e ∈ es', FieldsTyped e.fields ∧ ClearFields lib.known e.fields) →
    (r = [] ∨ ∃ t, r = "<BinP".toList ++ t) → (r' = [] ∨ ∃ t, r' = "<BinP".toList ++ t) →
    (es.flatMap fun e => "<BinEntry ".toList ++ lib.hashRepr (lib.env.mk' .entry e.path) ++ " ".toList ++ (lib.env.mk' .type e.type).str ++ " ".toList ++
        listAt 0 (fieldsAt lib 1 e.fields) ++ ">\n".toList) ++ r =
    (es'.flatMap fun e => "<BinEntry ".toList ++ lib.hashRepr (lib.env.mk' .entry e.path) ++ " ".toList ++ (lib.env.mk' .type e.type).str ++ " ".toList ++
        listAt 0 (fieldsAt lib 1 e.fields) ++ ">\n".toList) ++ r' → es = es' ∧ r = r' := by
  have hne : ∀ (r x : Str), (r = [] ∨ ∃ t, r = "<BinP".toList ++ t) → r ≠ "<BinEntry ".toList ++ x := by
    rintro r x (rfl | ⟨t, rfl⟩) h
    · rw [show "<BinEntry ".toList = '<' :: "BinEntry ".toList from rfl, List.cons_append] at h
      exact absurd h ((List.cons_ne_nil _ _).symm)
    · rw [show "<BinEntry ".toList = "<Bin".toList ++ 'E' :: "ntry ".toList from rfl, show "<BinP".toList = "<Bin".toList ++ ['P'] from rfl, List.append_assoc, List.append_assoc] at h
      exact absurd (List.cons.inj (List.append_cancel_left h)).1 (by decide)
  intro es
  induction es with
  | nil =>
    intro es' r r' _ _ hr hr' h
    cases es' with
    | nil => exact ⟨rfl, h⟩
    | cons e es' =>
      rw [List.flatMap_cons] at h
      simp only [List.append_assoc, List.flatMap_nil, List.nil_append] at h
      exact absurd h (hne _ _ hr)
  | cons e es ih =>
    intro es' r r' h1 h2 hr hr' h
    cases es' with
    | nil =>
      rw [List.flatMap_cons] at h
      simp only [List.append_assoc, List.flatMap_nil, List.nil_append] at h
      exact absurd h.symm (hne _ _ hr')
    | cons e' es' =>
      obtain ⟨p, t, fs⟩ := e
      obtain ⟨p', t', fs'⟩ := e'
      rw [List.flatMap_cons, List.flatMap_cons] at h
      simp only [List.append_assoc] at h
      obtain ⟨rfl, h3⟩ := hashRepr_dec hn (List.append_cancel_left h)
      obtain ⟨rfl, h4⟩ := name_dec (h := t) (h' := t') hn (.inr rfl) (by simp only [List.append_assoc]; exact List.append_cancel_left h3)
      have c1 := h1 ⟨p, t, fs⟩ (by simp)
      have c2 := h2 ⟨p, t, fs'⟩ (by simp)
      obtain ⟨rfl, h5⟩ := fields_dec hf hn fs 0 fs' _ _ c1.1 c2.1 c1.2 c2.2 closing_list closing_list (listAt_block h4)
      have h5 := List.append_cancel_left (List.cons.inj (List.append_cancel_left h5)).2
      obtain ⟨rfl, h6⟩ := ih es' r r' (fun e he => h1 e (by simp [he])) (fun e he => h2 e (by simp [he])) hr hr' (by simp only [List.append_assoc]; exact h5)
      exact ⟨rfl, h6⟩

/-- **Faithful.** Two files with the same text have the same linked files, the same entries and the same patches: the same paths, types, fields, values, at all levels
and in the same order. The version of the file is not in the text, and no patch section looks like an empty one. -/
theorem C77_faithful (hf : FloatTexts lib.floatRepr) (hn : ClearNames lib.known) {f g : BinFile} (tf : FileTyped f) (tg : FileTyped g) (cf : ClearFile lib.known f)
    (cg : ClearFile lib.known g) (h : lib.dump f = lib.dump g) : f.linked = g.linked ∧ f.entries = g.entries ∧ f.patches.getD [] = g.patches.getD [] := by
  rw [C77_layout hf hn cf, C77_layout hf hn cg] at h
  unfold fileText at h
  have hp : ∀ ps : List BinPatchEntry, let r := (ps.flatMap fun e => "<BinPatchEntry ".toList ++ lib.hashRepr (lib.env.mk' .entry e.path) ++ " ".toList ++
      listAt 0 (e.fields.map fun x => "<".toList ++ x.path ++ " ".toList ++ typedText x.type x.value (textAt lib 1 x.value) ++ ">".toList) ++ ">\n".toList);
      r = [] ∨ ∃ t, r = "<BinP".toList ++ t := by
    intro ps
    cases ps with
    | nil => exact .inl rfl
    | cons e ps =>
      right
      simp only [List.flatMap_cons, List.append_assoc]
      rw [show "<BinPatchEntry ".toList = "<BinP".toList ++ "atchEntry ".toList from rfl]
      simp only [List.append_assoc]
      exact ⟨_, rfl⟩
  have hend : ∀ (h : lib.known = lib.known) (x y : Str), (f.entries.flatMap fun e => "<BinEntry ".toList ++ lib.hashRepr (lib.env.mk' .entry e.path) ++ " ".toList ++
        (lib.env.mk' .type e.type).str ++ " ".toList ++ listAt 0 (fieldsAt lib 1 e.fields) ++ ">\n".toList) ++
      ((f.patches.getD []).flatMap fun e => "<BinPatchEntry ".toList ++ lib.hashRepr (lib.env.mk' .entry e.path) ++ " ".toList ++
        listAt 0 (e.fields.map fun x => "<".toList ++ x.path ++ " ".toList ++ typedText x.type x.value (textAt lib 1 x.value) ++ ">".toList) ++ ">\n".toList) =
      (g.entries.flatMap fun e => "<BinEntry ".toList ++ lib.hashRepr (lib.env.mk' .entry e.path) ++ " ".toList ++
        (lib.env.mk' .type e.type).str ++ " ".toList ++ listAt 0 (fieldsAt lib 1 e.fields) ++ ">\n".toList) ++
      ((g.patches.getD []).flatMap fun e => "<BinPatchEntry ".toList ++ lib.hashRepr (lib.env.mk' .entry e.path) ++ " ".toList ++
        listAt 0 (e.fields.map fun x => "<".toList ++ x.path ++ " ".toList ++ typedText x.type x.value (textAt lib 1 x.value) ++ ">".toList) ++ ">\n".toList) →
      f.entries = g.entries ∧ f.patches.getD [] = g.patches.getD [] := by
    intro _ _ _ h
    obtain ⟨h1, h2⟩ := entries_dec hf hn _ _ _ _ (fun e he => ⟨tf.entries e he, cf.entries e he⟩) (fun e he => ⟨tg.entries e he, cg.entries e he⟩) (hp _) (hp _) h
    exact ⟨h1, patches_dec hf hn _ _ (fun e he x hx => ⟨tf.patches e he x hx, cf.patches e he x hx⟩) (fun e he x hx => ⟨tg.patches e he x hx, cg.patches e he x hx⟩) h2⟩
  have hB : ∀ (h : BinFile) (x : Str), (h.entries.flatMap fun e => "<BinEntry ".toList ++ lib.hashRepr (lib.env.mk' .entry e.path) ++ " ".toList ++
        (lib.env.mk' .type e.type).str ++ " ".toList ++ listAt 0 (fieldsAt lib 1 e.fields) ++ ">\n".toList) ++
      ((h.patches.getD []).flatMap fun e => "<BinPatchEntry ".toList ++ lib.hashRepr (lib.env.mk' .entry e.path) ++ " ".toList ++
        listAt 0 (e.fields.map fun x => "<".toList ++ x.path ++ " ".toList ++ typedText x.type x.value (textAt lib 1 x.value) ++ ">".toList) ++ ">\n".toList) ≠ "<L".toList ++ x := by
    intro h x he
    cases hes : h.entries with
    | nil =>
      rw [hes, List.flatMap_nil, List.nil_append] at he
      rcases hp (h.patches.getD []) with h0 | ⟨t, h0⟩
      · rw [h0] at he; exact absurd he (by rw [show "<L".toList = '<' :: "L".toList from rfl, List.cons_append]; exact (List.cons_ne_nil _ _).symm)
      · rw [h0, show "<BinP".toList = '<' :: 'B' :: "inP".toList from rfl, show "<L".toList = '<' :: 'L' :: [] from rfl] at he
        exact absurd (List.cons.inj (List.cons.inj he).2).1 (by decide)
    | cons e es =>
      rw [hes, List.flatMap_cons] at he
      simp only [List.append_assoc] at he
      rw [show "<BinEntry ".toList = '<' :: 'B' :: "inEntry ".toList from rfl, show "<L".toList = '<' :: 'L' :: [] from rfl] at he
      exact absurd (List.cons.inj (List.cons.inj he).2).1 (by decide)
  cases hlf : f.linked with
  | none =>
    cases hlg : g.linked with
    | none =>
      rw [hlf, hlg] at h
      simp only [linkedText_none, linkedText_some, List.nil_append] at h
      exact ⟨rfl, hend rfl [] [] h⟩
    | some l =>
      rw [hlf, hlg] at h
      simp only [linkedText_none, linkedText_some, List.nil_append] at h
      rw [show "<Linked: ".toList = "<L".toList ++ "inked: ".toList from rfl] at h
      simp only [List.append_assoc] at h
      exact absurd (by simp only [List.append_assoc]; exact h) (hB f _)
  | some l =>
    cases hlg : g.linked with
    | none =>
      rw [hlf, hlg] at h
      simp only [linkedText_none, linkedText_some, List.nil_append] at h
      rw [show "<Linked: ".toList = "<L".toList ++ "inked: ".toList from rfl] at h
      simp only [List.append_assoc] at h
      exact absurd (by simp only [List.append_assoc]; exact h.symm) (hB g _)
    | some l' =>
      rw [hlf, hlg] at h
      simp only [linkedText_none, linkedText_some, List.append_assoc] at h
      obtain ⟨rfl, h2⟩ := linked_dec (List.append_cancel_left h)
      exact ⟨rfl, hend rfl [] [] (by simp only [List.append_assoc]; exact List.append_cancel_left h2)⟩

/-! ## The command -/

/-- The command prints the text, or the object for JSON, of what is read from the file. -/
theorem C77_command {fs : FS} {bin : Str} {version : Option Str} {data : Bytes} {n : Nat} {f : BinFile} (hb : fs bin = some (.file data)) (hv : dumpVersion version = .ok n)
    (hp : parseBin (some n) data = .ok f) :
    lib.command fs bin version false = .ok (.text (lib.dump f)) ∧ ∀ s, f.ser lib.env = .ok s → lib.command fs bin version true = .ok (.json s) := by
  constructor
  · simp only [DumpLib.command, hb, hv, hp, bind, Except.bind, Bool.false_eq_true, if_false]
  · intro s hs
    simp only [DumpLib.command, hb, hv, hp, hs, bind, Except.bind, if_true]

/-- What is printed as text comes from a file: its content was read, as a whole and without error. -/
theorem C77_printed {fs : FS} {bin : Str} {version : Option Str} {json : Bool} {s : Str} (h : lib.command fs bin version json = .ok (.text s)) :
    ∃ data n f, fs bin = some (.file data) ∧ dumpVersion version = .ok n ∧ parseBin (some n) data = .ok f ∧ s = lib.dump f := by
  unfold DumpLib.command at h
  split at h
  · rename_i data hb
    simp only [bind, Except.bind] at h
    split at h
    · cases h
    · rename_i n hv
      split at h
      · cases h
      · rename_i f hp
        split at h
        · split at h <;> cases h
        · cases h
          exact ⟨data, n, f, hb, hv, hp, rfl⟩
  · cases h

/-- A path which is not a file is refused, as a wrong use of the command. -/
theorem C77_refused {fs : FS} {bin : Str} {version : Option Str} {json : Bool} (h : ∀ data, fs bin ≠ some (.file data)) : lib.command fs bin version json = .error .usage := by
  unfold DumpLib.command
  split
  · rename_i data hb; exact absurd hb (h data)
  · rfl

/-- **Comparison.** When the command prints the same text for two files, the files have the same content. -/
theorem C77_compare (hf : FloatTexts lib.floatRepr) (hn : ClearNames lib.known) {fs fs' : FS} {bin bin' : Str} {version version' : Option Str} {n n' : Nat} {data data' : Bytes} {f g : BinFile}
    {s : Str} (hb : fs bin = some (.file data)) (hb' : fs' bin' = some (.file data')) (hv : dumpVersion version = .ok n) (hv' : dumpVersion version' = .ok n')
    (hp : parseBin (some n) data = .ok f) (hp' : parseBin (some n') data' = .ok g) (cf : ClearFile lib.known f) (cg : ClearFile lib.known g)
    (h : lib.command fs bin version false = .ok (.text s)) (h' : lib.command fs' bin' version' false = .ok (.text s)) :
    f.linked = g.linked ∧ f.entries = g.entries ∧ f.patches.getD [] = g.patches.getD [] := by
  rw [(C77_command hb hv hp).1] at h
  rw [(C77_command hb' hv' hp').1] at h'
  cases h
  simp only [Except.ok.injEq, BinOutput.text.injEq] at h'
  exact C77_faithful hf hn (C77_typed hp) (C77_typed hp') cf cg h'.symm

/-- A version `x.y` or `x.y.z…` is given to the reader as the number 100x + y. -/
theorem C77_version_text {s : Str} {x y : Nat} {r : List Int} (h : baseVersion (.str s) = .ok ⟨s, .nums (x :: y :: r)⟩) : dumpVersion (some s) = .ok (x * 100 + y) := by
  have hs : s.isEmpty = false := by
    cases s with
    | nil =>
      have e : baseVersion (.str []) = .error .value := by decide +kernel
      rw [e] at h; cases h
    | cons c s => rfl
  have key : ∃ t, patchVersion (.str s) = .ok ⟨t, .nums [(x : Int), (y : Int)]⟩ := by
    by_cases hr : r = []
    · exact ⟨s, (C02_patch_truncates_text h).2 hr⟩
    · exact ⟨_, ((C02_patch_truncates_text h).1 hr).trans (C02_patch_truncates_tuple x y []).2⟩
  obtain ⟨t, ht⟩ := key
  unfold dumpVersion
  simp only [Option.getD_some, hs, Bool.false_eq_true, if_false, ht, Version.asInt, bind, Except.bind]
  congr 1

/-- Without option, the version is that of the main branch. -/
theorem C77_version_default : dumpVersion none = .ok 9999 ∧ dumpVersion (some []) = .ok 9999 := by decide +kernel

end

/-! ## What the text does not tell -/

/-- A library without known names -/
def plainDump : DumpLib := ⟨⟨fun _ => [], fun _ => 0⟩, fun _ => true, fun b => showInt (b : Int)⟩

/-- A file with one entry and one field -/
def oneField (v : BinValue) (t : BinType) : BinFile := ⟨false, 3, some [], [⟨1, 2, [.mk 3 t v]⟩], none⟩

/-- Keys of maps are not quoted: a key with a line break looks like two keys. -/
theorem C77_ambiguous_key : ∃ f g : BinFile, FileTyped f ∧ FileTyped g ∧ f.entries ≠ g.entries ∧ plainDump.dump f = plainDump.dump g := by
  refine ⟨oneField (.map .string .string [.mk (.str "a => 'b'\n  c".toList) (.str "d".toList)]) .map,
    oneField (.map .string .string [.mk (.str "a".toList) (.str "b".toList), .mk (.str "c".toList) (.str "d".toList)]) .map, ?_, ?_, ?_, ?_⟩
  · exact ⟨by
      intro e he
      simp only [oneField, List.mem_singleton] at he
      subst he
      exact .cons (.map rfl (.cons (.str rfl) (.str rfl) .nil)) .nil, by simp [oneField]⟩
  · exact ⟨by
      intro e he
      simp only [oneField, List.mem_singleton] at he
      subst he
      exact .cons (.map rfl (.cons (.str rfl) (.str rfl) (.cons (.str rfl) (.str rfl) .nil))) .nil, by simp [oneField]⟩
  · simp [oneField]
  · decide +kernel

/-- The path of a patch is not quoted: with a space in it, two files with different patches have the same text. -/
theorem C77_ambiguous_patch : ∃ f g : BinFile, FileTyped f ∧ FileTyped g ∧ f.patches.getD [] ≠ g.patches.getD [] ∧ plainDump.dump f = plainDump.dump g := by
  refine ⟨⟨true, 3, some [], [], some [⟨1, [⟨"a".toList, .u8, .int 1⟩, ⟨"b".toList, .u8, .int 2⟩]⟩]⟩,
    ⟨true, 3, some [], [], some [⟨1, [⟨"a U8 1>\n<b".toList, .u8, .int 2⟩]⟩]⟩, ?_, ?_, ?_, ?_⟩
  · exact ⟨by simp, by simp; exact ⟨.int rfl, .int rfl⟩⟩
  · exact ⟨by simp, by simp; exact .int rfl⟩
  · simp
  · decide +kernel

/-- The version of a file and the presence of an empty patch section are not in the text. -/
theorem C77_not_shown (lib : DumpLib) (f : BinFile) (b : Bool) (n : Nat) (h : f.patches = none) : lib.dump { f with isPatch := b, version := n, patches := some [] } = lib.dump f := by
  unfold DumpLib.dump
  rw [h]
  rfl

/-! ## Concrete cases -/

/-- A library with some names -/
def someDump : DumpLib := ⟨⟨fun k => match k with
  | .field => [(3, "mName".toList)]
  | .type => [(2, "Thing".toList)]
  | .entry => [(1, "Some/Path with space".toList)]
  | _ => [], fun _ => 0⟩, fun _ => true, fun b => showInt (b : Int)⟩

theorem C77_floats_met : FloatTexts someDump.floatRepr where
  nonempty := fun b => show showInt (b : Int) ≠ [] from showInt_ne_nil _
  chars := by
    intro b c hc hx
    refine showInt_not (n := (b : Int)) (c := c) ?_ hc
    simp only [List.mem_cons, List.not_mem_nil, or_false] at hx
    rcases hx with rfl | rfl | rfl | rfl | rfl | rfl | rfl <;> decide
  distinct := by
    intro a b _ _ h
    have h : showInt (a : Int) = showInt (b : Int) := h
    exact_mod_cast showInt_inj h

theorem one_known {a h : Nat} {b s : Str} (hk : Dict.get? [(a, b)] h = some s) : h = a ∧ s = b := by
  have := Dict.mem_of_get? hk
  simpa using this

theorem someDump_known {k : BinHashKind} {h : Nat} {s : Str} (hk : someDump.known k h = some s) :
    (k = .field ∧ h = 3 ∧ s = "mName".toList) ∨ (k = .type ∧ h = 2 ∧ s = "Thing".toList) ∨ (k = .entry ∧ h = 1 ∧ s = "Some/Path with space".toList) := by
  have key : ∀ d : Dict Nat Str, d = (someDump.env.known k) → d.get? h = some s := by rintro d rfl; exact hk
  cases k with
  | field => exact .inl ⟨rfl, one_known (key [(3, "mName".toList)] rfl)⟩
  | type => exact .inr (.inl ⟨rfl, one_known (key [(2, "Thing".toList)] rfl)⟩)
  | entry => exact .inr (.inr ⟨rfl, one_known (key [(1, "Some/Path with space".toList)] rfl)⟩)
  | hash => have := Dict.mem_of_get? (key [] rfl); simp at this
  | path => have := Dict.mem_of_get? (key [] rfl); simp at this

theorem C77_names_met : ClearNames someDump.known where
  distinct := by
    intro k h h' s h1 h2
    rcases someDump_known h1 with ⟨rfl, rfl, -⟩ | ⟨rfl, rfl, -⟩ | ⟨rfl, rfl, -⟩ <;>
    rcases someDump_known h2 with ⟨e, rfl, -⟩ | ⟨e, rfl, -⟩ | ⟨e, rfl, -⟩ <;> first | rfl | cases e
  word := by
    intro k h s h1 hk
    rcases someDump_known h1 with ⟨rfl, rfl, rfl⟩ | ⟨rfl, rfl, rfl⟩ | ⟨rfl, rfl, rfl⟩
    · unfold ClearWord; decide +kernel
    · unfold ClearWord; decide +kernel
    · rcases hk with hk | hk <;> cases hk

/-- A file with a list of optional values, a map and a patch -/
def someFile : BinFile := ⟨true, 3, some ["x.bin".toList],
  [⟨1, 2, [.mk 3 .list2 (.list .option [.option .struct (some (.struct 2 [.mk 4 .string (.str "it's".toList)])), .option .float none]),
    .mk 5 .map (.map .hash .bool [.mk (.hashed .hash 16) (.bool true)])]⟩], some [⟨1, [⟨"a.b".toList, .u8, .int 7⟩]⟩]⟩

theorem C77_met : FileTyped someFile ∧ ClearFile someDump.known someFile ∧ someDump.dump someFile =
    ("<Linked: [\n  'x.bin'\n]>\n" ++
     "<BinEntry 'Some/Path with space' Thing [\n  <mName LIST2(OPTION) [\n    <OPTION(STRUCT) <STRUCT Thing [\n      <{00000004} STRING \"it's\">\n    ]>>\n    <OPTION(FLOAT) None>\n  ]>\n" ++
     "  <{00000005} MAP(HASH,BOOL) {\n    {00000010} => True\n  }>\n]>\n" ++
     "<BinPatchEntry 'Some/Path with space' [\n  <a.b U8 7>\n]>\n").toList := by
  refine ⟨⟨?_, ?_⟩, ⟨?_, ?_⟩, by decide +kernel⟩
  · intro e he
    simp only [someFile, List.mem_singleton] at he
    subst he
    exact .cons (.list rfl (.cons (.something rfl (.struct rfl (by decide) (.cons (.str rfl) .nil))) (.cons (.nothing rfl) .nil)))
      (.cons (.map rfl (.cons (.hashed rfl) (.bool rfl) .nil)) .nil)
  · simp only [someFile, Option.getD_some, List.mem_singleton]
    rintro e rfl x hx
    simp only [List.mem_singleton] at hx
    subst hx
    exact .int rfl
  · intro e he
    simp only [someFile, List.mem_singleton] at he
    subst he
    exact .cons (.list (.cons (.something (.struct (.cons .str .nil))) (.cons .nothing .nil)))
      (.cons (.map (.cons (.hashed (by
        intro s hs
        rcases someDump_known hs with ⟨e, -⟩ | ⟨e, -⟩ | ⟨e, -⟩ <;> cases e)) .bool .nil)) .nil)
  · simp only [someFile, Option.getD_some, List.mem_singleton]
    rintro e rfl x hx
    simp only [List.mem_singleton] at hx
    subst hx
    exact ⟨by unfold ClearWord; decide +kernel, .int⟩

end Cdtb
