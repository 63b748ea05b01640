import Verif.Lemmas.BinDecode
/-!
# Lemmas on the text of BIN files: values at all levels
-/
namespace Cdtb
set_option autoImplicit false
open Py Spec

/-! ## Names of types -/

def BinType.all : List BinType := [.empty, .bool, .s8, .u8, .s16, .u16, .s32, .u32, .s64, .u64, .float, .vec2, .vec3, .vec4, .matrix, .rgba, .string, .hash, .path,
  .list, .list2, .struct, .embedded, .link, .option, .map, .flag]

theorem typeName_find (t : BinType) : BinType.all.find? (fun x => x.name == t.name) = some t := by cases t <;> decide +kernel

theorem typeName_inj {t t' : BinType} (h : t.name = t'.name) : t = t' := by
  have h1 := typeName_find t
  rw [h, typeName_find t'] at h1
  exact (Option.some.inj h1).symm

theorem typeName_chars (t : BinType) : ∀ c ∈ t.name, c ∉ [' ', '(', ')', ','] := by cases t <;> decide +kernel

theorem typeName_dec {t t' : BinType} {r r' : Str} (hr : ∃ c x, r = c :: x ∧ c ∈ [' ', '(', ')', ',']) (hr' : ∃ c x, r' = c :: x ∧ c ∈ [' ', '(', ')', ','])
    (h : t.name ++ r = t'.name ++ r') : t = t' ∧ r = r' := by
  obtain ⟨c, x, rfl, hc⟩ := hr
  obtain ⟨c', x', rfl, hc'⟩ := hr'
  obtain ⟨h1, h2⟩ := word_unique (p := fun c => c ∉ [' ', '(', ')', ',']) (typeName_chars t) (typeName_chars t')
    (by intro y hy; simp only [List.head?_cons, Option.some.injEq] at hy; subst hy; exact not_not.2 hc)
    (by intro y hy; simp only [List.head?_cons, Option.some.injEq] at hy; subst hy; exact not_not.2 hc') h
  exact ⟨typeName_inj h1, h2⟩

theorem typeName_dec_then {t t' : BinType} {p p' x x' : Str} (hp : ∃ c ∈ [' ', '(', ')', ','], p.head? = some c) (hp' : ∃ c ∈ [' ', '(', ')', ','], p'.head? = some c)
    (h : t.name ++ (p ++ x) = t'.name ++ (p' ++ x')) : t = t' ∧ p ++ x = p' ++ x' := by
  obtain ⟨c, hc, hp⟩ := hp
  obtain ⟨c', hc', hp'⟩ := hp'
  cases p with
  | nil => simp at hp
  | cons a p =>
    cases p' with
    | nil => simp at hp'
    | cons a' p' =>
      simp only [List.head?_cons, Option.some.injEq] at hp hp'
      subst hp; subst hp'
      exact typeName_dec ⟨_, _, rfl, hc⟩ ⟨_, _, rfl, hc'⟩ h

/-! ## Lines -/

/-- Items, each on its line -/
def blockAt (d : Nat) (items : List Str) : Str := items.flatMap fun s => newline d ++ s

/-- The last line of a list or of a map -/
def Closing (d : Nat) (r : Str) : Prop := ∃ c t, r = newline d ++ c :: t ∧ c ≠ ' '

theorem Closing.ends {d : Nat} {r : Str} (h : Closing d r) : EndsValue r := by
  obtain ⟨c, t, rfl, -⟩ := h
  exact ⟨'\n', _, rfl, by simp⟩

theorem block_ends {d e : Nat} {items : List Str} {r : Str} (h : Closing d r) : EndsValue (blockAt e items ++ r) := by
  cases items with
  | nil => exact h.ends
  | cons a l => exact ⟨'\n', _, rfl, by simp⟩

theorem newline_succ (d : Nat) : newline (d + 1) = newline d ++ "  ".toList := by
  unfold newline
  rw [List.cons_append, show 2 * (d + 1) = 2 * d + 2 by omega, List.replicate_add]; rfl

theorem closing_ne {d : Nat} {r x : Str} (h : Closing d r) : r ≠ newline (d + 1) ++ x := by
  obtain ⟨c, t, rfl, hc⟩ := h
  intro he
  rw [newline_succ, List.append_assoc] at he
  have := List.append_cancel_left he
  exact hc (List.cons.inj this).1

theorem listAt_block {d : Nat} {items items' : List Str} {r r' : Str} (h : listAt d items ++ r = listAt d items' ++ r') :
    blockAt (d + 1) items ++ (newline d ++ ']' :: r) = blockAt (d + 1) items' ++ (newline d ++ ']' :: r') := by
  have key : ∀ items : List Str, items.isEmpty = false → ∀ r, listAt d items ++ r = '[' :: (blockAt (d + 1) items ++ (newline d ++ ']' :: r)) := by
    intro items h r
    unfold listAt blockAt
    rw [h]
    simp only [Bool.false_eq_true, if_false]
    rw [show "[".toList = ['['] from rfl, show "]".toList = [']'] from rfl]
    simp only [List.cons_append, List.nil_append, List.append_assoc]
  have key0 : ∀ r, listAt d [] ++ r = '[' :: ']' :: r := fun r => rfl
  have hd : ∀ items : List Str, ∀ x, (blockAt (d + 1) items ++ (newline d ++ x)).head? = some '\n' := by
    intro items x
    cases items with
    | nil => rfl
    | cons a l => rfl
  cases items with
  | nil =>
    cases items' with
    | nil => rw [key0, key0] at h; rw [(List.cons.inj (List.cons.inj h).2).2]
    | cons b l' =>
      rw [key0, key (b :: l') rfl] at h
      have := congrArg List.head? (List.cons.inj h).2
      rw [hd] at this
      exact absurd this (by simp)
  | cons a l =>
    cases items' with
    | nil =>
      rw [key0, key (a :: l) rfl] at h
      have := congrArg List.head? (List.cons.inj h).2
      rw [hd] at this
      exact absurd this (by simp)
    | cons b l' =>
      rw [key _ rfl, key _ rfl] at h
      exact (List.cons.inj h).2

theorem closing_list {d : Nat} {r : Str} : Closing d (newline d ++ ']' :: r) := ⟨']', r, rfl, by decide⟩
theorem closing_map {d : Nat} {r : Str} : Closing d (newline d ++ '}' :: r) := ⟨'}', r, rfl, by decide⟩

/-! ## Shapes -/

section
variable {t : BinType} {v : BinValue}

theorem Spec.OfType.shape (h : OfType t v) : match v with
    | .tuple _ => binShape t = .tuple | .bool _ => binShape t = .bool | .int _ => binShape t = .int | .float _ => binShape t = .float
    | .floats _ => binShape t = .floats | .matrix _ => binShape t = .matrix | .str _ => binShape t = .str | .hashed k _ => binShape t = .hashed k
    | .list vt vs => binShape t = .list ∧ AllOfType vt vs | .struct h fs => binShape t = .struct ∧ (h = 0 → fs = []) ∧ FieldsTyped fs
    | .embedded _ fs => binShape t = .embedded ∧ FieldsTyped fs
    | .option vt o => binShape t = .option ∧ ∀ x, o = some x → OfType vt x
    | .map kt vt ps => binShape t = .map ∧ PairsTyped kt vt ps := by
  cases h with
  | tuple h => exact h
  | bool h => exact h
  | int h => exact h
  | float h => exact h
  | floats h => exact h
  | matrix h => exact h
  | str h => exact h
  | hashed h => exact h
  | list h h2 => exact ⟨h, h2⟩
  | null h => exact ⟨h, fun _ => rfl, .nil⟩
  | struct h h2 h3 => exact ⟨h, fun h => absurd h h2, h3⟩
  | embedded h h2 => exact ⟨h, h2⟩
  | nothing h => exact ⟨h, by simp⟩
  | something h h2 => exact ⟨h, by rintro x ⟨⟩; exact h2⟩
  | map h h2 => exact ⟨h, h2⟩

end

section
variable {lib : DumpLib}

/-- Values without other values in them -/
def BinValue.IsAtom : BinValue → Prop
  | .tuple _ => True | .bool _ => True | .int _ => True | .float _ => True | .floats _ => True | .matrix _ => True | .str _ => True | .hashed _ _ => True
  | .list _ _ => False | .struct _ _ => False | .embedded _ _ => False | .option _ _ => False | .map _ _ _ => False

/-- Values without other values in them, of the same type: the text tells which one. -/
theorem atoms_dec (hf : FloatTexts lib.floatRepr) (hn : ClearNames lib.known) {k k' : BinValue} (ha : k.IsAtom) (hk : ClearValue lib.known k) (hk' : ClearValue lib.known k')
    {t : BinType} (ht : OfType t k) (ht' : OfType t k') {r r' : Str} (hr : EndsAtom r) (hr' : EndsAtom r')
    (h : lib.text k ++ r = lib.text k' ++ r') : k = k' ∧ r = r' := by
  have hs := ht.shape
  have hs' := ht'.shape
  cases hk with
  | tuple =>
    cases k' <;> first | (exfalso; simp only at hs hs'; rw [hs] at hs'; simp at hs'; done) | skip
    simp only [DumpLib.text] at h
    obtain ⟨rfl, h2⟩ := ints_dec h; exact ⟨rfl, h2⟩
  | bool =>
    rename_i b
    cases k' <;> first | (exfalso; simp only at hs hs'; rw [hs] at hs'; simp at hs'; done) | skip
    rename_i b'
    simp only [DumpLib.text] at h
    cases b <;> cases b' <;> simp at h ⊢ <;> exact h
  | int =>
    cases k' <;> first | (exfalso; simp only at hs hs'; rw [hs] at hs'; simp at hs'; done) | skip
    simp only [DumpLib.text] at h
    obtain ⟨rfl, h2⟩ := int_dec hr hr' h; exact ⟨rfl, h2⟩
  | float h1 =>
    cases k' <;> first | (exfalso; simp only at hs hs'; rw [hs] at hs'; simp at hs'; done) | skip
    simp only [DumpLib.text] at h
    cases hk' with
    | float h1' => obtain ⟨rfl, h2⟩ := float_dec hf h1 h1' hr hr' h; exact ⟨rfl, h2⟩
  | floats h1 =>
    cases k' <;> first | (exfalso; simp only at hs hs'; rw [hs] at hs'; simp at hs'; done) | skip
    simp only [DumpLib.text] at h
    cases hk' with
    | floats h1' => obtain ⟨rfl, h2⟩ := floats_dec hf h1 h1' h; exact ⟨rfl, h2⟩
  | matrix h1 =>
    cases k' <;> first | (exfalso; simp only at hs hs'; rw [hs] at hs'; simp at hs'; done) | skip
    simp only [DumpLib.text] at h
    cases hk' with
    | matrix h1' => obtain ⟨rfl, h2⟩ := matrix_dec hf h1 h1' h; exact ⟨rfl, h2⟩
  | str =>
    cases k' <;> first | (exfalso; simp only at hs hs'; rw [hs] at hs'; simp at hs'; done) | skip
    simp only [DumpLib.text] at h
    obtain ⟨rfl, h2⟩ := pyRepr_dec _ h; exact ⟨rfl, h2⟩
  | hashed =>
    cases k' <;> first | (exfalso; simp only at hs hs'; rw [hs] at hs'; simp at hs'; done) | skip
    simp only [DumpLib.text] at h
    simp only at hs hs'
    rw [hs] at hs'
    obtain rfl := BinShape.hashed.inj hs'
    obtain ⟨rfl, h2⟩ := hashRepr_dec hn h; exact ⟨rfl, h2⟩
  | list _ => exact absurd ha id
  | struct _ => exact absurd ha id
  | embedded _ => exact absurd ha id
  | nothing => exact absurd ha id
  | something _ => exact absurd ha id
  | map _ => exact absurd ha id

/-- The text of a key has no `>`, and tells the key. -/
theorem key_dec (hf : FloatTexts lib.floatRepr) (hn : ClearNames lib.known) {k k' : BinValue} (hk : ClearKey lib.known k) (hk' : ClearKey lib.known k')
    {t : BinType} (ht : OfType t k) (ht' : OfType t k') {r r' : Str}
    (h : keyStr lib k (lib.text k) ++ " => ".toList ++ r = keyStr lib k' (lib.text k') ++ " => ".toList ++ r') : k = k' ∧ r = r' := by
  have hnot : ∀ k, ClearKey lib.known k → '>' ∉ keyStr lib k (lib.text k) ++ " =".toList := by
    intro k hk
    have hfl : ∀ b, '>' ∉ lib.floatRepr b := float_not hf (by decide)
    have hint : ∀ n, '>' ∉ showInt n := fun n => showInt_not (by decide)
    rw [List.mem_append, not_or]
    refine ⟨?_, by decide +kernel⟩
    cases hk with
    | tuple => change '>' ∉ lib.text _; simp only [DumpLib.text]; exact tupleText_not (by decide) (by simp [hint])
    | bool => change '>' ∉ lib.text _; simp only [DumpLib.text]; split <;> decide +kernel
    | int => change '>' ∉ lib.text _; simp only [DumpLib.text]; exact hint _
    | float _ => change '>' ∉ lib.text _; simp only [DumpLib.text]; exact hfl _
    | floats _ => change '>' ∉ lib.text _; simp only [DumpLib.text]; exact tupleText_not (by decide) (by simp [hfl])
    | matrix _ =>
      change '>' ∉ lib.text _; simp only [DumpLib.text]
      refine tupleText_not (by decide) ?_
      intro s hs
      obtain ⟨r, -, rfl⟩ := List.mem_map.1 hs
      exact tupleText_not (by decide) (by simp [hfl])
    | str h1 h2 => exact h2
    | hashed h1 => exact hashStr_not (by decide) (fun s hs => (h1 s hs).2.1)
  have e : ∀ a r : Str, a ++ " => ".toList ++ r = (a ++ " =".toList) ++ '>' :: ' ' :: r := by
    intro a r
    rw [show " => ".toList = " =".toList ++ ['>', ' '] from rfl]
    simp only [List.append_assoc, List.cons_append, List.nil_append]
  rw [e, e] at h
  obtain ⟨h1, h2⟩ := word_sep (hnot k hk) (hnot k' hk') h
  refine ⟨?_, (List.cons.inj h2).2⟩
  have h1 := List.append_cancel_right h1
  have hv : ∀ k, ClearKey lib.known k → ClearValue lib.known k := by
    intro k hk
    cases hk with
    | tuple => exact .tuple
    | bool => exact .bool
    | int => exact .int
    | float h => exact .float h
    | floats h => exact .floats h
    | matrix h => exact .matrix h
    | str _ _ => exact .str
    | hashed _ => exact .hashed
  have hr : EndsAtom (">".toList) := ⟨'>', [], rfl, by simp⟩
  have hs := ht.shape
  have hs' := ht'.shape
  have gen : k.IsAtom → keyStr lib k (lib.text k) = lib.text k → keyStr lib k' (lib.text k') = lib.text k' → k = k' := by
    intro ha e1 e2
    rw [e1, e2] at h1
    exact (atoms_dec hf hn ha (hv _ hk) (hv _ hk') ht ht' hr hr (by rw [h1])).1
  have hk0 := hk
  have hk0' := hk'
  cases hk0 with
  | tuple => cases hk0' <;> first | (exfalso; simp only at hs hs'; rw [hs] at hs'; simp at hs'; done) | exact gen trivial rfl rfl
  | bool => cases hk0' <;> first | (exfalso; simp only at hs hs'; rw [hs] at hs'; simp at hs'; done) | exact gen trivial rfl rfl
  | int => cases hk0' <;> first | (exfalso; simp only at hs hs'; rw [hs] at hs'; simp at hs'; done) | exact gen trivial rfl rfl
  | float _ => cases hk0' <;> first | (exfalso; simp only at hs hs'; rw [hs] at hs'; simp at hs'; done) | exact gen trivial rfl rfl
  | floats _ => cases hk0' <;> first | (exfalso; simp only at hs hs'; rw [hs] at hs'; simp at hs'; done) | exact gen trivial rfl rfl
  | matrix _ => cases hk0' <;> first | (exfalso; simp only at hs hs'; rw [hs] at hs'; simp at hs'; done) | exact gen trivial rfl rfl
  | str _ _ => cases hk0' <;> first | (exfalso; simp only at hs hs'; rw [hs] at hs'; simp at hs'; done) | exact congrArg BinValue.str h1
  | hashed w =>
    cases k' <;> first | (exfalso; simp only at hs hs'; rw [hs] at hs'; simp at hs'; done) | skip
    simp only at hs hs'
    rw [hs] at hs'
    obtain rfl := BinShape.hashed.inj hs'
    cases hk0' with
    | hashed w' => rw [hashStr_inj hn (fun s hs => (w s hs).2.2) (fun s hs => (w' s hs).2.2) h1]

/-- The text of an item, from the text of its value -/
theorem wrap_dec {t : BinType} {v v' : BinValue} {a a' : Str} (ht : OfType t v) (ht' : OfType t v')
    (hdec : ∀ r r', EndsValue r → EndsValue r' → a ++ r = a' ++ r' → v = v' ∧ r = r') {r r' : Str} (hr : EndsValue r) (hr' : EndsValue r')
    (h : wrapRepr v a ++ r = wrapRepr v' a' ++ r') : v = v' ∧ r = r' := by
  have hs := ht.shape
  have hs' := ht'.shape
  have key : ∀ p : Str, p ++ a ++ ">".toList ++ r = p ++ a' ++ ">".toList ++ r' → v = v' ∧ r = r' := by
    intro p h
    simp only [List.append_assoc] at h
    have := List.append_cancel_left h
    obtain ⟨h1, h2⟩ := hdec (">".toList ++ r) (">".toList ++ r') ⟨'>', r, rfl, by simp⟩ ⟨'>', r', rfl, by simp⟩ this
    exact ⟨h1, List.append_cancel_left h2⟩
  cases v with
  | list => cases v' <;> first | (exfalso; simp only at hs hs'; rw [hs.1] at hs'; simp at hs'; done) | exact key _ h
  | struct => cases v' <;> first | (exfalso; simp only at hs hs'; rw [hs.1] at hs'; simp at hs'; done) | exact key _ h
  | embedded => cases v' <;> first | (exfalso; simp only at hs hs'; rw [hs.1] at hs'; simp at hs'; done) | exact key _ h
  | option => cases v' <;> first | (exfalso; simp only at hs hs'; rw [hs.1] at hs'; simp at hs'; done) | exact key _ h
  | map => cases v' <;> first | (exfalso; simp only at hs hs'; rw [hs.1] at hs'; simp at hs'; done) | exact key _ h
  | tuple => cases v' <;> first | (exfalso; simp only at hs hs'; rw [hs] at hs'; simp at hs'; done) | exact hdec _ _ hr hr' h
  | bool => cases v' <;> first | (exfalso; simp only at hs hs'; rw [hs] at hs'; simp at hs'; done) | exact hdec _ _ hr hr' h
  | int => cases v' <;> first | (exfalso; simp only at hs hs'; rw [hs] at hs'; simp at hs'; done) | exact hdec _ _ hr hr' h
  | float => cases v' <;> first | (exfalso; simp only at hs hs'; rw [hs] at hs'; simp at hs'; done) | exact hdec _ _ hr hr' h
  | floats => cases v' <;> first | (exfalso; simp only at hs hs'; rw [hs] at hs'; simp at hs'; done) | exact hdec _ _ hr hr' h
  | matrix => cases v' <;> first | (exfalso; simp only at hs hs'; rw [hs] at hs'; simp at hs'; done) | exact hdec _ _ hr hr' h
  | str => cases v' <;> first | (exfalso; simp only at hs hs'; rw [hs] at hs'; simp at hs'; done) | exact hdec _ _ hr hr' h
  | hashed => cases v' <;> first | (exfalso; simp only at hs hs'; rw [hs] at hs'; simp at hs'; done) | exact hdec _ _ hr hr' h

/-- The type of a field, then its value -/
theorem typed_dec {t t' : BinType} {v v' : BinValue} {d : Nat} (ht : OfType t v) (ht' : OfType t' v')
    (hdec : t = t' → ∀ r r', EndsValue r → EndsValue r' → textAt lib d v ++ r = textAt lib d v' ++ r' → v = v' ∧ r = r')
    {r r' : Str} (hr : EndsValue r) (hr' : EndsValue r')
    (h : typedText t v (textAt lib d v) ++ r = typedText t' v' (textAt lib d v') ++ r') : t = t' ∧ v = v' ∧ r = r' := by
  have key : ∀ (t : BinType) v, OfType t v → ∃ sep : Str, (sep = [] ∨ sep = [' ']) ∧ (∀ x, typedText t v x = t.name ++ (sep ++ x)) ∧
      (∀ r, ∃ c x, sep ++ (textAt lib d v ++ r) = c :: x ∧ c ∈ [' ', '(', ')', ',']) ∧
      (sep = [] ↔ binShape t = .list ∨ binShape t = .option ∨ binShape t = .map) := by
    intro t v ht
    have hs := ht.shape
    have at0 : ∀ (b : BinShape), binShape t = b → (b ≠ .list ∧ b ≠ .option ∧ b ≠ .map) → (∀ x, typedText t v x = t.name ++ " ".toList ++ x) → ∃ sep : Str, (sep = [] ∨ sep = [' ']) ∧ (∀ x, typedText t v x = t.name ++ (sep ++ x)) ∧
      (∀ r, ∃ c x, sep ++ (textAt lib d v ++ r) = c :: x ∧ c ∈ [' ', '(', ')', ',']) ∧
      (sep = [] ↔ binShape t = .list ∨ binShape t = .option ∨ binShape t = .map) := by
      rintro b hb ⟨h1, h2, h3⟩ ht
      refine ⟨[' '], .inr rfl, ?_, fun r => ⟨' ', _, rfl, by simp⟩, ?_⟩
      · intro x; rw [ht, List.append_assoc]; rfl
      · rw [hb]; simp [h1, h2, h3]
    cases v with
    | tuple => exact at0 _ hs (by simp) (fun x => rfl)
    | bool => exact at0 _ hs (by simp) (fun x => rfl)
    | int => exact at0 _ hs (by simp) (fun x => rfl)
    | float => exact at0 _ hs (by simp) (fun x => rfl)
    | floats => exact at0 _ hs (by simp) (fun x => rfl)
    | matrix => exact at0 _ hs (by simp) (fun x => rfl)
    | str => exact at0 _ hs (by simp) (fun x => rfl)
    | hashed => exact at0 _ hs (by simp) (fun x => rfl)
    | list vt vs =>
      refine ⟨[], .inl rfl, fun x => rfl, fun r => ⟨'(', ?_⟩, by simp [hs.1]⟩
      simp only [textAt]; exact ⟨_, rfl, by simp⟩
    | struct =>
      have e : t = .struct := by cases t <;> first | rfl | (have := hs.1; simp [binShape] at this)
      subst e
      exact at0 _ hs.1 (by simp) (fun x => rfl)
    | embedded =>
      have e : t = .embedded := by cases t <;> first | rfl | (have := hs.1; simp [binShape] at this)
      subst e
      exact at0 _ hs.1 (by simp) (fun x => rfl)
    | option vt o =>
      have e : t = .option := by cases t <;> first | rfl | (have := hs.1; simp [binShape] at this)
      subst e
      refine ⟨[], .inl rfl, fun x => rfl, fun r => ⟨'(', ?_⟩, by simp [hs.1]⟩
      cases o <;> simp only [textAt] <;> exact ⟨_, rfl, by simp⟩
    | map kt vt ps =>
      have e : t = .map := by cases t <;> first | rfl | (have := hs.1; simp [binShape] at this)
      subst e
      refine ⟨[], .inl rfl, fun x => rfl, fun r => ⟨'(', ?_⟩, by simp [hs.1]⟩
      simp only [textAt]; exact ⟨_, rfl, by simp⟩
  obtain ⟨sep, hsep, e1, e2, e3⟩ := key t v ht
  obtain ⟨sep', hsep', e1', e2', e3'⟩ := key t' v' ht'
  rw [e1, e1'] at h
  simp only [List.append_assoc] at h
  obtain ⟨rfl, h2⟩ := typeName_dec (e2 r) (e2' r') h
  have : sep = sep' := by
    have := e3.trans e3'.symm
    rcases hsep with rfl | rfl <;> rcases hsep' with rfl | rfl <;> simp at this ⊢
  subst this
  obtain ⟨h3, h4⟩ := hdec rfl r r' hr hr' (List.append_cancel_left h2)
  exact ⟨rfl, h3, h4⟩

/-- The value of an option is not written `None`. -/
theorem option_text (hf : FloatTexts lib.floatRepr) {v : BinValue} (d : Nat) (r : Str) : ∀ x, wrapRepr v (textAt lib d v) ++ r ≠ 'N' :: x := by
  intro x h
  have hd : ∀ a : Str, a ≠ [] → a.head? ≠ some 'N' → a ++ r ≠ 'N' :: x := by
    intro a h1 h2 h
    cases a with
    | nil => exact h1 rfl
    | cons c a => exact h2 (by rw [List.cons_append] at h; rw [(List.cons.inj h).1]; rfl)
  have hq : ∀ s, pyRepr lib.printable s ++ r ≠ 'N' :: x := by
    intro s h
    obtain ⟨t, ht | ht⟩ := pyRepr_head lib.printable s r <;> rw [ht] at h <;> simp at h
  cases v with
  | tuple => exact hd _ (by change textAt lib d _ ≠ _; simp only [textAt, DumpLib.text, tupleText]; simp) (by change (textAt lib d _).head? ≠ _; simp only [textAt, DumpLib.text, tupleText]; simp) h
  | bool b =>
    have e : textAt lib d (.bool b) = if b then "True".toList else "False".toList := by simp only [textAt, DumpLib.text]
    have h' : textAt lib d (.bool b) ++ r = 'N' :: x := h
    rw [e] at h'
    cases b <;> simp at h'
  | int n => 
    have e : textAt lib d (.int n) = showInt n := by simp only [textAt, DumpLib.text]
    refine hd _ ?_ ?_ h
    · exact e ▸ showInt_ne_nil n
    · exact fun h => showInt_not (n := n) (c := 'N') (by decide) (List.mem_of_mem_head? (by rw [← e]; exact h))
  | float b =>
    have e : textAt lib d (.float b) = lib.floatRepr b := by simp only [textAt, DumpLib.text]
    refine hd _ ?_ ?_ h
    · exact e ▸ hf.nonempty b
    · exact fun h => hf.chars b _ (List.mem_of_mem_head? (by rw [← e]; exact h)) (by simp)
  | floats => exact hd _ (by change textAt lib d _ ≠ _; simp only [textAt, DumpLib.text, tupleText]; simp) (by change (textAt lib d _).head? ≠ _; simp only [textAt, DumpLib.text, tupleText]; simp) h
  | matrix => exact hd _ (by change textAt lib d _ ≠ _; simp only [textAt, DumpLib.text, tupleText]; simp) (by change (textAt lib d _).head? ≠ _; simp only [textAt, DumpLib.text, tupleText]; simp) h
  | str s =>
    have e : textAt lib d (.str s) = pyRepr lib.printable s := by simp only [textAt, DumpLib.text]
    refine hq s ?_
    rw [← e]; exact h
  | hashed k n =>
    have e : textAt lib d (.hashed k n) = lib.hashRepr (lib.env.mk' k n) := by simp only [textAt, DumpLib.text]
    have h' : textAt lib d (.hashed k n) ++ r = 'N' :: x := h
    rw [e] at h'
    unfold DumpLib.hashRepr at h'
    split at h'
    · exact hq _ h'
    · simp at h'
  | list => exact absurd (List.cons.inj h).1 (by decide)
  | struct => exact absurd (List.cons.inj h).1 (by decide)
  | embedded => exact absurd (List.cons.inj h).1 (by decide)
  | option => exact absurd (List.cons.inj h).1 (by decide)
  | map => exact absurd (List.cons.inj h).1 (by decide)

theorem blockAt_cons (d : Nat) (s : Str) (l : List Str) : blockAt d (s :: l) = newline d ++ (s ++ blockAt d l) := by
  simp [blockAt]

/-- The fields of a structure with its name -/
theorem struct_dec (hn : ClearNames lib.known) {h h' : Nat} {l l' r r' : List Char} (he : (lib.env.mk' .type h).str ++ " ".toList ++ l ++ r = (lib.env.mk' .type h').str ++ " ".toList ++ l' ++ r') :
    h = h' ∧ l ++ r = l' ++ r' := by
  rw [List.append_assoc, List.append_assoc _ l'] at he
  exact name_dec hn (.inr rfl) he

theorem none_ne (hn : ClearNames lib.known) {h : Nat} {l r r' : Str} (hr : EndsValue r) : "None".toList ++ r ≠ (lib.env.mk' .type h).str ++ " ".toList ++ l ++ r' := by
  intro he
  obtain ⟨c, x, rfl, hc⟩ := hr
  have hw : ∀ c ∈ [' ', '>', '\n'], c ∉ (lib.env.mk' .type h).str := by
    intro c hc
    refine hashStr_not ?_ (fun s hs => ?_)
    · simp only [List.mem_cons, List.not_mem_nil, or_false] at hc; rcases hc with rfl | rfl | rfl <;> decide
    · have := hn.word .type h s hs (.inr rfl)
      simp only [List.mem_cons, List.not_mem_nil, or_false] at hc; rcases hc with rfl | rfl | rfl
      · exact this.1
      · exact this.2.2.1
      · exact this.2.1
  rw [List.append_assoc, List.append_assoc] at he
  obtain ⟨-, h2⟩ := word_unique (p := fun c => c ∉ [' ', '>', '\n']) (by decide +kernel) (fun c hc hx => hw c hx hc)
    (by intro y hy; simp only [List.head?_cons, Option.some.injEq] at hy; subst hy; simp only [List.mem_cons, List.not_mem_nil, or_false] at hc ⊢; tauto)
    (by intro y hy
        have : (' ' :: (l ++ r')).head? = some y := hy
        simp only [List.head?_cons, Option.some.injEq] at this; subst this; simp) he
  have : c = ' ' := (List.cons.inj h2).1
  subst this
  revert hc
  decide

mutual
theorem textAt_dec (hf : FloatTexts lib.floatRepr) (hn : ClearNames lib.known) :
    ∀ (v : BinValue) (d : Nat) (t : BinType) (v' : BinValue) (r r' : Str), OfType t v → OfType t v' → ClearValue lib.known v → ClearValue lib.known v' →
      EndsValue r → EndsValue r' → textAt lib d v ++ r = textAt lib d v' ++ r' → v = v' ∧ r = r'
  | .tuple l, d, t, v', r, r', ht, ht', hc, hc', hr, hr', h => by
    have hat : (BinValue.tuple l).IsAtom := trivial
    have e : textAt lib d v' = lib.text v' := by
      have hs := ht.shape; have hs' := ht'.shape
      cases v' <;> first | (exfalso; simp only at hs hs'; rw [hs] at hs'; simp at hs'; done) | simp only [textAt]
    rw [e] at h; simp only [textAt] at h
    exact atoms_dec hf hn hat hc hc' ht ht' hr.atom hr'.atom h
  | .bool l, d, t, v', r, r', ht, ht', hc, hc', hr, hr', h => by
    have hat : (BinValue.bool l).IsAtom := trivial
    have e : textAt lib d v' = lib.text v' := by
      have hs := ht.shape; have hs' := ht'.shape
      cases v' <;> first | (exfalso; simp only at hs hs'; rw [hs] at hs'; simp at hs'; done) | simp only [textAt]
    rw [e] at h; simp only [textAt] at h
    exact atoms_dec hf hn hat hc hc' ht ht' hr.atom hr'.atom h
  | .int l, d, t, v', r, r', ht, ht', hc, hc', hr, hr', h => by
    have hat : (BinValue.int l).IsAtom := trivial
    have e : textAt lib d v' = lib.text v' := by
      have hs := ht.shape; have hs' := ht'.shape
      cases v' <;> first | (exfalso; simp only at hs hs'; rw [hs] at hs'; simp at hs'; done) | simp only [textAt]
    rw [e] at h; simp only [textAt] at h
    exact atoms_dec hf hn hat hc hc' ht ht' hr.atom hr'.atom h
  | .float l, d, t, v', r, r', ht, ht', hc, hc', hr, hr', h => by
    have hat : (BinValue.float l).IsAtom := trivial
    have e : textAt lib d v' = lib.text v' := by
      have hs := ht.shape; have hs' := ht'.shape
      cases v' <;> first | (exfalso; simp only at hs hs'; rw [hs] at hs'; simp at hs'; done) | simp only [textAt]
    rw [e] at h; simp only [textAt] at h
    exact atoms_dec hf hn hat hc hc' ht ht' hr.atom hr'.atom h
  | .floats l, d, t, v', r, r', ht, ht', hc, hc', hr, hr', h => by
    have hat : (BinValue.floats l).IsAtom := trivial
    have e : textAt lib d v' = lib.text v' := by
      have hs := ht.shape; have hs' := ht'.shape
      cases v' <;> first | (exfalso; simp only at hs hs'; rw [hs] at hs'; simp at hs'; done) | simp only [textAt]
    rw [e] at h; simp only [textAt] at h
    exact atoms_dec hf hn hat hc hc' ht ht' hr.atom hr'.atom h
  | .matrix l, d, t, v', r, r', ht, ht', hc, hc', hr, hr', h => by
    have hat : (BinValue.matrix l).IsAtom := trivial
    have e : textAt lib d v' = lib.text v' := by
      have hs := ht.shape; have hs' := ht'.shape
      cases v' <;> first | (exfalso; simp only at hs hs'; rw [hs] at hs'; simp at hs'; done) | simp only [textAt]
    rw [e] at h; simp only [textAt] at h
    exact atoms_dec hf hn hat hc hc' ht ht' hr.atom hr'.atom h
  | .str l, d, t, v', r, r', ht, ht', hc, hc', hr, hr', h => by
    have hat : (BinValue.str l).IsAtom := trivial
    have e : textAt lib d v' = lib.text v' := by
      have hs := ht.shape; have hs' := ht'.shape
      cases v' <;> first | (exfalso; simp only at hs hs'; rw [hs] at hs'; simp at hs'; done) | simp only [textAt]
    rw [e] at h; simp only [textAt] at h
    exact atoms_dec hf hn hat hc hc' ht ht' hr.atom hr'.atom h
  | .hashed k l, d, t, v', r, r', ht, ht', hc, hc', hr, hr', h => by
    have hat : (BinValue.hashed k l).IsAtom := trivial
    have e : textAt lib d v' = lib.text v' := by
      have hs := ht.shape; have hs' := ht'.shape
      cases v' <;> first | (exfalso; simp only at hs hs'; rw [hs] at hs'; simp at hs'; done) | simp only [textAt]
    rw [e] at h; simp only [textAt] at h
    exact atoms_dec hf hn hat hc hc' ht ht' hr.atom hr'.atom h
  | .list vt vs, d, t, v', r, r', ht, ht', hc, hc', hr, hr', h => by
    have hs := ht.shape; have hs' := ht'.shape
    cases v' <;> first | (exfalso; simp only at hs hs'; rw [hs.1] at hs'; simp at hs'; done) | skip
    rename_i vt' vs'
    have c1 : ClearValues lib.known vs := by cases hc; assumption
    have c2 : ClearValues lib.known vs' := by cases hc'; assumption
    simp only [textAt, List.append_assoc] at h
    obtain ⟨rfl, h2⟩ := typeName_dec_then (by decide +kernel) (by decide +kernel) (List.append_cancel_left h)
    obtain ⟨rfl, h3⟩ := items_dec hf hn vs d vt vs' _ _ hs.2 hs'.2 c1 c2 closing_list closing_list (listAt_block (List.append_cancel_left h2))
    exact ⟨rfl, (List.cons.inj (List.append_cancel_left h3)).2⟩
  | .struct n fs, d, t, v', r, r', ht, ht', hc, hc', hr, hr', h => by
    have hs := ht.shape; have hs' := ht'.shape
    cases v' <;> first | (exfalso; simp only at hs hs'; rw [hs.1] at hs'; simp at hs'; done) | skip
    rename_i n' fs'
    have c1 : ClearFields lib.known fs := by cases hc; assumption
    have c2 : ClearFields lib.known fs' := by cases hc'; assumption
    simp only [textAt] at h
    split_ifs at h with h1 h1' h1'
    · subst h1; subst h1'
      rw [hs.2.1 rfl, hs'.2.1 rfl]
      exact ⟨rfl, List.append_cancel_left h⟩
    · exact absurd h (none_ne hn hr)
    · exact absurd h.symm (none_ne hn hr')
    · obtain ⟨rfl, h2⟩ := struct_dec hn h
      obtain ⟨rfl, h3⟩ := fields_dec hf hn fs d fs' _ _ hs.2.2 hs'.2.2 c1 c2 closing_list closing_list (listAt_block h2)
      exact ⟨rfl, (List.cons.inj (List.append_cancel_left h3)).2⟩
  | .embedded n fs, d, t, v', r, r', ht, ht', hc, hc', hr, hr', h => by
    have hs := ht.shape; have hs' := ht'.shape
    cases v' <;> first | (exfalso; simp only at hs hs'; rw [hs.1] at hs'; simp at hs'; done) | skip
    rename_i n' fs'
    have c1 : ClearFields lib.known fs := by cases hc; assumption
    have c2 : ClearFields lib.known fs' := by cases hc'; assumption
    simp only [textAt] at h
    obtain ⟨rfl, h2⟩ := struct_dec hn h
    obtain ⟨rfl, h3⟩ := fields_dec hf hn fs d fs' _ _ hs.2 hs'.2 c1 c2 closing_list closing_list (listAt_block h2)
    exact ⟨rfl, (List.cons.inj (List.append_cancel_left h3)).2⟩
  | .option vt none, d, t, v', r, r', ht, ht', hc, hc', hr, hr', h => by
    have hs := ht.shape; have hs' := ht'.shape
    cases v' <;> first | (exfalso; simp only at hs hs'; rw [hs.1] at hs'; simp at hs'; done) | skip
    rename_i vt' o'
    cases o' with
    | none =>
      simp only [textAt, List.append_assoc] at h
      obtain ⟨rfl, h2⟩ := typeName_dec_then (by decide +kernel) (by decide +kernel) (List.append_cancel_left h)
      exact ⟨rfl, List.append_cancel_left h2⟩
    | some w =>
      simp only [textAt, List.append_assoc] at h
      obtain ⟨rfl, h2⟩ := typeName_dec_then (by decide +kernel) (by decide +kernel) (List.append_cancel_left h)
      rw [show ") None".toList = ") ".toList ++ 'N' :: "one".toList from rfl, List.append_assoc] at h2
      exact absurd (List.append_cancel_left h2).symm (option_text hf d r' _)
  | .option vt (some v), d, t, v', r, r', ht, ht', hc, hc', hr, hr', h => by
    have hs := ht.shape; have hs' := ht'.shape
    cases v' <;> first | (exfalso; simp only at hs hs'; rw [hs.1] at hs'; simp at hs'; done) | skip
    rename_i vt' o'
    cases o' with
    | none =>
      simp only [textAt, List.append_assoc] at h
      obtain ⟨rfl, h2⟩ := typeName_dec_then (by decide +kernel) (by decide +kernel) (List.append_cancel_left h)
      rw [show ") None".toList = ") ".toList ++ 'N' :: "one".toList from rfl, List.append_assoc] at h2
      exact absurd (List.append_cancel_left h2) (option_text hf d r _)
    | some w =>
      have c1 : ClearValue lib.known v := by cases hc; assumption
      have c2 : ClearValue lib.known w := by cases hc'; assumption
      simp only [textAt, List.append_assoc] at h
      obtain ⟨rfl, h2⟩ := typeName_dec_then (by decide +kernel) (by decide +kernel) (List.append_cancel_left h)
      obtain ⟨rfl, h3⟩ := wrap_dec (hs.2 v rfl) (hs'.2 w rfl) (fun r r' hr hr' h => textAt_dec hf hn v d vt w r r' (hs.2 v rfl) (hs'.2 w rfl) c1 c2 hr hr' h) hr hr'
        (List.append_cancel_left h2)
      exact ⟨rfl, h3⟩
  | .map kt vt ps, d, t, v', r, r', ht, ht', hc, hc', hr, hr', h => by
    have hs := ht.shape; have hs' := ht'.shape
    cases v' <;> first | (exfalso; simp only at hs hs'; rw [hs.1] at hs'; simp at hs'; done) | skip
    rename_i kt' vt' ps'
    have c1 : ClearPairs lib.known ps := by cases hc; assumption
    have c2 : ClearPairs lib.known ps' := by cases hc'; assumption
    simp only [textAt, List.append_assoc] at h
    obtain ⟨rfl, h2⟩ := typeName_dec_then (by decide +kernel) (by decide +kernel) (List.append_cancel_left h)
    obtain ⟨rfl, h3⟩ := typeName_dec_then (by decide +kernel) (by decide +kernel) (List.append_cancel_left h2)
    have h3 := List.append_cancel_left h3
    obtain ⟨rfl, h4⟩ := pairs_dec hf hn ps d kt vt ps' _ _ hs.2 hs'.2 c1 c2 closing_map closing_map h3
    exact ⟨rfl, (List.cons.inj (List.append_cancel_left h4)).2⟩
theorem items_dec (hf : FloatTexts lib.floatRepr) (hn : ClearNames lib.known) :
    ∀ (vs : List BinValue) (d : Nat) (t : BinType) (vs' : List BinValue) (r r' : Str), AllOfType t vs → AllOfType t vs' → ClearValues lib.known vs → ClearValues lib.known vs' →
      Closing d r → Closing d r' → blockAt (d + 1) (itemsAt lib (d + 1) vs) ++ r = blockAt (d + 1) (itemsAt lib (d + 1) vs') ++ r' → vs = vs' ∧ r = r'
  | [], d, t, [], r, r', _, _, _, _, _, _, h => ⟨rfl, h⟩
  | [], d, t, v' :: vs', r, r', _, _, _, _, hr, _, h => by
    simp only [itemsAt, blockAt_cons, List.append_assoc] at h
    exact absurd h (closing_ne hr)
  | v :: vs, d, t, [], r, r', _, _, _, _, _, hr', h => by
    simp only [itemsAt, blockAt_cons, List.append_assoc] at h
    exact absurd h.symm (closing_ne hr')
  | v :: vs, d, t, v' :: vs', r, r', ht, ht', hc, hc', hr, hr', h => by
    simp only [itemsAt, blockAt_cons, List.append_assoc] at h
    have h := List.append_cancel_left h
    have t1 : OfType t v := by cases ht; assumption
    have t2 : AllOfType t vs := by cases ht; assumption
    have t1' : OfType t v' := by cases ht'; assumption
    have t2' : AllOfType t vs' := by cases ht'; assumption
    have c1 : ClearValue lib.known v := by cases hc; assumption
    have c2 : ClearValues lib.known vs := by cases hc; assumption
    have c1' : ClearValue lib.known v' := by cases hc'; assumption
    have c2' : ClearValues lib.known vs' := by cases hc'; assumption
    obtain ⟨rfl, h2⟩ := wrap_dec t1 t1' (fun r r' hr hr' h => textAt_dec hf hn v (d + 1) t v' r r' t1 t1' c1 c1' hr hr' h) (block_ends hr) (block_ends hr') h
    obtain ⟨rfl, h3⟩ := items_dec hf hn vs d t vs' r r' t2 t2' c2 c2' hr hr' h2
    exact ⟨rfl, h3⟩
theorem fields_dec (hf : FloatTexts lib.floatRepr) (hn : ClearNames lib.known) :
    ∀ (fs : List BinField) (d : Nat) (fs' : List BinField) (r r' : Str), FieldsTyped fs → FieldsTyped fs' → ClearFields lib.known fs → ClearFields lib.known fs' →
      Closing d r → Closing d r' → blockAt (d + 1) (fieldsAt lib (d + 1) fs) ++ r = blockAt (d + 1) (fieldsAt lib (d + 1) fs') ++ r' → fs = fs' ∧ r = r'
  | [], d, [], r, r', _, _, _, _, _, _, h => ⟨rfl, h⟩
  | [], d, .mk n' t' v' :: fs', r, r', _, _, _, _, hr, _, h => by
    simp only [fieldsAt, blockAt_cons, List.append_assoc] at h
    exact absurd h (closing_ne hr)
  | .mk n t v :: fs, d, [], r, r', _, _, _, _, _, hr', h => by
    simp only [fieldsAt, blockAt_cons, List.append_assoc] at h
    exact absurd h.symm (closing_ne hr')
  | .mk n t v :: fs, d, .mk n' t' v' :: fs', r, r', ht, ht', hc, hc', hr, hr', h => by
    simp only [fieldsAt, blockAt_cons, List.append_assoc] at h
    have h := List.append_cancel_left (List.append_cancel_left h)
    have t1 : OfType t v := by cases ht; assumption
    have t2 : FieldsTyped fs := by cases ht; assumption
    have t1' : OfType t' v' := by cases ht'; assumption
    have t2' : FieldsTyped fs' := by cases ht'; assumption
    have c1 : ClearValue lib.known v := by cases hc; assumption
    have c2 : ClearFields lib.known fs := by cases hc; assumption
    have c1' : ClearValue lib.known v' := by cases hc'; assumption
    have c2' : ClearFields lib.known fs' := by cases hc'; assumption
    obtain ⟨rfl, h1⟩ := name_dec (h := n) (h' := n') hn (.inl rfl) (by simp only [List.append_assoc]; exact h)
    obtain ⟨rfl, rfl, h2⟩ := typed_dec t1 t1' (fun he r r' hr hr' h => textAt_dec hf hn v (d + 1) t v' r r' t1 (he ▸ t1') c1 c1' hr hr' h)
      ⟨'>', _, rfl, by simp⟩ ⟨'>', _, rfl, by simp⟩ h1
    obtain ⟨rfl, h3⟩ := fields_dec hf hn fs d fs' r r' t2 t2' c2 c2' hr hr' (List.cons.inj h2).2
    exact ⟨rfl, h3⟩
theorem pairs_dec (hf : FloatTexts lib.floatRepr) (hn : ClearNames lib.known) :
    ∀ (ps : List BinPair) (d : Nat) (kt vt : BinType) (ps' : List BinPair) (r r' : Str), PairsTyped kt vt ps → PairsTyped kt vt ps' → ClearPairs lib.known ps → ClearPairs lib.known ps' →
      Closing d r → Closing d r' → pairsAt lib (d + 1) ps ++ r = pairsAt lib (d + 1) ps' ++ r' → ps = ps' ∧ r = r'
  | [], d, kt, vt, [], r, r', _, _, _, _, _, _, h => ⟨rfl, h⟩
  | [], d, kt, vt, .mk k' v' :: ps', r, r', _, _, _, _, hr, _, h => by
    simp only [pairsAt, List.append_assoc, List.nil_append] at h
    exact absurd h (closing_ne hr)
  | .mk k v :: ps, d, kt, vt, [], r, r', _, _, _, _, _, hr', h => by
    simp only [pairsAt, List.append_assoc, List.nil_append] at h
    exact absurd h.symm (closing_ne hr')
  | .mk k v :: ps, d, kt, vt, .mk k' v' :: ps', r, r', ht, ht', hc, hc', hr, hr', h => by
    simp only [pairsAt, List.append_assoc] at h
    have h := List.append_cancel_left h
    have t0 : OfType kt k := by cases ht; assumption
    have t1 : OfType vt v := by cases ht; assumption
    have t2 : PairsTyped kt vt ps := by cases ht; assumption
    have t0' : OfType kt k' := by cases ht'; assumption
    have t1' : OfType vt v' := by cases ht'; assumption
    have t2' : PairsTyped kt vt ps' := by cases ht'; assumption
    have c0 : ClearKey lib.known k := by cases hc; assumption
    have c1 : ClearValue lib.known v := by cases hc; assumption
    have c2 : ClearPairs lib.known ps := by cases hc; assumption
    have c0' : ClearKey lib.known k' := by cases hc'; assumption
    have c1' : ClearValue lib.known v' := by cases hc'; assumption
    have c2' : ClearPairs lib.known ps' := by cases hc'; assumption
    have ends : ∀ (ps : List BinPair) r, Closing d r → EndsValue (pairsAt lib (d + 1) ps ++ r) := by
      intro ps r hr
      match ps with
      | [] => simp only [pairsAt]; exact hr.ends
      | .mk k v :: ps => simp only [pairsAt]; exact ⟨'\n', _, rfl, by simp⟩
    obtain ⟨rfl, h1⟩ := key_dec hf hn c0 c0' t0 t0' (by simp only [List.append_assoc]; exact h)
    obtain ⟨rfl, h2⟩ := wrap_dec t1 t1' (fun r r' hr hr' h => textAt_dec hf hn v (d + 1) vt v' r r' t1 t1' c1 c1' hr hr' h) (ends _ _ hr) (ends _ _ hr') h1
    obtain ⟨rfl, h3⟩ := pairs_dec hf hn ps d kt vt ps' r r' t2 t2' c2 c2' hr hr' h2
    exact ⟨rfl, h3⟩
end

end
end Cdtb
