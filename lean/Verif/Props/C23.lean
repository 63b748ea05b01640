import Verif.Props.C20
import Verif.Lemmas.Dict
import Mathlib.Data.List.Forall2
/-!
# C23 Fields of BIN objects
-/
namespace Cdtb
set_option autoImplicit false
open Py Spec

/-- Keys that designate the field of hash `h`: a hashed name, an ASCII text whose FNV-1a hash is `h`, or the number. -/
inductive Designates : BinKey → Nat → Prop
  | hashed (h : Nat) : Designates (.hashed h) h
  | str (s : Str) (ha : Ascii s) : Designates (.str s) (fnv1a (lowerBytes s)).toNat
  | int (n : Nat) : Designates (.int n) n

theorem Designates.hash {key : BinKey} {h : Nat} (hd : Designates key h) : binKeyHash key = .ok (some (h : Int)) := by
  cases hd with
  | hashed => rfl
  | str s ha => simp only [binKeyHash]; rw [C20_fnv s ha]; rfl
  | int => rfl

/-- The ordered map of an object: its fields by hash of name, in order. -/
def fieldMap (fields : List BinField) : Dict Nat BinField := fields.map (fun f => (f.name, f))

theorem name_eq (f : BinField) (h : Nat) : (some (f.name : Int) = some (h : Int)) ↔ f.name = h := by
  rw [Option.some.injEq]; omega

theorem findField_get? (fields : List BinField) (h : Nat) :
    findField fields (some (h : Int)) = (fieldMap fields).get? h := by
  unfold findField fieldMap
  induction fields with
  | nil => rfl
  | cons f fields ih =>
    rw [List.find?_cons, List.map_cons, Dict.get?]
    by_cases hf : f.name = h
    · rw [if_pos hf, decide_eq_true ((name_eq f h).2 hf)]
    · rw [if_neg hf, decide_eq_false (fun e => hf ((name_eq f h).1 e))]; exact ih

theorem replaceField_set (fields : List BinField) (h : Nat) (v : BinField) (hv : v.name = h) :
    fieldMap (replaceField fields (some (h : Int)) v) = (fieldMap fields).set h v := by
  unfold fieldMap
  induction fields with
  | nil => simp [replaceField, Dict.set, hv]
  | cons f fields ih =>
    rw [replaceField, List.map_cons, Dict.set]
    by_cases hf : f.name = h
    · rw [if_pos ((name_eq f h).2 hf), if_pos hf, List.map_cons, hv, hf]
    · rw [if_neg (fun e => hf ((name_eq f h).1 e)), if_neg hf, List.map_cons, ih]

/-- Reading a key gives the first field with its hash, or `KeyError`. -/
theorem C23_get (fields : List BinField) (key : BinKey) (h : Nat) (hd : Designates key h) :
    (∀ f, getField fields key = .ok f ↔
      ∃ before after, fields = before ++ f :: after ∧ f.name = h ∧ ∀ g ∈ before, g.name ≠ h) ∧
    (getField fields key = .error .key ↔ ∀ f ∈ fields, f.name ≠ h) := by
  have e : getField fields key = match findField fields (some (h : Int)) with | some f => .ok f | none => .error .key := by
    unfold getField; rw [hd.hash]; rfl
  have hfind : ∀ f, findField fields (some (h : Int)) = some f ↔
      ∃ before after, fields = before ++ f :: after ∧ f.name = h ∧ ∀ g ∈ before, g.name ≠ h := by
    intro f
    unfold findField
    rw [List.find?_eq_some_iff_append]
    constructor
    · rintro ⟨h1, as, bs, h2, h3⟩
      refine ⟨as, bs, h2, (name_eq f h).1 (of_decide_eq_true h1), ?_⟩
      intro g hg e
      have := h3 g hg
      rw [decide_eq_true ((name_eq g h).2 e)] at this
      cases this
    · rintro ⟨as, bs, h2, h1, h3⟩
      refine ⟨decide_eq_true ((name_eq f h).2 h1), as, bs, h2, ?_⟩
      intro g hg
      rw [decide_eq_false (fun e => h3 g hg ((name_eq g h).1 e))]; rfl
  constructor
  · intro f
    rw [← hfind f, e]
    rcases findField fields (some (h : Int)) with _ | f' <;> simp
  · have hnone : findField fields (some (h : Int)) = none ↔ ∀ f ∈ fields, f.name ≠ h := by
      unfold findField
      rw [List.find?_eq_none]
      constructor
      · intro h1 f hf e
        exact h1 f hf (decide_eq_true ((name_eq f h).2 e))
      · intro h1 f hf e
        exact h1 f hf ((name_eq f h).1 (of_decide_eq_true e))
    rw [← hnone, e]
    rcases findField fields (some (h : Int)) with _ | f' <;> simp

/-- `in`, `[]`, `get` and `getv` agree, for keys of any kind. -/
theorem C23_agree (fields : List BinField) (key : BinKey) :
    (hasField fields key = .ok true ↔ ∃ f, getField fields key = .ok f) ∧
    (hasField fields key = .ok false ↔ getField fields key = .error .key) ∧
    (∀ f, getField fields key = .ok f → getFieldD fields key = .ok (some f) ∧ getv fields key = .ok (toPython f.value)) ∧
    (getField fields key = .error .key → getFieldD fields key = .ok none ∧ getv fields key = .ok .default) := by
  have hany : ∀ h, fields.any (fun f => decide (some (f.name : Int) = h)) = (findField fields h).isSome := by
    intro h
    rw [Bool.eq_iff_iff]
    unfold findField
    rw [List.find?_isSome, List.any_eq_true]
  unfold getFieldD getv getField hasField
  rcases hk : binKeyHash key with er | h
  · have : er ≠ .key := by
      rintro rfl
      unfold binKeyHash at hk
      split at hk
      · cases hk
      · rename_i s
        by_cases ha : Ascii s
        · rw [C20_fnv s ha] at hk; cases hk
        · rw [C20_non_ascii s ha] at hk; cases hk
      · cases hk
      · cases hk
    simp [Bind.bind, Except.bind, this]
  · simp only [Bind.bind, Except.bind, Pure.pure, Except.pure, hany]
    rcases findField fields h with _ | f <;> simp

/-- Texts that are not ASCII raise `UnicodeEncodeError` in all operations, even `in` and `get`. -/
theorem C23_non_ascii (fields : List BinField) (s : Str) (h : ¬ Ascii s) (f : BinField) :
    getField fields (.str s) = .error .unicode ∧ hasField fields (.str s) = .error .unicode ∧
    getFieldD fields (.str s) = .error .unicode ∧ getv fields (.str s) = .error .unicode ∧
    setField fields (.str s) f = .error .unicode := by
  have hk : binKeyHash (.str s) = .error .unicode := by simp only [binKeyHash]; rw [C20_non_ascii s h]; rfl
  have hg : getField fields (.str s) = .error .unicode := by unfold getField; rw [hk]; rfl
  refine ⟨hg, ?_, ?_, ?_, ?_⟩
  · unfold hasField; rw [hk]; rfl
  · unfold getFieldD; rw [hg]
  · unfold getv; rw [hg]
  · unfold setField; rw [hk]; rfl

/-- Texts that only differ by the case of ASCII letters designate the same field. -/
theorem C23_case (fields : List BinField) (s t : Str) (h : s.map Char.toLower = t.map Char.toLower) (f : BinField) :
    getField fields (.str s) = getField fields (.str t) ∧ hasField fields (.str s) = hasField fields (.str t) ∧
    setField fields (.str s) f = setField fields (.str t) f := by
  have hk : binKeyHash (.str s) = binKeyHash (.str t) := by simp only [binKeyHash]; rw [C20_case s t h]
  refine ⟨?_, ?_, ?_⟩
  · unfold getField; rw [hk]
  · unfold hasField; rw [hk]
  · unfold setField; rw [hk]

/-- Assigning a field of that name: it is then found under this key, the other keys are unaffected, and the fields
are the same ones in the same order, with this one replaced or appended. -/
theorem C23_set (fields : List BinField) (key : BinKey) (h : Nat) (hd : Designates key h) (v : BinField) (hv : v.name = h) :
    ∃ fields', setField fields key v = .ok fields' ∧
      (∀ key', Designates key' h → getField fields' key' = .ok v) ∧
      (∀ key' h', Designates key' h' → h' ≠ h → getField fields' key' = getField fields key') ∧
      ((∃ before f after, fields = before ++ f :: after ∧ f.name = h ∧ (∀ g ∈ before, g.name ≠ h) ∧
          fields' = before ++ v :: after) ∨
       ((∀ f ∈ fields, f.name ≠ h) ∧ fields' = fields ++ [v])) := by
  refine ⟨replaceField fields (some (h : Int)) v, ?_, ?_, ?_, ?_⟩
  · unfold setField; rw [hd.hash]; rfl
  · intro key' hd'
    unfold getField; rw [hd'.hash]
    simp only [Bind.bind, Except.bind, findField_get?, replaceField_set fields h v hv, Dict.get?_set_self]
    rfl
  · intro key' h' hd' hne
    unfold getField; rw [hd'.hash]
    simp only [Bind.bind, Except.bind, findField_get?, replaceField_set fields h v hv, Dict.get?_set_ne _ _ hne]
  · clear hd
    induction fields with
    | nil => right; exact ⟨by simp, rfl⟩
    | cons f fields ih =>
      rw [replaceField]
      by_cases hf : f.name = h
      · left
        rw [if_pos ((name_eq f h).2 hf)]
        exact ⟨[], f, fields, rfl, hf, by simp, rfl⟩
      · rw [if_neg (fun e => hf ((name_eq f h).1 e))]
        rcases ih with ⟨b, g, a, h1, h2, h3, h4⟩ | ⟨h1, h2⟩
        · left
          refine ⟨f :: b, g, a, by rw [h1]; rfl, h2, ?_, by rw [h4]; rfl⟩
          intro x hx
          rcases List.mem_cons.1 hx with rfl | hx
          · exact hf
          · exact h3 x hx
        · right
          refine ⟨?_, by rw [h2]; rfl⟩
          intro x hx
          rcases List.mem_cons.1 hx with rfl | hx
          · exact hf
          · exact h1 x hx

/-- A sequence of assignments -/
def assignAll (fields : List BinField) : List (BinKey × BinField) → Res (List BinField)
  | [] => .ok fields
  | (k, v) :: ops => do
    let fields' ← setField fields k v
    assignAll fields' ops

/-- After any sequence of assignments of fields under their names, a key gives the field of its last assignment,
and what it gave before when it was not assigned; the number of fields is that of before plus the number of new names. -/
theorem C23_history (fields : List BinField) (ops : List (BinKey × BinField))
    (ho : ∀ o ∈ ops, Designates o.1 o.2.name) :
    ∃ fields', assignAll fields ops = .ok fields' ∧
      (∀ key h, Designates key h → getField fields' key =
        match (ops.map (·.2)).reverse.find? (fun f => decide (f.name = h)) with
        | some f => .ok f
        | none => getField fields key) ∧
      (∃ added, fields'.map (·.name) = fields.map (·.name) ++ added ∧ added.Nodup ∧
        ∀ h, h ∈ added ↔ h ∈ ops.map (·.2.name) ∧ h ∉ fields.map (·.name)) := by
  induction ops generalizing fields with
  | nil => exact ⟨fields, rfl, fun _ _ _ => rfl, [], by simp⟩
  | cons o ops ih =>
    obtain ⟨k, v⟩ := o
    obtain ⟨f1, h1, h2, h3, h4⟩ := C23_set fields k v.name (ho (k, v) (List.mem_cons_self)) v rfl
    obtain ⟨f2, g1, g2, added, g3, g4, g5⟩ := ih f1 (fun o h => ho o (List.mem_cons_of_mem _ h))
    refine ⟨f2, by rw [assignAll, h1]; exact g1, ?_, ?_⟩
    · intro key h hd
      rw [g2 key h hd, List.map_cons, List.reverse_cons, List.find?_append]
      generalize (ops.map (·.2)).reverse.find? (fun f => decide (f.name = h)) = o
      rcases o with _ | f
      · simp only [Option.none_or]
        rw [List.find?_cons]
        by_cases hv : v.name = h
        · rw [decide_eq_true hv]
          simp only
          exact h2 key (hv ▸ hd)
        · rw [decide_eq_false hv]
          simp only [List.find?_nil]
          exact h3 key h hd (Ne.symm hv)
      · rfl
    · rcases h4 with ⟨b, f, a, e1, e2, e3, e4⟩ | ⟨e1, e2⟩
      · have hn : f1.map (·.name) = fields.map (·.name) := by rw [e4, e1]; simp [e2]
        refine ⟨added, by rw [g3, hn], g4, ?_⟩
        intro h
        rw [g5, hn, List.map_cons, List.mem_cons]
        constructor
        · rintro ⟨x1, x2⟩; exact ⟨Or.inr x1, x2⟩
        · rintro ⟨rfl | x1, x2⟩
          · exfalso; apply x2; rw [e1]; simp [e2]
          · exact ⟨x1, x2⟩
      · have hn : f1.map (·.name) = fields.map (·.name) ++ [v.name] := by rw [e2]; simp
        refine ⟨v.name :: added, by rw [g3, hn]; simp, ?_, ?_⟩
        · rw [List.nodup_cons]
          refine ⟨?_, g4⟩
          rw [g5, hn]; simp
        · intro h
          rw [List.mem_cons, g5, hn, List.map_cons, List.mem_cons, List.mem_append, List.mem_singleton]
          constructor
          · rintro (rfl | ⟨x1, x2⟩)
            · refine ⟨Or.inl rfl, ?_⟩
              intro hm
              obtain ⟨f, hf, hfe⟩ := List.mem_map.1 hm
              exact e1 f hf hfe
            · exact ⟨Or.inr x1, fun hm => x2 (Or.inl hm)⟩
          · rintro ⟨rfl | x1, x2⟩
            · exact Or.inl rfl
            · by_cases hv : h = v.name
              · exact Or.inl hv
              · exact Or.inr ⟨x1, by rintro (hm | hm); exact x2 hm; exact hv hm⟩

/-- `get_path` with one key is `getv`; with more keys, it goes through the struct of the first one. -/
theorem C23_path (fields : List BinField) (k : BinKey) :
    getPath fields [k] = getv fields k ∧
    (∀ f k' ks htype fields', getField fields k = .ok f →
      (f.value = .struct htype fields' ∨ f.value = .embedded htype fields') →
      getPath fields (k :: k' :: ks) = getPath fields' (k' :: ks)) ∧
    (∀ ks, getField fields k = .error .key → getPath fields (k :: ks) = .ok .default) := by
  refine ⟨?_, ?_, ?_⟩
  · simp only [getPath, getv]
    generalize getField fields k = r
    rcases r with e | f
    · cases e <;> rfl
    · rfl
  · intro f k' ks htype fields' h1 h2
    simp only [getPath]
    rw [h1]
    have : (do let f ← (Except.ok f : Res BinField); walkPath f.value (k' :: ks)) =
        (do let f ← getField fields' k'; walkPath f.value ks) := by
      simp only [Bind.bind, Except.bind, walkPath]
      rcases h2 with h2 | h2 <;> rw [h2] <;> simp only [BinValue.item] <;>
        rcases getField fields' k' with e | g <;> rfl
    rw [this]
  · intro ks h
    simp only [getPath]
    rw [h]
    rfl

/-! ## Values -/

/-- The first field of an object with a given hash -/
def FirstField (fields : List BinField) (h : Nat) (f : BinField) : Prop :=
  ∃ before after, fields = before ++ f :: after ∧ f.name = h ∧ ∀ g ∈ before, g.name ≠ h

/-- The value reached by successive fields, through structs -/
inductive Reaches : List BinField → List Nat → BinValue → Prop
  | last {fields h f} : FirstField fields h f → Reaches fields [h] f.value
  | struct {fields h f htype inner hs v} : FirstField fields h f → f.value = .struct htype inner → Reaches inner hs v → Reaches fields (h :: hs) v
  | embedded {fields h f htype inner hs v} : FirstField fields h f → f.value = .embedded htype inner → Reaches inner hs v → Reaches fields (h :: hs) v

/-- One of the fields is missing. -/
inductive NotReached : List BinField → List Nat → Prop
  | here {fields h hs} : (∀ f ∈ fields, f.name ≠ h) → NotReached fields (h :: hs)
  | struct {fields h f htype inner hs} : FirstField fields h f → f.value = .struct htype inner → NotReached inner hs → NotReached fields (h :: hs)
  | embedded {fields h f htype inner hs} : FirstField fields h f → f.value = .embedded htype inner → NotReached inner hs → NotReached fields (h :: hs)

/-- The Python value of a value: lists, maps and options are unwrapped. -/
inductive Unwrapped : BinValue → BinPy → Prop
  | list (t : BinType) (l : List BinValue) : Unwrapped (.list t l) (.list l)
  | map (k t : BinType) (l : List BinPair) : Unwrapped (.map k t l) (.dict l)
  | present (t : BinType) (v : BinValue) : Unwrapped (.option t (some v)) (.value v)
  | absent (t : BinType) : Unwrapped (.option t none) .none
  | other (v : BinValue) : (∀ t l, v ≠ .list t l) → (∀ k t l, v ≠ .map k t l) → (∀ t o, v ≠ .option t o) → Unwrapped v (.value v)

theorem unwrapped_iff (v : BinValue) (p : BinPy) : Unwrapped v p ↔ toPython v = p := by
  constructor
  · intro h
    cases h with
    | list | map | present | absent => rfl
    | other _ h1 h2 h3 =>
      unfold toPython
      split
      · exact absurd rfl (h1 _ _)
      · exact absurd rfl (h2 _ _ _)
      · exact absurd rfl (h3 _ _)
      · exact absurd rfl (h3 _ _)
      · rfl
  · rintro rfl
    unfold toPython
    split
    · exact .list _ _
    · exact .map _ _ _
    · exact .present _ _
    · exact .absent _
    · rename_i h1 h2 h3 h4
      refine .other _ h1 h2 ?_
      intro t o
      cases o with
      | none => exact h4 t
      | some v => exact h3 t v

/-- `get_path` gives the value reached by the keys, unwrapped, or the default value when a field is missing. -/
theorem C23_values (fields : List BinField) (keys : List BinKey) (hs : List Nat) (hd : List.Forall₂ Designates keys hs) :
    (∀ v, Reaches fields hs v → ∀ p, getPath fields keys = .ok p ↔ Unwrapped v p) ∧
    (NotReached fields hs → getPath fields keys = .ok .default) := by
  induction hd generalizing fields with
  | nil => exact ⟨fun v h => (nomatch h), fun h => (nomatch h)⟩
  | @cons k h ks hs hk hks ih =>
    have hget : ∀ f, FirstField fields h f → getField fields k = .ok f := fun f hf => ((C23_get fields k h hk).1 f).2 hf
    have hstep : ∀ f htype inner, FirstField fields h f → (f.value = .struct htype inner ∨ f.value = .embedded htype inner) → ks ≠ [] →
        getPath fields (k :: ks) = getPath inner ks := by
      intro f htype inner hf hv hne
      cases ks with
      | nil => exact absurd rfl hne
      | cons k' ks => exact (C23_path fields k).2.1 f k' ks htype inner (hget f hf) hv
    have hnil : ∀ inner v, Reaches inner hs v → ks ≠ [] := by
      rintro inner v hr rfl
      cases hks
      exact nomatch hr
    have hnil' : ∀ inner, NotReached inner hs → ks ≠ [] := by
      rintro inner hr rfl
      cases hks
      exact nomatch hr
    constructor
    · intro v hr p
      cases hr with
      | last hf =>
        cases hks
        rw [(C23_path fields k).1, ((C23_agree fields k).2.2.1 _ (hget _ hf)).2, unwrapped_iff, Except.ok.injEq]
      | struct hf hv hr =>
        rw [hstep _ _ _ hf (Or.inl hv) (hnil _ _ hr)]
        exact (ih _).1 v hr p
      | embedded hf hv hr =>
        rw [hstep _ _ _ hf (Or.inr hv) (hnil _ _ hr)]
        exact (ih _).1 v hr p
    · intro hr
      cases hr with
      | here hf => exact (C23_path fields k).2.2 ks ((C23_get fields k h hk).2.2 hf)
      | struct hf hv hr =>
        rw [hstep _ _ _ hf (Or.inl hv) (hnil' _ hr)]
        exact (ih _).2 hr
      | embedded hf hv hr =>
        rw [hstep _ _ _ hf (Or.inr hv) (hnil' _ hr)]
        exact (ih _).2 hr

/-- `getv` gives the value of the first field with this name, unwrapped. -/
theorem C23_getv (fields : List BinField) (key : BinKey) (h : Nat) (hd : Designates key h) (f : BinField) (hf : FirstField fields h f) (p : BinPy) :
    getv fields key = .ok p ↔ Unwrapped f.value p := by
  rw [((C23_agree fields key).2.2.1 f (((C23_get fields key h hd).1 f).2 hf)).2, unwrapped_iff, Except.ok.injEq]

/-- Non-vacuity: an option in a struct -/
example : getPath [.mk 5 .struct (.struct 1 [.mk 6 .option (.option .u8 none)])] [.hashed 5, .int 6] = .ok .none :=
  ((C23_values _ _ [5, 6] (.cons (.hashed 5) (.cons (.int 6) .nil))).1 (.option .u8 none)
    (.struct (f := .mk 5 .struct (.struct 1 [.mk 6 .option (.option .u8 none)])) ⟨[], [], rfl, rfl, by simp⟩ rfl
      (.last (f := .mk 6 .option (.option .u8 none)) ⟨[], [], rfl, rfl, by simp⟩)) .none).2 (.absent .u8)

/-- Non-vacuity -/
example : Designates (.str "mName".toList) (fnv1a (lowerBytes "MNAME".toList)).toNat ∧
    Designates (.hashed 5) 5 ∧
    (setField [.mk 5 .u8 (.int 1), .mk 6 .u8 (.int 2)] (.hashed 5) (.mk 5 .u8 (.int 9))) =
      .ok [.mk 5 .u8 (.int 9), .mk 6 .u8 (.int 2)] := by
  refine ⟨?_, .hashed 5, rfl⟩
  have : lowerBytes "mName".toList = lowerBytes "MNAME".toList := by decide +kernel
  rw [← this]
  exact .str _ (by decide +kernel)

end Cdtb
