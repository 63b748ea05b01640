import Verif.Lemmas.BinDecode2
import Verif.Lemmas.Bin
/-!
# Lemmas on the text of BIN files: values read from files have their types; lines
-/
namespace Cdtb
set_option autoImplicit false
open Py Spec

/-! ## What readers return -/

/-- What a reader returns, when it does -/
def RdPost {α : Type} (p : Rd α) (Q : α → Prop) : Prop := ∀ data pos a pos', p data pos = .ok (a, pos') → Q a

theorem RdPost.bind {α β : Type} {p : Rd α} {f : α → Rd β} {Q : α → Prop} {R : β → Prop} (hp : RdPost p Q) (hf : ∀ a, Q a → RdPost (f a) R) : RdPost (p >>= f) R := by
  intro data pos b pos' h
  simp only [Bind.bind] at h
  split at h
  · cases h
  · rename_i a p1 h1
    exact hf a (hp _ _ _ _ h1) _ _ _ _ h

theorem RdPost.any {α : Type} (p : Rd α) : RdPost p (fun _ => True) := fun _ _ _ _ _ => trivial

theorem RdPost.pure {α : Type} {a : α} {Q : α → Prop} (h : Q a) : RdPost (Pure.pure a : Rd α) Q := by
  rintro data pos b pos' he
  simp only [Pure.pure, Except.ok.injEq, Prod.mk.injEq] at he
  rw [← he.1]; exact h

theorem RdPost.skip {α β : Type} {p : Rd α} {f : α → Rd β} {R : β → Prop} (hf : ∀ a, RdPost (f a) R) : RdPost (p >>= f) R :=
  (RdPost.any p).bind (fun a _ => hf a)

theorem RdPost.as {α β : Type} {p : Rd α} {f : α → β} {R : β → Prop} (h : ∀ a, R (f a)) : RdPost (Rd.as p f) R :=
  RdPost.skip (fun a => RdPost.pure (h a))

theorem RdPost.times {α : Type} {p : Rd α} {Q : α → Prop} (hp : RdPost p Q) : ∀ n, RdPost (Rd.times p n) (fun l => ∀ x ∈ l, Q x)
  | 0 => by
    rw [Rd.times]; exact RdPost.pure (by simp)
  | n + 1 => by
    rw [Rd.times]
    exact hp.bind (fun a ha => (RdPost.times hp n).bind (fun l hl => RdPost.pure (by
      intro x hx
      rcases List.mem_cons.1 hx with rfl | hx
      · exact ha
      · exact hl x hx)))

theorem RdPost.forList {α β : Type} {p : α → Rd β} {Q : β → Prop} (hp : ∀ a, RdPost (p a) Q) : ∀ l, RdPost (Rd.forList p l) (fun l => ∀ x ∈ l, Q x)
  | [] => RdPost.pure (by simp)
  | a :: l => (hp a).bind (fun b hb => (RdPost.forList hp l).bind (fun r hr => RdPost.pure (by
      intro x hx
      rcases List.mem_cons.1 hx with rfl | hx
      · exact hb
      · exact hr x hx)))

/-! ## Types of values read -/

theorem haveType_iff {t : BinType} : ∀ {vs : List BinValue}, AllOfType t vs ↔ ∀ v ∈ vs, OfType t v
  | [] => ⟨fun _ => by simp, fun _ => .nil⟩
  | v :: vs => by
    constructor
    · intro h
      have h1 : OfType t v := by cases h; assumption
      have h2 : AllOfType t vs := by cases h; assumption
      intro x hx
      rcases List.mem_cons.1 hx with rfl | hx
      · exact h1
      · exact haveType_iff.1 h2 x hx
    · intro h
      exact .cons (h v (by simp)) (haveType_iff.2 (fun x hx => h x (by simp [hx])))

theorem fieldsTyped_iff : ∀ {fs : List BinField}, FieldsTyped fs ↔ ∀ f ∈ fs, OfType f.type f.value
  | [] => ⟨fun _ => by simp, fun _ => .nil⟩
  | .mk n t v :: fs => by
    constructor
    · intro h
      have h1 : OfType t v := by cases h; assumption
      have h2 : FieldsTyped fs := by cases h; assumption
      intro x hx
      rcases List.mem_cons.1 hx with rfl | hx
      · exact h1
      · exact fieldsTyped_iff.1 h2 x hx
    · intro h
      exact .cons (h (.mk n t v) (by simp)) (fieldsTyped_iff.2 (fun x hx => h x (by simp [hx])))

theorem pairsTyped_iff {kt vt : BinType} : ∀ {ps : List BinPair}, PairsTyped kt vt ps ↔ ∀ p ∈ ps, OfType kt p.key ∧ OfType vt p.value
  | [] => ⟨fun _ => by simp, fun _ => .nil⟩
  | .mk k v :: ps => by
    constructor
    · intro h
      have h0 : OfType kt k := by cases h; assumption
      have h1 : OfType vt v := by cases h; assumption
      have h2 : PairsTyped kt vt ps := by cases h; assumption
      intro x hx
      rcases List.mem_cons.1 hx with rfl | hx
      · exact ⟨h0, h1⟩
      · exact pairsTyped_iff.1 h2 x hx
    · intro h
      have := h (.mk k v) (by simp)
      exact .cons this.1 this.2 (pairsTyped_iff.2 (fun x hx => h x (by simp [hx])))

theorem mem_mapSet {d : List BinPair} {k v : BinValue} {Q : BinValue → Prop} {R : BinValue → Prop} (hd : ∀ p ∈ d, Q p.key ∧ R p.value) (hk : Q k) (hv : R v) :
    ∀ p ∈ mapSet d k v, Q p.key ∧ R p.value := by
  induction d with
  | nil => intro p hp; simp only [mapSet, List.mem_singleton] at hp; subst hp; exact ⟨hk, hv⟩
  | cons p d ih =>
    obtain ⟨k', v'⟩ := p
    have h0 := hd (.mk k' v') (by simp)
    unfold mapSet
    intro p hp
    split at hp
    · rcases List.mem_cons.1 hp with rfl | hp
      · exact ⟨h0.1, hv⟩
      · exact hd p (by simp [hp])
    · rcases List.mem_cons.1 hp with rfl | hp
      · exact h0
      · exact ih (fun p hp => hd p (by simp [hp])) p hp

theorem mem_mapOfList {l : List BinPair} {Q R : BinValue → Prop} (h : ∀ p ∈ l, Q p.key ∧ R p.value) : ∀ p ∈ mapOfList l, Q p.key ∧ R p.value := by
  have : ∀ (l d : List BinPair), (∀ p ∈ l, Q p.key ∧ R p.value) → (∀ p ∈ d, Q p.key ∧ R p.value) →
      ∀ p ∈ l.foldl (fun d p => mapSet d p.key p.value) d, Q p.key ∧ R p.value := by
    intro l
    induction l with
    | nil => intro d _ hd; exact hd
    | cons a l ih =>
      intro d hl hd
      have ha := hl a (by simp)
      exact ih _ (fun p hp => hl p (by simp [hp])) (mem_mapSet hd ha.1 ha.2)
  exact this l [] h (by simp)

theorem binField_post {version : Nat} {rv : BinType → Rd BinValue} (hrv : ∀ t, RdPost (rv t) (OfType t)) :
    RdPost (binField version rv) (fun f => OfType f.type f.value) := by
  unfold binField
  exact RdPost.skip fun _ => RdPost.skip fun _ => RdPost.skip fun t => (hrv t).bind fun v hv => RdPost.pure hv

theorem binValue_post (version : Nat) : ∀ fuel t, RdPost (binValue version fuel t) (OfType t) := by
  intro fuel
  induction fuel with
  | zero => intro t data pos a pos' h; simp [binValue, Rd.fail] at h
  | succ fuel ih =>
    have hlist : ∀ t, binShape t = .list → RdPost (binList version (binValue version fuel)) (OfType t) := by
      intro t ht
      unfold binList
      exact RdPost.skip fun _ => RdPost.skip fun _ => RdPost.skip fun c => RdPost.skip fun vt => (RdPost.times (ih vt) c).bind fun vs hvs =>
        RdPost.pure (.list ht (haveType_iff.2 hvs))
    intro t
    cases t with
    | empty => exact RdPost.as (fun a => .tuple rfl)
    | bool => exact RdPost.as (fun a => .bool rfl)
    | s8 => exact RdPost.as (fun a => .int rfl)
    | u8 => exact RdPost.as (fun a => .int rfl)
    | s16 => exact RdPost.as (fun a => .int rfl)
    | u16 => exact RdPost.as (fun a => .int rfl)
    | s32 => exact RdPost.as (fun a => .int rfl)
    | u32 => exact RdPost.as (fun a => .int rfl)
    | s64 => exact RdPost.as (fun a => .int rfl)
    | u64 => exact RdPost.as (fun a => .int rfl)
    | float => exact RdPost.as (fun a => .float rfl)
    | vec2 => exact RdPost.as (fun a => .floats rfl)
    | vec3 => exact RdPost.as (fun a => .floats rfl)
    | vec4 => exact RdPost.as (fun a => .floats rfl)
    | matrix => exact RdPost.as (fun a => .matrix rfl)
    | rgba => exact RdPost.as (fun a => .tuple rfl)
    | string => exact RdPost.as (fun a => .str rfl)
    | hash => exact RdPost.as (fun a => .hashed rfl)
    | path => exact RdPost.as (fun a => .hashed rfl)
    | list => exact hlist _ rfl
    | list2 => exact hlist _ rfl
    | link => exact RdPost.as (fun a => .hashed rfl)
    | flag => exact RdPost.as (fun a => .int rfl)
    | embedded =>
      show RdPost (binEmbedded version (binValue version fuel)) _
      unfold binEmbedded
      exact RdPost.skip fun _ => RdPost.skip fun _ => RdPost.skip fun c => (RdPost.times (binField_post ih) c).bind fun fs hfs =>
        RdPost.pure (.embedded rfl (fieldsTyped_iff.2 hfs))
    | struct =>
      show RdPost (binStruct version (binValue version fuel)) _
      unfold binStruct
      refine RdPost.skip fun h => ?_
      by_cases h0 : h = 0
      · subst h0
        refine RdPost.bind (Q := fun n => n = 0) ?_ ?_
        · unfold binStructCount; rw [if_pos rfl]; exact RdPost.pure rfl
        · rintro c rfl
          refine RdPost.bind (Q := fun l => l = []) ?_ ?_
          · rw [Rd.times]; exact RdPost.pure rfl
          · rintro l rfl; exact RdPost.pure (.null rfl)
      · exact RdPost.skip fun c => (RdPost.times (binField_post ih) c).bind fun fs hfs => RdPost.pure (.struct rfl h0 (fieldsTyped_iff.2 hfs))
    | option =>
      show RdPost (binOption version (binValue version fuel)) _
      unfold binOption
      refine RdPost.skip fun _ => RdPost.skip fun has => RdPost.skip fun vt => ?_
      cases has with
      | true =>
        refine RdPost.bind (Q := fun o => ∃ v, o = some v ∧ OfType vt v) ((ih vt).bind fun v hv => RdPost.pure ⟨v, rfl, hv⟩) ?_
        rintro o ⟨v, rfl, hv⟩; exact RdPost.pure (.something rfl hv)
      | false => exact RdPost.bind (Q := fun o => o = none) (RdPost.pure rfl) (by rintro o rfl; exact RdPost.pure (.nothing rfl))
    | map =>
      show RdPost (binMap version (binValue version fuel)) _
      unfold binMap
      refine RdPost.skip fun _ => RdPost.skip fun _ => RdPost.skip fun _ => RdPost.skip fun c => RdPost.skip fun kt => RdPost.skip fun vt => ?_
      have hp : RdPost (binPair (binValue version fuel kt) (binValue version fuel vt)) (fun p => OfType kt p.key ∧ OfType vt p.value) := by
        unfold binPair
        exact (ih kt).bind fun k hk => (ih vt).bind fun v hv => RdPost.pure ⟨hk, hv⟩
      exact (RdPost.times hp c).bind fun l hl => RdPost.pure (.map rfl (pairsTyped_iff.2 (mem_mapOfList hl)))

theorem dict_mem_set {K V : Type} [DecidableEq K] {d : Dict K V} {k : K} {v : V} {e : K × V} (h : e ∈ d.set k v) : e ∈ d ∨ e = (k, v) := by
  induction d with
  | nil => simp only [Dict.set, List.mem_singleton] at h; exact .inr h
  | cons a d ih =>
    obtain ⟨k', v'⟩ := a
    unfold Dict.set at h
    split at h
    · rcases List.mem_cons.1 h with h | h
      · exact .inr (by rw [h]; simp_all)
      · exact .inl (by simp [h])
    · rcases List.mem_cons.1 h with h | h
      · exact .inl (by simp [h])
      · rcases ih h with h | h
        · exact .inl (by simp [h])
        · exact .inr h

theorem patchGroups_typed {items : List (Nat × BinPatchField)} (h : ∀ x ∈ items, OfType x.2.type x.2.value) :
    ∀ e ∈ items.foldl patchGroup [], ∀ x ∈ e.2, OfType x.type x.value := by
  have key : ∀ (items : List (Nat × BinPatchField)) (d : Dict Nat (List BinPatchField)), (∀ x ∈ items, OfType x.2.type x.2.value) →
      (∀ e ∈ d, ∀ x ∈ e.2, OfType x.type x.value) → ∀ e ∈ items.foldl patchGroup d, ∀ x ∈ e.2, OfType x.type x.value := by
    intro items
    induction items with
    | nil => intro d _ hd; exact hd
    | cons a l ih =>
      intro d hl hd
      refine ih _ (fun x hx => hl x (by simp [hx])) ?_
      intro e he x hx
      unfold patchGroup at he
      rcases dict_mem_set he with he | he
      · exact hd e he x hx
      · subst he
        simp only [List.mem_append, List.mem_singleton] at hx
        rcases hx with hx | rfl
        · cases hg : Dict.get? d a.1 with
          | none => rw [hg] at hx; simp at hx
          | some l0 => rw [hg] at hx; exact hd (a.1, l0) (Dict.mem_of_get? hg) x hx
        · exact hl a (by simp)
  exact key items [] h (by simp)

theorem parseBinFuel_post (fuel : Nat) (btype : Option Nat) : RdPost (parseBinFuel fuel btype) FileTyped := by
  have hrv := binValue_post (btypeVersion btype) fuel
  unfold parseBinFuel
  refine RdPost.skip fun _ => RdPost.skip fun _ => RdPost.skip fun _ => RdPost.skip fun version => RdPost.skip fun linked => RdPost.skip fun c => RdPost.skip fun ts => ?_
  have he : ∀ t, RdPost (binEntry (binField (btypeVersion btype) (binValue (btypeVersion btype) fuel)) t) (fun e => FieldsTyped e.fields) := by
    intro t
    unfold binEntry
    exact RdPost.skip fun _ => RdPost.skip fun _ => RdPost.skip fun _ => RdPost.skip fun c => (RdPost.times (binField_post hrv) c).bind fun fs hfs =>
      RdPost.skip fun _ => RdPost.skip fun _ => RdPost.pure (fieldsTyped_iff.2 hfs)
  refine (RdPost.forList he ts).bind fun es hes => ?_
  refine RdPost.bind (Q := fun (o : Option (List BinPatchEntry)) => ∀ e ∈ o.getD [], ∀ x ∈ e.fields, OfType x.type x.value) ?_ (fun o ho => RdPost.pure ⟨hes, ho⟩)
  unfold binPatchSection
  split
  · refine RdPost.bind (Q := fun (o : List BinPatchEntry) => ∀ e ∈ o, ∀ x ∈ e.fields, OfType x.type x.value) ?_ (fun o ho => RdPost.pure ho)
    unfold binPatches
    refine RdPost.skip fun c => ?_
    have hi : RdPost (binPatchItem (btypeVersion btype) (binValue (btypeVersion btype) fuel)) (fun x => OfType x.2.type x.2.value) := by
      unfold binPatchItem
      exact RdPost.skip fun _ => RdPost.skip fun _ => RdPost.skip fun _ => RdPost.skip fun t => RdPost.skip fun _ => (hrv t).bind fun v hv => RdPost.pure hv
    refine (RdPost.times hi c).bind fun items hitems => RdPost.pure ?_
    intro e he x hx
    obtain ⟨g, hg, rfl⟩ := List.mem_map.1 he
    exact patchGroups_typed hitems g hg x hx
  · exact RdPost.pure (by simp)

/-! ## Lines -/

/-- After each line break, a space or the end of a list or of a map -/
def Deep (s : Str) : Prop := ∀ a b, s = a ++ '\n' :: b → ∃ c t, b = c :: t ∧ c ∈ [' ', ']', '}']

theorem deep_nonl {s : Str} (h : '\n' ∉ s) : Deep s := by
  intro a b he
  exact absurd (by rw [he]; simp) h

theorem Deep.append {s t : Str} (hs : Deep s) (ht : Deep t) : Deep (s ++ t) := by
  intro a b h
  rcases List.append_eq_append_iff.1 h with ⟨w, rfl, h2⟩ | ⟨w, rfl, h2⟩
  · exact ht w b h2
  · cases w with
    | nil => exact ht [] b (by simpa using h2.symm)
    | cons c w =>
      simp only [List.cons_append, List.cons.injEq] at h2
      obtain ⟨rfl, rfl⟩ := h2
      obtain ⟨c, t', rfl, hc⟩ := hs a w rfl
      exact ⟨c, t' ++ t, rfl, hc⟩

theorem deep_newline {d : Nat} {c : Char} {s : Str} (hc : c ∈ [' ', ']', '}']) (h : Deep (c :: s)) : Deep (newline d ++ c :: s) := by
  intro a b he
  unfold newline at he
  cases a with
  | nil =>
    simp only [List.cons_append, List.nil_append, List.cons.injEq, true_and] at he
    subst he
    cases d with
    | zero => exact ⟨c, s, rfl, hc⟩
    | succ d => exact ⟨' ', _, by rw [show 2 * (d + 1) = 2 * d + 1 + 1 by omega, List.replicate_succ]; rfl, by simp⟩
  | cons x a =>
    simp only [List.cons_append, List.cons.injEq] at he
    exact (Deep.append (deep_nonl (s := List.replicate (2 * d) ' ') (by simp)) h) a b he.2

theorem deep_line {d : Nat} {s : Str} (h : Deep s) : Deep (newline (d + 1) ++ s) := by
  rw [newline_succ, List.append_assoc]
  refine deep_newline (c := ' ') (by simp) ?_
  exact Deep.append (s := [' ', ' ']) (deep_nonl (by decide)) h

theorem deep_list {d : Nat} {items : List Str} (h : ∀ s ∈ items, Deep s) : Deep (listAt d items) := by
  unfold listAt
  split
  · exact deep_nonl (by decide +kernel)
  · have h1 : Deep (items.flatMap fun s => newline (d + 1) ++ s) := by
      clear * - h
      induction items with
      | nil => exact deep_nonl (by simp)
      | cons a l ih =>
        rw [List.flatMap_cons]
        exact (deep_line (h a (by simp))).append (ih (fun s hs => h s (by simp [hs])))
    rw [List.append_assoc]
    exact ((deep_nonl (s := "[".toList) (by decide +kernel)).append h1).append (deep_newline (c := ']') (by simp) (deep_nonl (s := "]".toList) (by decide +kernel)))

theorem deep_wrap {v : BinValue} {s : Str} (h : Deep s) : Deep (wrapRepr v s) := by
  have key : ∀ a b : Str, '\n' ∉ a → '\n' ∉ b → Deep (a ++ s ++ b) := fun a b ha hb => ((deep_nonl ha).append h).append (deep_nonl hb)
  unfold wrapRepr
  split
  · exact key _ _ (by decide +kernel) (by decide +kernel)
  · exact key _ _ (by decide +kernel) (by decide +kernel)
  · exact key _ _ (by decide +kernel) (by decide +kernel)
  · exact key _ _ (by decide +kernel) (by decide +kernel)
  · exact key _ _ (by decide +kernel) (by decide +kernel)
  · exact h

theorem deep_typed {t : BinType} {v : BinValue} {s : Str} (h : Deep s) : Deep (typedText t v s) := by
  have key : ∀ a : Str, '\n' ∉ a → Deep (a ++ s) := fun a ha => (deep_nonl ha).append h
  unfold typedText
  split
  · exact key _ (typeName_nonl t)
  · exact key _ (by decide +kernel)
  · exact key _ (by decide +kernel)
  · exact key _ (by decide +kernel)
  · exact key _ (by decide +kernel)
  · refine key _ ?_
    rw [List.mem_append, not_or]
    exact ⟨typeName_nonl t, by decide +kernel⟩

section
variable {lib : DumpLib}

mutual
theorem deep_text (hf : FloatTexts lib.floatRepr) (hn : ClearNames lib.known) (d : Nat) : ∀ v, ClearValue lib.known v → Deep (textAt lib d v)
  | .tuple l, _ => by simp only [textAt]; exact deep_nonl ((atom_nonl hf).1 _)
  | .bool b, _ => by simp only [textAt]; exact deep_nonl ((atom_nonl hf).2.1 _)
  | .int n, _ => by simp only [textAt]; exact deep_nonl ((atom_nonl hf).2.2.1 _)
  | .float b, _ => by simp only [textAt]; exact deep_nonl ((atom_nonl hf).2.2.2.1 _)
  | .floats l, _ => by simp only [textAt]; exact deep_nonl ((atom_nonl hf).2.2.2.2.1 _)
  | .matrix l, _ => by simp only [textAt]; exact deep_nonl ((atom_nonl hf).2.2.2.2.2.1 _)
  | .str s, _ => by simp only [textAt]; exact deep_nonl ((atom_nonl hf).2.2.2.2.2.2.1 _)
  | .hashed k h, _ => by simp only [textAt]; exact deep_nonl ((atom_nonl hf).2.2.2.2.2.2.2 _ _)
  | .list vt vs, h => by
    have h' : ClearValues lib.known vs := by cases h; assumption
    simp only [textAt]
    exact (((deep_nonl (by decide +kernel)).append (deep_nonl (typeName_nonl vt))).append (deep_nonl (by decide +kernel))).append (deep_list (deep_items hf hn (d + 1) vs h'))
  | .struct h fs, hc => by
    have h' : ClearFields lib.known fs := by cases hc; assumption
    have hw := hashStr_nonl (lib := lib) (k := .type) (h := h) (fun s hs => (hn.word _ _ _ hs (.inr rfl)).2.1)
    simp only [textAt]
    split
    · exact deep_nonl (by decide +kernel)
    · exact ((deep_nonl hw).append (deep_nonl (by decide +kernel))).append (deep_list (deep_fields hf hn (d + 1) fs h'))
  | .embedded h fs, hc => by
    have h' : ClearFields lib.known fs := by cases hc; assumption
    have hw := hashStr_nonl (lib := lib) (k := .type) (h := h) (fun s hs => (hn.word _ _ _ hs (.inr rfl)).2.1)
    simp only [textAt]
    exact ((deep_nonl hw).append (deep_nonl (by decide +kernel))).append (deep_list (deep_fields hf hn (d + 1) fs h'))
  | .option vt none, _ => by
    simp only [textAt]
    exact ((deep_nonl (by decide +kernel)).append (deep_nonl (typeName_nonl vt))).append (deep_nonl (by decide +kernel))
  | .option vt (some v), h => by
    have h' : ClearValue lib.known v := by cases h; assumption
    simp only [textAt]
    exact (((deep_nonl (by decide +kernel)).append (deep_nonl (typeName_nonl vt))).append (deep_nonl (by decide +kernel))).append (deep_wrap (deep_text hf hn d v h'))
  | .map kt vt ps, h => by
    have h' : ClearPairs lib.known ps := by cases h; assumption
    simp only [textAt]
    rw [List.append_assoc _ (newline d)]
    exact ((((((deep_nonl (by decide +kernel)).append (deep_nonl (typeName_nonl kt))).append (deep_nonl (by decide +kernel))).append (deep_nonl (typeName_nonl vt))).append
      (deep_nonl (by decide +kernel))).append (deep_pairs hf hn d ps h')).append (deep_newline (c := '}') (by simp) (deep_nonl (s := "}".toList) (by decide +kernel)))
theorem deep_items (hf : FloatTexts lib.floatRepr) (hn : ClearNames lib.known) (d : Nat) : ∀ vs, ClearValues lib.known vs → ∀ s ∈ itemsAt lib d vs, Deep s
  | [], _ => by simp [itemsAt]
  | v :: vs, h => by
    have h1 : ClearValue lib.known v := by cases h; assumption
    have h2 : ClearValues lib.known vs := by cases h; assumption
    intro s hs
    simp only [itemsAt, List.mem_cons] at hs
    rcases hs with rfl | hs
    · exact deep_wrap (deep_text hf hn d v h1)
    · exact deep_items hf hn d vs h2 s hs
theorem deep_fields (hf : FloatTexts lib.floatRepr) (hn : ClearNames lib.known) (d : Nat) : ∀ fs, ClearFields lib.known fs → ∀ s ∈ fieldsAt lib d fs, Deep s
  | [], _ => by simp [fieldsAt]
  | .mk n t v :: fs, h => by
    have h1 : ClearValue lib.known v := by cases h; assumption
    have h2 : ClearFields lib.known fs := by cases h; assumption
    have hw := hashStr_nonl (lib := lib) (k := .field) (h := n) (fun s hs => (hn.word _ _ _ hs (.inl rfl)).2.1)
    intro s hs
    simp only [fieldsAt, List.mem_cons] at hs
    rcases hs with rfl | hs
    · exact ((((deep_nonl (by decide +kernel)).append (deep_nonl hw)).append (deep_nonl (by decide +kernel))).append (deep_typed (deep_text hf hn d v h1))).append
        (deep_nonl (by decide +kernel))
    · exact deep_fields hf hn d fs h2 s hs
theorem deep_pairs (hf : FloatTexts lib.floatRepr) (hn : ClearNames lib.known) (d : Nat) : ∀ ps, ClearPairs lib.known ps → Deep (pairsAt lib (d + 1) ps)
  | [], _ => by simp only [pairsAt]; exact deep_nonl (by simp)
  | .mk k v :: ps, h => by
    have h0 : ClearKey lib.known k := by cases h; assumption
    have h1 : ClearValue lib.known v := by cases h; assumption
    have h2 : ClearPairs lib.known ps := by cases h; assumption
    simp only [pairsAt]
    exact (((deep_line (deep_nonl (keyStr_nonl hf h0))).append (deep_nonl (by decide +kernel))).append (deep_wrap (deep_text hf hn (d + 1) v h1))).append (deep_pairs hf hn d ps h2)
end

end

/-- The lines of a text that start with `<` -/
def openLines (s : Str) : List Str := (splitChar '\n' s).filter fun l => startsWith l ['<']

theorem startsWith_open (l : Str) : startsWith l ['<'] = true ↔ l.head? = some '<' := by
  cases l with
  | nil => simp [startsWith]
  | cons c l => simp only [startsWith, List.isPrefixOf, Bool.and_true, beq_iff_eq, List.head?_cons, Option.some.injEq]; exact eq_comm

/-- The lines of one paragraph: the first one, then lines that do not count -/
theorem openLines_paragraph {a b rest : Str} (ha : '\n' ∉ a) (ha' : a.head? = some '<') (hb : b = [] ∨ b.head? = some '\n') (hd : Deep b) :
    openLines (a ++ b ++ '\n' :: rest) = a :: openLines rest := by
  have key : ∀ n (b : Str), b.length ≤ n → (b = [] ∨ b.head? = some '\n') → Deep b → ∀ a : Str, '\n' ∉ a →
      openLines (a ++ b ++ '\n' :: rest) = [a].filter (fun l => startsWith l ['<']) ++ openLines rest := by
    intro n
    induction n with
    | zero =>
      intro b hn _ _ a ha
      have : b = [] := List.length_eq_zero_iff.1 (by omega)
      subst this
      unfold openLines
      rw [List.append_nil, splitChar_append ha]; exact List.filter_append [a] _
    | succ n ih =>
      intro b hn hb hd a ha
      rcases hb with rfl | hb
      · unfold openLines
        rw [List.append_nil, splitChar_append ha]; exact List.filter_append [a] _
      · cases b with
        | nil => simp at hb
        | cons c b =>
          simp only [List.head?_cons, Option.some.injEq] at hb
          subst hb
          obtain ⟨c, t, rfl, hc⟩ := hd [] b rfl
          have hsplit : c :: t = (c :: t).takeWhile (fun x => decide (x ≠ '\n')) ++ (c :: t).dropWhile (fun x => decide (x ≠ '\n')) := (List.takeWhile_append_dropWhile).symm
          generalize hA : (c :: t).takeWhile (fun x => decide (x ≠ '\n')) = A at hsplit
          generalize hB : (c :: t).dropWhile (fun x => decide (x ≠ '\n')) = B at hsplit
          have hA1 : '\n' ∉ A := by
            intro hx
            rw [← hA] at hx
            have := List.all_eq_true.1 (List.all_takeWhile (p := fun x => decide (x ≠ '\n')) (l := c :: t)) _ hx
            simp at this
          have hc1 : c ≠ '\n' := by rintro rfl; simp at hc
          have hA2 : A.head? = some c := by
            rw [← hA, List.takeWhile_cons, if_pos (by simpa using hc1)]; rfl
          have hA3 : [A].filter (fun l => startsWith l ['<']) = [] := by
            have : startsWith A ['<'] = false := by
              by_contra hx
              simp only [Bool.not_eq_false, startsWith_open] at hx
              rw [hA2] at hx
              simp only [Option.some.injEq] at hx
              subst hx
              simp at hc
            simp [this]
          have hB1 : B = [] ∨ B.head? = some '\n' := by
            cases hB' : B with
            | nil => exact .inl rfl
            | cons x B' =>
              right
              have := List.head?_dropWhile_not (fun x => decide (x ≠ '\n')) (c :: t)
              rw [hB, hB'] at this
              simpa using this
          have hB2 : Deep B := by
            intro p q hpq
            exact hd ('\n' :: A ++ p) q (by rw [hsplit, hpq]; simp)
          have hlen : B.length ≤ n := by
            have := congrArg List.length hsplit
            simp only [List.length_cons, List.length_append] at this hn
            omega
          have := ih B hlen hB1 hB2 A hA1
          rw [hA3, List.nil_append] at this
          rw [hsplit, ← this]
          unfold openLines
          rw [List.append_assoc, List.cons_append, splitChar_append ha]; exact List.filter_append [a] _
  rw [key b.length b (Nat.le_refl _) hb hd a ha]
  simp [(startsWith_open a).2 ha']

end Cdtb
