import Verif.Model.GameJson
import Verif.Spec.GameJson
import Verif.Lemmas.JsonText
/-!
# Lemmas on the JSON files of TFT and Arena data
-/
namespace Cdtb
set_option autoImplicit false
open Py Spec

/-! ## Sorted keys -/

theorem gj_bind {α β : Type} (x : Res α) (f : α → Res β) (y : β) : (x >>= f) = .ok y ↔ ∃ a, x = .ok a ∧ f a = .ok y := by
  cases x with
  | error e => simp [bind, Except.bind]
  | ok a => simp [bind, Except.bind]

theorem gj_list (num : Nat → Str) (name : Ser → Str) (l : List Ser) : jsonList num name l = l.map (jsonOf num name) := by
  induction l with
  | nil => rfl
  | cons s l ih => rw [jsonList, ih]; rfl

theorem gj_obj (num : Nat → Str) (name : Ser → Str) (l : List (Str × Ser)) : jsonObj num name l = l.map fun kv => (kv.1, jsonOf num name kv.2) := by
  induction l with
  | nil => rfl
  | cons s l ih => rw [jsonObj, ih]; rfl

theorem gj_dict (num : Nat → Str) (name : Ser → Str) (l : List (Ser × Ser)) : jsonDict num name l = l.map fun kv => (name kv.1, jsonOf num name kv.2) := by
  induction l with
  | nil => rfl
  | cons s l ih => rw [jsonDict, ih]; rfl

theorem sortItems_perm {d d' : List (Ser × Ser)} (h : sortItems d = .ok d') : d.Perm d' := by
  unfold sortItems at h
  split at h
  · cases h; exact .refl _
  · split at h
    · cases h; exact (List.perm_insertionSort _ _).symm
    · split at h
      · cases h; exact (List.perm_insertionSort _ _).symm
      · cases h

theorem Ser.text_name {name : Ser → Str} (hs : ∀ s, name (.str s) = s) {k : Ser} (h : k.text?.isSome = true) : k.text?.getD [] = name k := by
  cases k <;> first | (cases h; done) | skip
  exact (hs _).symm

theorem Ser.int_name {name : Ser → Str} (hi : ∀ n, name (.int n) = showInt n) {k : Ser} (h : k.int?.isSome = true) : showInt (k.int?.getD 0) = name k := by
  cases k <;> first | (cases h; done) | skip
  exact (hi _).symm

theorem sortItems_ordered {name : Ser → Str} (hs : ∀ s, name (.str s) = s) (hi : ∀ n, name (.int n) = showInt n) {d d' : List (Ser × Ser)} (h : sortItems d = .ok d') :
    OrderedNames (d'.map fun kv => name kv.1) := by
  have hp := sortItems_perm h
  unfold sortItems at h
  split at h
  · rename_i hl
    cases h
    left
    match d, hl with
    | [], _ => exact .nil
    | [x], _ => simp
  · split at h
    · rename_i ht
      cases h
      left
      have hs' := List.pairwise_insertionSort (fun a b : Ser × Ser => a.1.text?.getD [] ≤ b.1.text?.getD []) d
      rw [List.pairwise_map]
      refine hs'.imp_of_mem ?_
      intro a b ha hb hab
      rw [List.all_eq_true] at ht
      have ta := ht a (hp.symm.subset ha)
      have tb := ht b (hp.symm.subset hb)
      rw [Ser.text_name hs ta, Ser.text_name hs tb] at hab
      exact hab
    · split at h
      · rename_i ht
        cases h
        right
        have hs' := List.pairwise_insertionSort (fun a b : Ser × Ser => a.1.int?.getD 0 ≤ b.1.int?.getD 0) d
        refine ⟨(d.insertionSort fun a b => a.1.int?.getD 0 ≤ b.1.int?.getD 0).map fun kv => kv.1.int?.getD 0, ?_, ?_⟩
        · rw [List.map_map]
          apply List.map_congr_left
          intro a ha
          rw [List.all_eq_true] at ht
          have ta := ht a (hp.symm.subset ha)
          exact (Ser.int_name hi ta).symm
        · rw [List.pairwise_map]
          exact hs'
      · cases h

/-- What sorting does, for one value -/
def SortedAs (num : Nat → Str) (name : Ser → Str) (s s' : Ser) : Prop :=
  SameJson (jsonOf num name s) (jsonOf num name s') ∧ OrderedJson (jsonOf num name s')

theorem ordered_nums {α : Type} (f : α → Str) (l : List α) : OrderedJson (.arr (l.map fun x => .num (f x))) := by
  apply OrderedJson.arr
  intro v hv
  obtain ⟨x, -, rfl⟩ := List.mem_map.1 hv
  exact .num _

theorem sameJson_forall₂ {num : Nat → Str} {name : Ser → Str} {l l' : List Ser} (h : List.Forall₂ (SortedAs num name) l l') :
    List.Forall₂ SameJson (l.map (jsonOf num name)) (l'.map (jsonOf num name)) := by
  rw [List.forall₂_map_left_iff, List.forall₂_map_right_iff]
  exact h.imp fun _ _ h => h.1

theorem ordered_forall₂ {num : Nat → Str} {name : Ser → Str} {l l' : List Ser} (h : List.Forall₂ (SortedAs num name) l l') :
    ∀ s ∈ l', OrderedJson (jsonOf num name s) := by
  induction h with
  | nil => simp
  | cons h _ ih =>
    intro s hs
    rcases List.mem_cons.1 hs with rfl | hs
    · exact h.2
    · exact ih s hs

mutual
theorem sortKeys_sorted (num : Nat → Str) (name : Ser → Str) (hs : ∀ s, name (.str s) = s) (hi : ∀ n, name (.int n) = showInt n) :
    ∀ s s', sortKeys s = .ok s' → SortedAs num name s s'
  | .none, s', h => by cases h; exact ⟨.same _, .null⟩
  | .bool b, s', h => by cases h; exact ⟨.same _, .bool _⟩
  | .int n, s', h => by cases h; exact ⟨.same _, .num _⟩
  | .float b, s', h => by cases h; exact ⟨.same _, .num _⟩
  | .tuple l, s', h => by cases h; exact ⟨.same _, ordered_nums _ _⟩
  | .floats l, s', h => by cases h; exact ⟨.same _, ordered_nums _ _⟩
  | .matrix rows, s', h => by
    cases h
    refine ⟨.same _, .arr _ ?_⟩
    intro v hv
    obtain ⟨x, -, rfl⟩ := List.mem_map.1 hv
    exact ordered_nums _ _
  | .str s, s', h => by cases h; exact ⟨.same _, .str _⟩
  | .list l, s', h => by
    rw [sortKeys, gj_bind] at h
    obtain ⟨l', hl, h⟩ := h
    cases h
    have hf := sortList_sorted num name hs hi l l' hl
    unfold SortedAs
    rw [jsonOf, jsonOf, gj_list, gj_list]
    refine ⟨.arr _ _ (sameJson_forall₂ hf), .arr _ ?_⟩
    intro v hv
    obtain ⟨s, hs, rfl⟩ := List.mem_map.1 hv
    exact ordered_forall₂ hf s hs
  | .obj d, s', h => by
    rw [sortKeys, gj_bind] at h
    obtain ⟨d', hd, h⟩ := h
    cases h
    obtain ⟨hk, hf⟩ := sortObj_sorted num name hs hi d d' hd
    have hp := List.perm_insertionSort (fun a b : Str × Ser => a.1 ≤ b.1) d'
    unfold SortedAs
    rw [jsonOf, jsonOf, gj_obj, gj_obj]
    refine ⟨.obj _ (d'.map fun kv => (kv.1, jsonOf num name kv.2)) _ ?_ ?_ (hp.symm.map _), .obj _ (.inl ?_) ?_⟩
    · rw [List.map_map, List.map_map]
      exact hk
    · have := sameJson_forall₂ hf
      simpa using this
    · rw [List.map_map, List.pairwise_map]
      exact List.pairwise_insertionSort (fun a b : Str × Ser => a.1 ≤ b.1) d'
    · intro m hm
      obtain ⟨kv, hkv, rfl⟩ := List.mem_map.1 hm
      exact ordered_forall₂ hf kv.2 (List.mem_map.2 ⟨kv, hp.subset hkv, rfl⟩)
  | .dict d, s', h => by
    rw [sortKeys, gj_bind] at h
    obtain ⟨d', hd, h⟩ := h
    rw [gj_bind] at h
    obtain ⟨d'', hd', h⟩ := h
    cases h
    obtain ⟨hk, hf⟩ := sortDict_sorted num name hs hi d d' hd
    have hp := sortItems_perm hd'
    unfold SortedAs
    rw [jsonOf, jsonOf, gj_dict, gj_dict]
    refine ⟨.obj _ (d'.map fun kv => (name kv.1, jsonOf num name kv.2)) _ ?_ ?_ (hp.map _), .obj _ ?_ ?_⟩
    · rw [List.map_map, List.map_map]
      have := congrArg (List.map name) hk
      rw [List.map_map, List.map_map] at this
      exact this
    · have := sameJson_forall₂ hf
      simpa using this
    · rw [List.map_map]
      exact sortItems_ordered hs hi hd'
    · intro m hm
      obtain ⟨kv, hkv, rfl⟩ := List.mem_map.1 hm
      exact ordered_forall₂ hf kv.2 (List.mem_map.2 ⟨kv, hp.symm.subset hkv, rfl⟩)
theorem sortList_sorted (num : Nat → Str) (name : Ser → Str) (hs : ∀ s, name (.str s) = s) (hi : ∀ n, name (.int n) = showInt n) :
    ∀ l l', sortList l = .ok l' → List.Forall₂ (SortedAs num name) l l'
  | [], l', h => by cases h; exact .nil
  | s :: l, l', h => by
    rw [sortList, gj_bind] at h
    obtain ⟨s', h1, h⟩ := h
    rw [gj_bind] at h
    obtain ⟨l'', h2, h⟩ := h
    cases h
    exact .cons (sortKeys_sorted num name hs hi s s' h1) (sortList_sorted num name hs hi l l'' h2)
theorem sortObj_sorted (num : Nat → Str) (name : Ser → Str) (hs : ∀ s, name (.str s) = s) (hi : ∀ n, name (.int n) = showInt n) :
    ∀ (l l' : List (Str × Ser)), sortObj l = .ok l' → l.map Prod.fst = l'.map Prod.fst ∧ List.Forall₂ (SortedAs num name) (l.map Prod.snd) (l'.map Prod.snd)
  | [], l', h => by cases h; exact ⟨rfl, .nil⟩
  | (k, s) :: l, l', h => by
    rw [sortObj, gj_bind] at h
    obtain ⟨s', h1, h⟩ := h
    rw [gj_bind] at h
    obtain ⟨l'', h2, h⟩ := h
    cases h
    have ih := sortObj_sorted num name hs hi l l'' h2
    exact ⟨by simp [ih.1], .cons (sortKeys_sorted num name hs hi s s' h1) ih.2⟩
theorem sortDict_sorted (num : Nat → Str) (name : Ser → Str) (hs : ∀ s, name (.str s) = s) (hi : ∀ n, name (.int n) = showInt n) :
    ∀ (l l' : List (Ser × Ser)), sortDict l = .ok l' → l.map Prod.fst = l'.map Prod.fst ∧ List.Forall₂ (SortedAs num name) (l.map Prod.snd) (l'.map Prod.snd)
  | [], l', h => by cases h; exact ⟨rfl, .nil⟩
  | (k, s) :: l, l', h => by
    rw [sortDict, gj_bind] at h
    obtain ⟨s', h1, h⟩ := h
    rw [gj_bind] at h
    obtain ⟨l'', h2, h⟩ := h
    cases h
    have ih := sortDict_sorted num name hs hi l l'' h2
    exact ⟨by simp [ih.1], .cons (sortKeys_sorted num name hs hi s s' h1) ih.2⟩
end

/-! ## Data -/

theorem mapM_rel {α β γ : Type} {f : α → Res β} {g : β → γ} {R : α → γ → Prop} (h : ∀ a c, (∃ b, f a = .ok b ∧ g b = c) ↔ R a c) :
    ∀ (l : List α) (cs : List γ), (∃ bs, l.mapM f = .ok bs ∧ bs.map g = cs) ↔ List.Forall₂ R l cs := by
  intro l
  induction l with
  | nil =>
    intro cs
    simp only [List.mapM_nil, List.forall₂_nil_left_iff]
    constructor
    · rintro ⟨bs, hb, rfl⟩; cases hb; rfl
    · rintro rfl; exact ⟨[], rfl, rfl⟩
  | cons a l ih =>
    intro cs
    rw [List.forall₂_cons_left_iff]
    constructor
    · rintro ⟨bs, hb, rfl⟩
      rw [List.mapM_cons, gj_bind] at hb
      obtain ⟨b, h1, hb⟩ := hb
      rw [gj_bind] at hb
      obtain ⟨bs', h2, hb⟩ := hb
      cases hb
      exact ⟨g b, bs'.map g, (h a _).1 ⟨b, h1, rfl⟩, (ih _).1 ⟨bs', h2, rfl⟩, rfl⟩
    · rintro ⟨c, cs', hc, hcs, rfl⟩
      obtain ⟨b, h1, rfl⟩ := (h a c).2 hc
      obtain ⟨bs, h2, rfl⟩ := (ih cs').2 hcs
      exact ⟨b :: bs, by rw [List.mapM_cons, h1, h2]; rfl, rfl⟩

theorem jsonValue_rel (num : Nat → Str) (name : Ser → Str) (v : BinValue) (j : Json) :
    (∃ s, jsonValue v = .ok s ∧ jsonOf num name s = j) ↔ ValueJson num v j := by
  constructor
  · rintro ⟨s, h, rfl⟩
    cases v <;> first | (cases h; done) | skip
    all_goals cases h
    · exact .tuple _
    · exact .bool _
    · exact .int _
    · exact .float _
    · exact .floats _
    · exact .matrix _
    · exact .str _
  · intro h
    cases h
    all_goals exact ⟨_, rfl, rfl⟩

theorem jsonKey_rel (name : Ser → Str) (hs : ∀ s, name (.str s) = s) (hi : ∀ n, name (.int n) = showInt n) (k : BinPy) (n : Str) :
    (∃ s, jsonKey k = .ok s ∧ name s = n) ↔ KeyJson (name .none) k n := by
  constructor
  · rintro ⟨s, h, rfl⟩
    unfold jsonKey at h
    split at h
    · cases h; rw [hs]; exact .str _
    · cases h; rw [hi]; exact .int _
    · cases h; exact .none
    · cases h
  · intro h
    cases h with
    | str s => exact ⟨_, rfl, hs _⟩
    | int n => exact ⟨_, rfl, hi _⟩
    | none => exact ⟨_, rfl, rfl⟩

variable {num : Nat → Str} {name : Ser → Str}

theorem jsonPair_rel (hs : ∀ s, name (.str s) = s) (hi : ∀ n, name (.int n) = showInt n) (p : BinPair) (m : Str × Json) :
    (∃ s, jsonPair p = .ok s ∧ (name s.1, jsonOf num name s.2) = m) ↔ PairJson num (name .none) p m := by
  obtain ⟨k, v⟩ := p
  unfold jsonPair
  simp only [gj_bind]
  constructor
  · rintro ⟨s, ⟨k', hk, v', hv, h⟩, rfl⟩
    cases h
    exact .mk _ _ _ _ ((jsonKey_rel name hs hi _ _).1 ⟨_, hk, rfl⟩) ((jsonValue_rel num name _ _).1 ⟨_, hv, rfl⟩)
  · intro h
    cases h with
    | mk _ _ n j hk hv =>
      obtain ⟨k', gk, rfl⟩ := (jsonKey_rel name hs hi _ _).2 hk
      obtain ⟨v', gv, rfl⟩ := (jsonValue_rel num name _ _).2 hv
      exact ⟨(k', v'), ⟨_, gk, _, gv, rfl⟩, rfl⟩

theorem jsonPy_rel (hs : ∀ s, name (.str s) = s) (hi : ∀ n, name (.int n) = showInt n) (p : BinPy) (j : Json) :
    (∃ s, jsonPy p = .ok s ∧ jsonOf num name s = j) ↔ PyJson num (name .none) p j := by
  cases p with
  | default => exact ⟨fun ⟨_, h, _⟩ => (by cases h), fun h => by cases h⟩
  | self => exact ⟨fun ⟨_, h, _⟩ => (by cases h), fun h => by cases h⟩
  | none =>
    constructor
    · rintro ⟨s, h, rfl⟩; cases h; exact .none
    · intro h; cases h; exact ⟨_, rfl, rfl⟩
  | value v =>
    refine (jsonValue_rel num name v j).trans ⟨fun h => .value _ _ h, fun h => ?_⟩
    cases h; assumption
  | list l =>
    unfold jsonPy
    simp only [gj_bind]
    constructor
    · rintro ⟨s, ⟨l', hl, h⟩, rfl⟩
      cases h
      rw [jsonOf, gj_list]
      exact .list _ _ ((mapM_rel (jsonValue_rel num name) l _).1 ⟨l', hl, rfl⟩)
    · intro h
      cases h with
      | list _ js h =>
        obtain ⟨l', hl, rfl⟩ := (mapM_rel (jsonValue_rel num name) l _).2 h
        exact ⟨.list l', ⟨_, hl, rfl⟩, by rw [jsonOf, gj_list]⟩
  | dict l =>
    unfold jsonPy
    simp only [gj_bind]
    constructor
    · rintro ⟨s, ⟨l', hl, h⟩, rfl⟩
      cases h
      rw [jsonOf, gj_dict]
      exact .dict _ _ ((mapM_rel (jsonPair_rel hs hi) l _).1 ⟨l', hl, rfl⟩)
    · intro h
      cases h with
      | dict _ js h =>
        obtain ⟨l', hl, rfl⟩ := (mapM_rel (jsonPair_rel hs hi) l _).2 h
        exact ⟨.dict l', ⟨_, hl, rfl⟩, by rw [jsonOf, gj_dict]⟩

theorem jsonOptText_of (o : Option Str) : jsonOf num name (jsonOptText o) = optStr o := by cases o <;> rfl
theorem jsonOptInt_of (o : Option Int) : jsonOf num name (jsonOptInt o) = optNum o := by cases o <;> rfl
theorem jsonTexts_of (l : List (Option Str)) : jsonOf num name (.list (l.map jsonOptText)) = optStrs l := by
  rw [jsonOf, gj_list, List.map_map]
  unfold optStrs
  congr 1
  apply List.map_congr_left
  intro o _
  exact jsonOptText_of o
theorem jsonStrs_of (l : List Str) : jsonOf num name (.list (l.map .str)) = .arr (l.map .str) := by
  rw [jsonOf, gj_list, List.map_map]
  rfl

theorem jsonVars_rel (hs : ∀ s, name (.str s) = s) (hi : ∀ n, name (.int n) = showInt n) (d : Dict Str BinPy) (j : Json) :
    (∃ s, jsonVars d = .ok s ∧ jsonOf num name s = j) ↔ VarsJson num (name .none) d j := by
  have hr : ∀ (kv : Str × BinPy) (m : Str × Json), (∃ b : Str × Ser, (jsonPy kv.2).map (fun s => (kv.1, s)) = .ok b ∧ (b.1, jsonOf num name b.2) = m) ↔
      (m.1 = kv.1 ∧ PyJson num (name .none) kv.2 m.2) := by
    intro kv m
    constructor
    · rintro ⟨b, h, rfl⟩
      cases hp : jsonPy kv.2 with
      | error e => rw [hp] at h; cases h
      | ok s =>
        rw [hp] at h
        cases h
        exact ⟨rfl, (jsonPy_rel hs hi _ _).1 ⟨s, hp, rfl⟩⟩
    · rintro ⟨h1, h2⟩
      obtain ⟨s, hp, h⟩ := (jsonPy_rel hs hi _ _).2 h2
      exact ⟨(kv.1, s), by rw [hp]; rfl, Prod.ext h1.symm h⟩
  unfold jsonVars VarsJson
  simp only [gj_bind]
  constructor
  · rintro ⟨s, ⟨l, hl, h⟩, rfl⟩
    cases h
    exact ⟨_, (mapM_rel hr d _).1 ⟨l, hl, rfl⟩, by rw [jsonOf, gj_obj]⟩
  · rintro ⟨ms, h, rfl⟩
    obtain ⟨l, hl, rfl⟩ := (mapM_rel hr d _).2 h
    exact ⟨.obj l, ⟨_, hl, rfl⟩, by rw [jsonOf, gj_obj]⟩

/-! ## Arena -/

theorem augmentSer_rel (hs : ∀ s, name (.str s) = s) (hi : ∀ n, name (.int n) = showInt n) (a : Augment) (j : Json) :
    (∃ s, augmentSer a = .ok s ∧ jsonOf num name s = j) ↔ AugmentJson num name a j := by
  have P := jsonPy_rel (num := num) hs hi
  have hr : ∀ (kv : BinPy × BinPy) (m : Str × Json), (∃ b : Ser × Ser, (do
      let k ← jsonKey kv.1
      let v ← jsonPy kv.2
      Except.ok (k, v)) = (.ok b : Res _) ∧ (name b.1, jsonOf num name b.2) = m) ↔ (KeyJson (name .none) kv.1 m.1 ∧ PyJson num (name .none) kv.2 m.2) := by
    intro kv m
    simp only [gj_bind]
    constructor
    · rintro ⟨b, ⟨k, hk, v, hv, h⟩, rfl⟩
      cases h
      exact ⟨(jsonKey_rel name hs hi _ _).1 ⟨_, hk, rfl⟩, (P _ _).1 ⟨_, hv, rfl⟩⟩
    · rintro ⟨hk, hv⟩
      obtain ⟨k, hk, h1⟩ := (jsonKey_rel name hs hi _ _).2 hk
      obtain ⟨v, hv, h2⟩ := (P _ _).2 hv
      exact ⟨(k, v), ⟨_, hk, _, hv, rfl⟩, Prod.ext h1 h2⟩
  unfold augmentSer AugmentJson
  simp only [gj_bind]
  constructor
  · rintro ⟨s, ⟨s1, h1, s2, h2, s3, h3, s4, h4, s5, h5, s6, h6, vs, hv, h⟩, rfl⟩
    cases h
    refine ⟨_, _, _, _, _, _, _, (P _ _).1 ⟨_, h1, rfl⟩, (P _ _).1 ⟨_, h2, rfl⟩, (P _ _).1 ⟨_, h3, rfl⟩, (P _ _).1 ⟨_, h4, rfl⟩, (P _ _).1 ⟨_, h5, rfl⟩,
      (P _ _).1 ⟨_, h6, rfl⟩, (mapM_rel hr _ _).1 ⟨vs, hv, rfl⟩, ?_⟩
    rw [← gj_dict]
    rfl
  · rintro ⟨_, _, _, _, _, _, _, h1, h2, h3, h4, h5, h6, hv, rfl⟩
    obtain ⟨s1, g1, rfl⟩ := (P _ _).2 h1
    obtain ⟨s2, g2, rfl⟩ := (P _ _).2 h2
    obtain ⟨s3, g3, rfl⟩ := (P _ _).2 h3
    obtain ⟨s4, g4, rfl⟩ := (P _ _).2 h4
    obtain ⟨s5, g5, rfl⟩ := (P _ _).2 h5
    obtain ⟨s6, g6, rfl⟩ := (P _ _).2 h6
    obtain ⟨vs, gv, rfl⟩ := (mapM_rel hr _ _).2 hv
    refine ⟨_, ⟨_, g1, _, g2, _, g3, _, g4, _, g5, _, g6, _, gv, rfl⟩, ?_⟩
    rw [← gj_dict]
    rfl

theorem arenaSer_rel (hs : ∀ s, name (.str s) = s) (hi : ∀ n, name (.int n) = showInt n) (as : List Augment) (j : Json) :
    (∃ s, arenaSer as = .ok s ∧ jsonOf num name s = j) ↔ ArenaJson num name as j := by
  unfold arenaSer ArenaJson
  simp only [gj_bind]
  constructor
  · rintro ⟨s, ⟨l, hl, h⟩, rfl⟩
    cases h
    exact ⟨_, (mapM_rel (augmentSer_rel hs hi) _ _).1 ⟨l, hl, rfl⟩, by rw [← gj_list]; rfl⟩
  · rintro ⟨l, hl, rfl⟩
    obtain ⟨l, gl, rfl⟩ := (mapM_rel (augmentSer_rel hs hi) _ _).2 hl
    exact ⟨_, ⟨_, gl, rfl⟩, by rw [← gj_list]; rfl⟩

/-! ## TFT -/

theorem effectSer_rel (hs : ∀ s, name (.str s) = s) (hi : ∀ n, name (.int n) = showInt n) (e : TraitEffect) (j : Json) :
    (∃ s, effectSer e = .ok s ∧ jsonOf num name s = j) ↔ EffectJson num (name .none) e j := by
  have P := jsonPy_rel (num := num) hs hi
  unfold effectSer EffectJson
  simp only [gj_bind]
  constructor
  · rintro ⟨s, ⟨s1, h1, s2, h2, s3, h3, s4, h4, h⟩, rfl⟩
    cases h
    exact ⟨_, _, _, _, (P _ _).1 ⟨_, h1, rfl⟩, (P _ _).1 ⟨_, h2, rfl⟩, (P _ _).1 ⟨_, h3, rfl⟩, (jsonVars_rel hs hi _ _).1 ⟨_, h4, rfl⟩, rfl⟩
  · rintro ⟨_, _, _, _, h1, h2, h3, h4, rfl⟩
    obtain ⟨s1, g1, rfl⟩ := (P _ _).2 h1
    obtain ⟨s2, g2, rfl⟩ := (P _ _).2 h2
    obtain ⟨s3, g3, rfl⟩ := (P _ _).2 h3
    obtain ⟨s4, g4, rfl⟩ := (jsonVars_rel hs hi _ _).2 h4
    exact ⟨_, ⟨_, g1, _, g2, _, g3, _, g4, rfl⟩, rfl⟩

theorem traitSer_rel (hs : ∀ s, name (.str s) = s) (hi : ∀ n, name (.int n) = showInt n) (t : TftTrait TftPart) (j : Json) :
    (∃ s, traitSer t = .ok s ∧ jsonOf num name s = j) ↔ TraitJson num (name .none) t j := by
  have P := jsonPy_rel (num := num) hs hi
  obtain ⟨nm, desc, data⟩ := t
  unfold traitSer TraitJson
  cases data with
  | champ d => exact ⟨fun ⟨_, h, _⟩ => (by cases h), fun ⟨_, _, _, h, _⟩ => by cases h⟩
  | item d => exact ⟨fun ⟨_, h, _⟩ => (by cases h), fun ⟨_, _, _, h, _⟩ => by cases h⟩
  | trait d =>
    simp only [gj_bind]
    constructor
    · rintro ⟨s, ⟨s1, h1, l, hl, h⟩, rfl⟩
      cases h
      refine ⟨d, _, _, rfl, (P _ _).1 ⟨_, h1, rfl⟩, (mapM_rel (effectSer_rel hs hi) _ _).1 ⟨_, hl, rfl⟩, ?_⟩
      rw [← gj_list, ← jsonOptText_of (num := num) (name := name) nm, ← jsonOptText_of (num := num) (name := name) desc]
      rfl
    · rintro ⟨d', _, _, hd, h1, hl, rfl⟩
      cases hd
      obtain ⟨s1, g1, rfl⟩ := (P _ _).2 h1
      obtain ⟨l, gl, rfl⟩ := (mapM_rel (effectSer_rel hs hi) _ _).2 hl
      refine ⟨_, ⟨_, g1, _, gl, rfl⟩, ?_⟩
      rw [← gj_list, ← jsonOptText_of (num := num) (name := name) nm, ← jsonOptText_of (num := num) (name := name) desc]
      rfl

theorem statsSer_rel (hs : ∀ s, name (.str s) = s) (hi : ∀ n, name (.int n) = showInt n) (c : ChampStats) (j : Json) :
    (∃ s, statsSer c = .ok s ∧ jsonOf num name s = j) ↔ StatsJson num (name .none) c j := by
  have P := jsonPy_rel (num := num) hs hi
  unfold statsSer StatsJson
  simp only [gj_bind]
  constructor
  · rintro ⟨s, ⟨s1, h1, s2, h2, s3, h3, s4, h4, s5, h5, s6, h6, s7, h7, s8, h8, s9, h9, s0, h0, h⟩, rfl⟩
    cases h
    exact ⟨_, _, _, _, _, _, _, _, _, _, (P _ _).1 ⟨_, h1, rfl⟩, (P _ _).1 ⟨_, h2, rfl⟩, (P _ _).1 ⟨_, h3, rfl⟩, (P _ _).1 ⟨_, h4, rfl⟩,
      (P _ _).1 ⟨_, h5, rfl⟩, (P _ _).1 ⟨_, h6, rfl⟩, (P _ _).1 ⟨_, h7, rfl⟩, (P _ _).1 ⟨_, h8, rfl⟩, (P _ _).1 ⟨_, h9, rfl⟩, (P _ _).1 ⟨_, h0, rfl⟩, rfl⟩
  · rintro ⟨_, _, _, _, _, _, _, _, _, _, h1, h2, h3, h4, h5, h6, h7, h8, h9, h0, rfl⟩
    obtain ⟨s1, g1, rfl⟩ := (P _ _).2 h1
    obtain ⟨s2, g2, rfl⟩ := (P _ _).2 h2
    obtain ⟨s3, g3, rfl⟩ := (P _ _).2 h3
    obtain ⟨s4, g4, rfl⟩ := (P _ _).2 h4
    obtain ⟨s5, g5, rfl⟩ := (P _ _).2 h5
    obtain ⟨s6, g6, rfl⟩ := (P _ _).2 h6
    obtain ⟨s7, g7, rfl⟩ := (P _ _).2 h7
    obtain ⟨s8, g8, rfl⟩ := (P _ _).2 h8
    obtain ⟨s9, g9, rfl⟩ := (P _ _).2 h9
    obtain ⟨s0, g0, rfl⟩ := (P _ _).2 h0
    exact ⟨_, ⟨_, g1, _, g2, _, g3, _, g4, _, g5, _, g6, _, g7, _, g8, _, g9, _, g0, rfl⟩, rfl⟩

theorem variableSer_rel (hs : ∀ s, name (.str s) = s) (hi : ∀ n, name (.int n) = showInt n) (x : BinPy × BinPy) (j : Json) :
    (∃ s, variableSer x = .ok s ∧ jsonOf num name s = j) ↔ VariableJson num (name .none) x j := by
  have P := jsonPy_rel (num := num) hs hi
  unfold variableSer VariableJson
  simp only [gj_bind]
  constructor
  · rintro ⟨s, ⟨s1, h1, s2, h2, h⟩, rfl⟩
    cases h
    exact ⟨_, _, (P _ _).1 ⟨_, h1, rfl⟩, (P _ _).1 ⟨_, h2, rfl⟩, rfl⟩
  · rintro ⟨_, _, h1, h2, rfl⟩
    obtain ⟨s1, g1, rfl⟩ := (P _ _).2 h1
    obtain ⟨s2, g2, rfl⟩ := (P _ _).2 h2
    exact ⟨_, ⟨_, g1, _, g2, rfl⟩, rfl⟩

theorem champSer_rel (hs : ∀ s, name (.str s) = s) (hi : ∀ n, name (.int n) = showInt n) (c : TftChamp TftPart) (j : Json) :
    (∃ s, champSer c = .ok s ∧ jsonOf num name s = j) ↔ ChampJson num (name .none) c j := by
  have P := jsonPy_rel (num := num) hs hi
  have T := fun o => (jsonOptText_of (num := num) (name := name) o).symm
  obtain ⟨nm, traits, an, ad, data⟩ := c
  unfold champSer ChampJson
  cases data with
  | trait d => exact ⟨fun ⟨_, h, _⟩ => (by cases h), fun ⟨_, _, _, _, _, _, _, _, _, h, _⟩ => by cases h⟩
  | item d => exact ⟨fun ⟨_, h, _⟩ => (by cases h), fun ⟨_, _, _, _, _, _, _, _, _, h, _⟩ => by cases h⟩
  | champ d =>
    simp only [gj_bind]
    constructor
    · rintro ⟨s, ⟨s1, h1, s2, h2, s3, h3, s4, h4, s5, h5, s6, h6, s7, h7, l, hl, h⟩, rfl⟩
      cases h
      refine ⟨d, _, _, _, _, _, _, _, _, rfl, (P _ _).1 ⟨_, h1, rfl⟩, (P _ _).1 ⟨_, h2, rfl⟩, (P _ _).1 ⟨_, h3, rfl⟩, (P _ _).1 ⟨_, h4, rfl⟩,
        (P _ _).1 ⟨_, h5, rfl⟩, (statsSer_rel hs hi _ _).1 ⟨_, h6, rfl⟩, (P _ _).1 ⟨_, h7, rfl⟩, (mapM_rel (variableSer_rel hs hi) _ _).1 ⟨_, hl, rfl⟩, ?_⟩
      rw [← gj_list, T nm, T an, T ad, ← jsonTexts_of (num := num) (name := name)]
      rfl
    · rintro ⟨d', _, _, _, _, _, _, _, _, hd, h1, h2, h3, h4, h5, h6, h7, hl, rfl⟩
      cases hd
      obtain ⟨s1, g1, rfl⟩ := (P _ _).2 h1
      obtain ⟨s2, g2, rfl⟩ := (P _ _).2 h2
      obtain ⟨s3, g3, rfl⟩ := (P _ _).2 h3
      obtain ⟨s4, g4, rfl⟩ := (P _ _).2 h4
      obtain ⟨s5, g5, rfl⟩ := (P _ _).2 h5
      obtain ⟨s6, g6, rfl⟩ := (statsSer_rel hs hi _ _).2 h6
      obtain ⟨s7, g7, rfl⟩ := (P _ _).2 h7
      obtain ⟨l, gl, rfl⟩ := (mapM_rel (variableSer_rel hs hi) _ _).2 hl
      refine ⟨_, ⟨_, g1, _, g2, _, g3, _, g4, _, g5, _, g6, _, g7, _, gl, rfl⟩, ?_⟩
      rw [← gj_list, T nm, T an, T ad, ← jsonTexts_of (num := num) (name := name)]
      rfl

theorem from_of (o : Option (List (Option Int))) : jsonOf num name (match o with
    | some l => .list (l.map jsonOptInt)
    | none => .none) = o.elim .null fun l => .arr (l.map optNum) := by
  cases o with
  | none => rfl
  | some l =>
    simp only [jsonOf, gj_list, List.map_map, Option.elim_some]
    congr 1
    apply List.map_congr_left
    intro o _
    exact jsonOptInt_of o

theorem itemSer_rel (hs : ∀ s, name (.str s) = s) (hi : ∀ n, name (.int n) = showInt n) (i : TftItem TftPart) (j : Json) :
    (∃ s, itemSer i = .ok s ∧ jsonOf num name s = j) ↔ ItemJson num (name .none) i j := by
  have P := jsonPy_rel (num := num) hs hi
  have T := fun o => (jsonOptText_of (num := num) (name := name) o).symm
  have TS := fun o => (jsonTexts_of (num := num) (name := name) o).symm
  obtain ⟨id, nm, api, desc, comp, assoc, inc, frm, data⟩ := i
  unfold itemSer ItemJson
  cases data with
  | trait d => exact ⟨fun ⟨_, h, _⟩ => (by cases h), fun ⟨_, _, _, _, h, _⟩ => by cases h⟩
  | champ d => exact ⟨fun ⟨_, h, _⟩ => (by cases h), fun ⟨_, _, _, _, h, _⟩ => by cases h⟩
  | item d =>
    simp only [gj_bind]
    constructor
    · rintro ⟨s, ⟨s1, h1, s2, h2, s3, h3, h⟩, rfl⟩
      cases h
      refine ⟨d, _, _, _, rfl, (P _ _).1 ⟨_, h1, rfl⟩, (P _ _).1 ⟨_, h2, rfl⟩, (jsonVars_rel hs hi _ _).1 ⟨_, h3, rfl⟩, ?_⟩
      rw [T nm, T api, T desc, TS comp, TS assoc, TS inc, ← from_of (num := num) (name := name), ← jsonStrs_of (num := num) (name := name) d.tags,
        ← jsonOptInt_of (num := num) (name := name) id]
      rfl
    · rintro ⟨d', _, _, _, hd, h1, h2, h3, rfl⟩
      cases hd
      obtain ⟨s1, g1, rfl⟩ := (P _ _).2 h1
      obtain ⟨s2, g2, rfl⟩ := (P _ _).2 h2
      obtain ⟨s3, g3, rfl⟩ := (jsonVars_rel hs hi _ _).2 h3
      refine ⟨_, ⟨_, g1, _, g2, _, g3, rfl⟩, ?_⟩
      rw [T nm, T api, T desc, TS comp, TS assoc, TS inc, ← from_of (num := num) (name := name), ← jsonStrs_of (num := num) (name := name) d.tags,
        ← jsonOptInt_of (num := num) (name := name) id]
      rfl

theorem objectAt_rel {α : Type} {f : α → Res Ser} {R : α → Json → Prop} (h : ∀ a c, (∃ b, f a = .ok b ∧ jsonOf num name b = c) ↔ R a c) (l : List α) (i : Nat) (j : Json) :
    (∃ s, objectAt f l i = .ok s ∧ jsonOf num name s = j) ↔ ∃ x, l[i]? = some x ∧ R x j := by
  unfold objectAt
  cases hl : l[i]? with
  | none => simp
  | some x => simpa using h x j

theorem objects_rel {α : Type} {f : α → Res Ser} {R : α → Json → Prop} (h : ∀ a c, (∃ b, f a = .ok b ∧ jsonOf num name b = c) ↔ R a c) (l : List α) (refs : List Nat) (v : Json) :
    (∃ bs, refs.mapM (objectAt f l) = .ok bs ∧ jsonOf num name (.list bs) = v) ↔ ObjectsJson R l refs v := by
  unfold ObjectsJson
  constructor
  · rintro ⟨bs, hb, rfl⟩
    exact ⟨_, (mapM_rel (objectAt_rel h l) _ _).1 ⟨bs, hb, rfl⟩, by rw [jsonOf, gj_list]⟩
  · rintro ⟨js, hj, rfl⟩
    obtain ⟨bs, gb, rfl⟩ := (mapM_rel (objectAt_rel h l) _ _).2 hj
    exact ⟨bs, gb, by rw [jsonOf, gj_list]⟩

theorem setInfoSer_rel (hs : ∀ s, name (.str s) = s) (hi : ∀ n, name (.int n) = showInt n) (t : TftTemplate TftPart) (x : TftSetInfo) (j : Json) :
    (∃ s, setInfoSer t x = .ok s ∧ jsonOf num name s = j) ↔ SetJson num (name .none) t x j := by
  have T := fun o => (jsonOptText_of (num := num) (name := name) o).symm
  unfold setInfoSer SetJson
  simp only [gj_bind]
  constructor
  · rintro ⟨s, ⟨s1, h1, s2, h2, h⟩, rfl⟩
    cases h
    refine ⟨_, _, (objects_rel (traitSer_rel hs hi) _ _ _).1 ⟨_, h1, rfl⟩, (objects_rel (champSer_rel hs hi) _ _ _).1 ⟨_, h2, rfl⟩, ?_⟩
    rw [T]
    rfl
  · rintro ⟨_, _, h1, h2, rfl⟩
    obtain ⟨s1, g1, rfl⟩ := (objects_rel (traitSer_rel hs hi) _ _ _).2 h1
    obtain ⟨s2, g2, rfl⟩ := (objects_rel (champSer_rel hs hi) _ _ _).2 h2
    refine ⟨_, ⟨_, g1, _, g2, rfl⟩, ?_⟩
    rw [T]
    rfl

theorem setDataSer_rel (hs : ∀ s, name (.str s) = s) (hi : ∀ n, name (.int n) = showInt n) (t : TftTemplate TftPart) (x : TftSetData) (j : Json) :
    (∃ s, setDataSer t x = .ok s ∧ jsonOf num name s = j) ↔ SetDataJson num (name .none) t x j := by
  have T := fun o => (jsonOptText_of (num := num) (name := name) o).symm
  unfold setDataSer SetDataJson
  simp only [gj_bind]
  constructor
  · rintro ⟨s, ⟨s1, h1, s2, h2, h⟩, rfl⟩
    cases h
    refine ⟨_, _, (objects_rel (traitSer_rel hs hi) _ _ _).1 ⟨_, h1, rfl⟩, (objects_rel (champSer_rel hs hi) _ _ _).1 ⟨_, h2, rfl⟩, ?_⟩
    rw [T x.mutator, T x.name, ← jsonStrs_of (num := num) (name := name) x.augments, ← jsonStrs_of (num := num) (name := name) x.items]
    rfl
  · rintro ⟨_, _, h1, h2, rfl⟩
    obtain ⟨s1, g1, rfl⟩ := (objects_rel (traitSer_rel hs hi) _ _ _).2 h1
    obtain ⟨s2, g2, rfl⟩ := (objects_rel (champSer_rel hs hi) _ _ _).2 h2
    refine ⟨_, ⟨_, g1, _, g2, rfl⟩, ?_⟩
    rw [T x.mutator, T x.name, ← jsonStrs_of (num := num) (name := name) x.augments, ← jsonStrs_of (num := num) (name := name) x.items]
    rfl

theorem tftSer_rel (hs : ∀ s, name (.str s) = s) (hi : ∀ n, name (.int n) = showInt n) (t : TftTemplate TftPart) (j : Json) :
    (∃ s, tftSer t = .ok s ∧ jsonOf num name s = j) ↔ TftJson num (name .none) t j := by
  have hr : ∀ (kv : Int × TftSetInfo) (m : Str × Json), (∃ b : Ser × Ser, (setInfoSer t kv.2).map (fun s => (Ser.int kv.1, s)) = .ok b ∧
      (name b.1, jsonOf num name b.2) = m) ↔ (m.1 = showInt kv.1 ∧ SetJson num (name .none) t kv.2 m.2) := by
    intro kv m
    constructor
    · rintro ⟨b, h, rfl⟩
      cases hp : setInfoSer t kv.2 with
      | error e => rw [hp] at h; cases h
      | ok s =>
        rw [hp] at h
        cases h
        exact ⟨hi _, (setInfoSer_rel hs hi _ _ _).1 ⟨s, hp, rfl⟩⟩
    · rintro ⟨h1, h2⟩
      obtain ⟨s, hp, h⟩ := (setInfoSer_rel hs hi _ _ _).2 h2
      exact ⟨(.int kv.1, s), by rw [hp]; rfl, Prod.ext ((hi _).trans h1.symm) h⟩
  unfold tftSer TftJson
  simp only [gj_bind]
  constructor
  · rintro ⟨s, ⟨s1, h1, s2, h2, s3, h3, h⟩, rfl⟩
    cases h
    refine ⟨_, _, _, (mapM_rel hr _ _).1 ⟨_, h1, rfl⟩, (mapM_rel (setDataSer_rel hs hi t) _ _).1 ⟨_, h2, rfl⟩,
      (mapM_rel (itemSer_rel hs hi) _ _).1 ⟨_, h3, rfl⟩, ?_⟩
    rw [← gj_dict, ← gj_list, ← gj_list]
    rfl
  · rintro ⟨_, _, _, h1, h2, h3, rfl⟩
    obtain ⟨s1, g1, rfl⟩ := (mapM_rel hr _ _).2 h1
    obtain ⟨s2, g2, rfl⟩ := (mapM_rel (setDataSer_rel hs hi t) _ _).2 h2
    obtain ⟨s3, g3, rfl⟩ := (mapM_rel (itemSer_rel hs hi) _ _).2 h3
    refine ⟨_, ⟨_, g1, _, g2, _, g3, rfl⟩, ?_⟩
    rw [← gj_dict, ← gj_list, ← gj_list]
    rfl

end Cdtb
