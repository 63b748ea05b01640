import Verif.Model.Tft
import Verif.Lemmas.Str
import Verif.Lemmas.Dict
import Mathlib.Logic.Function.Iterate
import Mathlib.Data.List.Basic
import Mathlib.Data.List.Forall2
/-!
# C54  TFT data: sets, items and translations
-/
namespace Cdtb
set_option autoImplicit false
open Py

/-! ## Specification -/

/-- Items that are exported: their name is not that of a template or of the null item -/
def Spec.RealItem {P : Type} (i : RawItem P) : Prop :=
  ∃ n, i.name = some n ∧ ¬ "Template".toList <:+: n ∧ n ≠ "TFT_Item_Null".toList

/-- The item a hash refers to: the last exported one with this hash -/
def Spec.ItemWith {P : Type} (items : List (RawItem P)) (h : Nat) (i : RawItem P) : Prop :=
  ∃ a b, items = a ++ i :: b ∧ i.hash = h ∧ Spec.RealItem i ∧ ∀ j ∈ b, Spec.RealItem j → j.hash ≠ h

/-- The name of the trait a hash refers to: the last one with this hash -/
def Spec.TraitWith (traits : List (Nat × Option Str)) (h : Nat) (n : Option Str) : Prop :=
  ∃ a b, traits = a ++ (h, n) :: b ∧ ∀ t ∈ b, t.1 ≠ h

/-- The output for an item -/
structure Spec.ItemOutput {P : Type} (items : List (RawItem P)) (traits : List (Nat × Option Str)) (i : RawItem P) (o : TftItem P) : Prop where
  id : o.id = i.id
  name : o.name = i.displayName
  apiName : o.apiName = i.name
  desc : o.desc = i.desc
  data : o.data = i.data
  composition : List.Forall₂ (fun h n => ∃ j, Spec.ItemWith items h j ∧ n = j.name) i.composition o.composition
  associated : List.Forall₂ (Spec.TraitWith traits) i.associatedTraits o.associatedTraits
  incompatible : List.Forall₂ (Spec.TraitWith traits) i.incompatibleTraits o.incompatibleTraits
  old : match o.from with
    | none => i.id = none
    | some l => i.id ≠ none ∧ List.Forall₂ (fun h n => ∃ j, Spec.ItemWith items h j ∧ n = j.id) i.composition l

/-- How many times an object is listed in the sets of the template -/
def Spec.traitUses {P : Type} (t : TftTemplate P) (r : Nat) : Nat :=
  (t.sets.values.flatMap fun s => s.traits).count r + (t.setData.flatMap fun s => s.traits).count r
def Spec.champUses {P : Type} (t : TftTemplate P) (r : Nat) : Nat :=
  (t.sets.values.flatMap fun s => s.champions).count r + (t.setData.flatMap fun s => s.champions).count r

/-! ## Lemmas -/

theorem mapM_eq_ok {α β : Type} (f : α → Res β) (l : List α) (r : List β) : l.mapM f = .ok r ↔ List.Forall₂ (fun a b => f a = .ok b) l r := by
  induction l generalizing r with
  | nil =>
    rw [List.mapM_nil]
    constructor
    · rintro ⟨⟩; exact .nil
    · rintro ⟨⟩; rfl
  | cons a l ih =>
    rw [List.mapM_cons]
    constructor
    · intro h
      cases ha : f a with
      | error e => rw [ha] at h; exact absurd h (by simp [bind, Except.bind])
      | ok b =>
        rw [ha] at h
        cases hl : l.mapM f with
        | error e => rw [hl] at h; exact absurd h (by simp [bind, Except.bind])
        | ok bs =>
          rw [hl] at h
          cases h
          exact .cons ha ((ih bs).1 hl)
    · rintro (_ | ⟨ha, hl⟩)
      rw [ha, (ih _).2 hl]
      rfl

theorem mapM_error {α β : Type} (f : α → Res β) (l : List α) (e : Err) (h : l.mapM f = .error e) : ∃ a ∈ l, f a = .error e := by
  induction l with
  | nil => rw [List.mapM_nil] at h; cases h
  | cons a l ih =>
    rw [List.mapM_cons] at h
    cases ha : f a with
    | error e' =>
      rw [ha] at h
      cases h
      exact ⟨a, List.mem_cons_self, ha⟩
    | ok b =>
      rw [ha] at h
      cases hl : l.mapM f with
      | error e' =>
        rw [hl] at h
        cases h
        obtain ⟨x, hx, hx'⟩ := ih hl
        exact ⟨x, List.mem_cons_of_mem _ hx, hx'⟩
      | ok bs => rw [hl] at h; cases h

theorem containsSub_infix (s sub : Str) : containsSub s sub = true ↔ sub <:+: s := by
  induction s with
  | nil => cases sub <;> simp [containsSub]
  | cons c s ih =>
    rw [containsSub, Bool.or_eq_true, ih, List.isPrefixOf_iff_prefix, List.infix_cons_iff]

theorem itemSkipped_spec {P : Type} (i : RawItem P) : (i.name = none ∧ itemSkipped i.name = .error .type) ∨
    (Spec.RealItem i ∧ itemSkipped i.name = .ok false) ∨ (i.name ≠ none ∧ ¬ Spec.RealItem i ∧ itemSkipped i.name = .ok true) := by
  cases hn : i.name with
  | none => left; exact ⟨rfl, rfl⟩
  | some n =>
    right
    unfold itemSkipped Spec.RealItem
    simp only [hn]
    by_cases h1 : "Template".toList <:+: n
    · right
      refine ⟨by simp, ?_, ?_⟩
      · rintro ⟨m, hm, h2, _⟩
        cases hm
        exact h2 h1
      · rw [(containsSub_infix n _).2 h1]; rfl
    · have h1' : containsSub n "Template".toList = false := by
        rw [← Bool.not_eq_true, containsSub_infix]; exact h1
      by_cases h2 : n = "TFT_Item_Null".toList
      · right
        refine ⟨by simp, ?_, ?_⟩
        · rintro ⟨m, hm, _, h3⟩
          cases hm
          exact h3 h2
        · rw [decide_eq_true h2, Bool.or_true]
      · left
        refine ⟨⟨n, rfl, h1, h2⟩, ?_⟩
        rw [h1', decide_eq_false h2]
        rfl

open Classical in
theorem keptItems_spec {P : Type} (items : List (RawItem P)) :
    ((∀ i ∈ items, i.name ≠ none) ∧ keptItems items = .ok (items.filter fun i => decide (Spec.RealItem i))) ∨
    ((∃ i ∈ items, i.name = none) ∧ keptItems items = .error .type) := by
  induction items with
  | nil => left; exact ⟨by simp, rfl⟩
  | cons i rest ih =>
    rw [keptItems]
    rcases itemSkipped_spec i with ⟨h1, h2⟩ | ⟨h1, h2⟩ | ⟨h0, h1, h2⟩
    · right
      rw [h2]
      exact ⟨⟨i, List.mem_cons_self, h1⟩, rfl⟩
    · rw [h2]
      rcases ih with ⟨h3, h4⟩ | ⟨⟨j, hj, h3⟩, h4⟩
      · left
        rw [h4, List.filter_cons_of_pos (by simpa using h1)]
        refine ⟨?_, rfl⟩
        intro j hj
        rcases List.mem_cons.1 hj with rfl | hj
        · obtain ⟨n, hn, _⟩ := h1
          simp [hn]
        · exact h3 j hj
      · right
        rw [h4]
        exact ⟨⟨j, List.mem_cons_of_mem _ hj, h3⟩, rfl⟩
    · rw [h2]
      rcases ih with ⟨h3, h4⟩ | ⟨⟨j, hj, h3⟩, h4⟩
      · left
        rw [h4, List.filter_cons_of_neg (by simpa using h1)]
        refine ⟨?_, rfl⟩
        intro j hj
        rcases List.mem_cons.1 hj with rfl | hj
        · exact h0
        · exact h3 j hj
      · right
        rw [h4]
        exact ⟨⟨j, List.mem_cons_of_mem _ hj, h3⟩, rfl⟩

/-- The last item with a property -/
theorem find?_reverse {α : Type} (p : α → Bool) (l : List α) (x : α) :
    l.reverse.find? p = some x ↔ ∃ a b, l = a ++ x :: b ∧ p x = true ∧ ∀ y ∈ b, p y = false := by
  rw [List.find?_eq_some_iff_append]
  constructor
  · rintro ⟨hx, as, bs, h, hs⟩
    refine ⟨bs.reverse, as.reverse, ?_, hx, ?_⟩
    · rw [← List.reverse_reverse l, h]; simp
    · intro y hy
      have := hs y (List.mem_reverse.1 hy)
      simpa using this
  · rintro ⟨a, b, rfl, hx, hb⟩
    refine ⟨hx, b.reverse, a.reverse, by simp, ?_⟩
    intro y hy
    rw [hb y (List.mem_reverse.1 hy)]
    rfl

open Classical in
theorem itemWith_iff {P : Type} (items : List (RawItem P)) (h : Nat) (i : RawItem P) :
    (Dict.ofList ((items.filter fun i => decide (Spec.RealItem i)).map fun i => (i.hash, i))).get? h = some i ↔ Spec.ItemWith items h i := by
  rw [Dict.get?_ofList, ← List.map_reverse, List.find?_map, ← List.filter_reverse, List.find?_filter]
  simp only [Option.map_map, Option.map_eq_some_iff]
  constructor
  · rintro ⟨j, hj, rfl⟩
    obtain ⟨a, b, h1, h2, h3⟩ := (find?_reverse _ _ _).1 hj
    simp only [Function.comp_apply, Bool.and_eq_true, decide_eq_true_eq] at h2
    refine ⟨a, b, h1, h2.2, h2.1, ?_⟩
    intro k hk hr he
    have := h3 k hk
    simp [hr, he] at this
  · rintro ⟨a, b, h1, h2, h3, h4⟩
    refine ⟨i, (find?_reverse _ _ _).2 ⟨a, b, h1, by simp [h2, h3], ?_⟩, rfl⟩
    intro k hk
    by_cases hr : Spec.RealItem k
    · simp [hr, h4 k hk hr]
    · simp [hr]

theorem traitWith_iff (traits : List (Nat × Option Str)) (h : Nat) (n : Option Str) :
    (Dict.ofList traits).get? h = some n ↔ Spec.TraitWith traits h n := by
  rw [Dict.get?_ofList, Option.map_eq_some_iff]
  constructor
  · rintro ⟨⟨h', n'⟩, hj, rfl⟩
    obtain ⟨a, b, h1, h2, h3⟩ := (find?_reverse _ _ _).1 hj
    simp only [decide_eq_true_eq] at h2
    subst h2
    exact ⟨a, b, h1, fun t ht => by simpa using h3 t ht⟩
  · rintro ⟨a, b, h1, h2⟩
    exact ⟨(h, n), (find?_reverse _ _ _).2 ⟨a, b, h1, by simp, fun t ht => by simpa using h2 t ht⟩, rfl⟩

theorem get_eq_ok {K V : Type} [DecidableEq K] (d : Dict K V) (k : K) (v : V) : d.get k = .ok v ↔ d.get? k = some v := by
  unfold Dict.get
  cases d.get? k <;> simp

theorem get_error {K V : Type} [DecidableEq K] (d : Dict K V) (k : K) (e : Err) (h : d.get k = .error e) : e = .key := by
  unfold Dict.get at h
  cases hd : d.get? k <;> rw [hd] at h <;> simp at h
  exact h.symm

theorem get_map_eq_ok {K V W : Type} [DecidableEq K] (d : Dict K V) (f : V → W) (k : K) (w : W) :
    (d.get k).map f = .ok w ↔ ∃ v, d.get? k = some v ∧ w = f v := by
  unfold Dict.get
  cases d.get? k <;> simp [Except.map, eq_comm]

open Classical in
theorem resolveItem_iff {P : Type} (items : List (RawItem P)) (traits : List (Nat × Option Str)) (i : RawItem P) (o : TftItem P) :
    resolveItem (Dict.ofList ((items.filter fun i => decide (Spec.RealItem i)).map fun i => (i.hash, i))) (Dict.ofList traits) i = .ok o ↔
      Spec.ItemOutput items traits i o := by
  have hc : ∀ {W : Type} (f : RawItem P → W) (l : List W), i.composition.mapM (fun h => ((Dict.ofList ((items.filter fun i =>
      decide (Spec.RealItem i)).map fun i => (i.hash, i))).get h).map f) = .ok l ↔
      List.Forall₂ (fun h n => ∃ j, Spec.ItemWith items h j ∧ n = f j) i.composition l := by
    intro W f l
    rw [mapM_eq_ok]
    simp only [get_map_eq_ok, itemWith_iff]
  have ht : ∀ (hs : List Nat) (l : List (Option Str)), hs.mapM (Dict.ofList traits).get = .ok l ↔ List.Forall₂ (Spec.TraitWith traits) hs l := by
    intro hs l
    rw [mapM_eq_ok]
    simp only [get_eq_ok, traitWith_iff]
  constructor
  · intro h
    unfold resolveItem at h
    cases hid : i.id with
    | none =>
      rw [hid] at h
      simp only [bind, Except.bind] at h
      split at h <;> try contradiction
      rename_i c hcc
      split at h <;> try contradiction
      rename_i inc hinc
      split at h <;> try contradiction
      rename_i ass hass
      cases h
      exact ⟨hid ▸ rfl, rfl, rfl, rfl, rfl, (hc _ _).1 hcc, (ht _ _).1 hass, (ht _ _).1 hinc, hid⟩
    | some n =>
      rw [hid] at h
      simp only [bind, Except.bind] at h
      split at h <;> try contradiction
      rename_i l hl
      split at h <;> try contradiction
      rename_i c hcc
      split at h <;> try contradiction
      rename_i inc hinc
      split at h <;> try contradiction
      rename_i ass hass
      cases h
      exact ⟨hid ▸ rfl, rfl, rfl, rfl, rfl, (hc _ _).1 hcc, (ht _ _).1 hass, (ht _ _).1 hinc, by rw [hid]; simp, (hc _ _).1 hl⟩
  · rintro ⟨h1, h2, h3, h4, h5, h6, h7, h8, h9⟩
    unfold resolveItem
    rw [(hc _ _).2 h6, (ht _ _).2 h7, (ht _ _).2 h8]
    obtain ⟨oid, oname, oapi, odesc, ocomp, oass, oinc, ofrom, odata⟩ := o
    simp only at h1 h2 h3 h4 h5 h6 h7 h8 h9
    subst h1 h2 h3 h4 h5
    cases ofrom with
    | none =>
      simp only at h9
      rw [h9]
      rfl
    | some l =>
      obtain ⟨h9, h10⟩ := h9
      obtain ⟨n, hn⟩ := Option.ne_none_iff_exists'.1 h9
      rw [hn]
      simp only
      rw [(hc _ _).2 h10]
      rfl

theorem resolveItem_error {P : Type} (byHash : Dict Nat (RawItem P)) (traits : Dict Nat (Option Str)) (i : RawItem P) (e : Err)
    (h : resolveItem byHash traits i = .error e) : e = .key := by
  have hc : ∀ {W : Type} (f : RawItem P → W) (e : Err), i.composition.mapM (fun h => (byHash.get h).map f) = .error e → e = .key := by
    intro W f e he
    obtain ⟨a, _, ha⟩ := mapM_error _ _ _ he
    cases hg : byHash.get a with
    | error e' =>
      rw [hg] at ha
      cases ha
      exact get_error _ _ _ hg
    | ok v => rw [hg] at ha; cases ha
  have ht : ∀ (hs : List Nat) (e : Err), hs.mapM traits.get = .error e → e = .key := by
    intro hs e he
    obtain ⟨a, _, ha⟩ := mapM_error _ _ _ he
    exact get_error _ _ _ ha
  unfold resolveItem at h
  cases hid : i.id with
  | none =>
    rw [hid] at h
    simp only [bind, Except.bind] at h
    split at h
    · cases h; exact hc _ _ (by assumption)
    · split at h
      · cases h; exact ht _ _ (by assumption)
      · split at h
        · cases h; exact ht _ _ (by assumption)
        · cases h
  | some n =>
    rw [hid] at h
    simp only [bind, Except.bind] at h
    split at h
    · cases h; exact hc _ _ (by assumption)
    · split at h
      · cases h; exact hc _ _ (by assumption)
      · split at h
        · cases h; exact ht _ _ (by assumption)
        · split at h
          · cases h; exact ht _ _ (by assumption)
          · cases h

theorem outputSetsGo_eq (champs : Dict Str Nat) (sets : List TftSet) (acc : Dict Int TftSetInfo × List TftSetData) :
    outputSetsGo champs acc sets = ((sets.map fun s => (s.number, (⟨s.name, s.traits, setChampions champs s.chars⟩ : TftSetInfo))).foldl
      (fun d kv => d.set kv.1 kv.2) acc.1, acc.2 ++ sets.map (setDataOf champs)) := by
  induction sets generalizing acc with
  | nil => simp [outputSetsGo]
  | cons s rest ih => rw [outputSetsGo, ih]; simp

theorem getElem?_translateObjects {α : Type} (f : α → α) (objs : List α) (refs : List Nat) (r : Nat) :
    (translateObjects f objs refs)[r]? = objs[r]?.map f^[refs.count r] := by
  unfold translateObjects
  induction refs generalizing objs with
  | nil => simp
  | cons x refs ih =>
    rw [List.foldl_cons, ih, List.getElem?_modify, List.count_cons]
    by_cases hx : x = r
    · subst hx
      cases objs[x]? <;> simp [Function.iterate_succ]
    · cases objs[r]? <;> simp [hx]

theorem foldl_replaceSetData {P α : Type} (tr : Option Str → Option Str) (t : TftTemplate P) (l : List α) (ft fc : α → List Nat) :
    l.foldl (fun t s => replaceSetData tr t (ft s) (fc s)) t =
      { t with traits := translateObjects (TftTrait.translate tr) t.traits (l.flatMap ft)
               champs := translateObjects (TftChamp.translate tr) t.champs (l.flatMap fc) } := by
  induction l generalizing t with
  | nil => rfl
  | cons s l ih =>
    rw [List.foldl_cons, ih]
    simp [replaceSetData, translateObjects, List.foldl_append]

theorem translateObjects_append {α : Type} (f : α → α) (objs : List α) (a b : List Nat) :
    translateObjects f (translateObjects f objs a) b = translateObjects f objs (a ++ b) := by
  simp [translateObjects, List.foldl_append]

theorem translate_eq {P : Type} (tr : Option Str → Option Str) (t : TftTemplate P) :
    t.translate tr = { t with
      traits := translateObjects (TftTrait.translate tr) t.traits
        (t.sets.values.flatMap (fun s => s.traits) ++ t.setData.flatMap fun s => s.traits)
      champs := translateObjects (TftChamp.translate tr) t.champs
        (t.sets.values.flatMap (fun s => s.champions) ++ t.setData.flatMap fun s => s.champions)
      items := t.items.map (TftItem.translate tr) } := by
  unfold TftTemplate.translate
  rw [foldl_replaceSetData tr t t.sets.values (fun s => s.traits) (fun s => s.champions)]
  simp only
  rw [foldl_replaceSetData tr _ t.setData (fun s => s.traits) (fun s => s.champions)]
  simp only [translateObjects_append]

theorem iterate_idem {α : Type} (f : α → α) (h : ∀ x, f (f x) = f x) (n : Nat) (hn : 0 < n) (x : α) : f^[n] x = f x := by
  obtain ⟨m, rfl⟩ : ∃ m, n = m + 1 := ⟨n - 1, by omega⟩
  clear hn
  induction m with
  | zero => rfl
  | succ m ih => rw [Function.iterate_succ_apply', ih, h]

/-! ## Sets -/

/-- `setData` has the sets in order, each with exactly the champions of its characters that have data, in order. -/
theorem C54_set_data (sets : List TftSet) (champs : Dict Str Nat) :
    List.Forall₂ (fun (s : TftSet) (d : TftSetData) => d.number = s.number ∧ d.mutator = s.mutator ∧ d.name = s.name ∧ d.traits = s.traits ∧
      d.augments = s.augments ∧ d.items = s.items ∧
      List.Forall₂ (fun name c => (name, c) ∈ champs ∧ champs.get? name = some c) (s.chars.filter fun n => n ∈ champs.keys) d.champions)
      sets (buildOutputSets sets champs).2 := by
  rw [buildOutputSets, outputSetsGo_eq]
  simp only [List.nil_append, List.forall₂_map_right_iff, List.forall₂_same]
  intro s _
  refine ⟨rfl, rfl, rfl, rfl, rfl, rfl, ?_⟩
  unfold setDataOf setChampions
  simp only
  induction s.chars with
  | nil => exact .nil
  | cons n ns ih =>
    cases hn : champs.get? n with
    | none =>
      rw [List.filterMap_cons_none hn, List.filter_cons_of_neg (by simpa using Dict.get?_eq_none.1 hn)]
      exact ih
    | some c =>
      rw [List.filterMap_cons_some hn, List.filter_cons_of_pos (by
        have := Dict.get?_isSome.1 (by rw [hn]; rfl : (champs.get? n).isSome = true)
        simpa using this)]
      exact .cons ⟨Dict.mem_of_get? hn, hn⟩ ih

/-- `sets` has the last set of each number, with the same name, traits and champions as in `setData`. -/
theorem C54_sets (sets : List TftSet) (champs : Dict Str Nat) (number : Int) (info : TftSetInfo) :
    (buildOutputSets sets champs).1.get? number = some info ↔
      ∃ a d b, (buildOutputSets sets champs).2 = a ++ d :: b ∧ d.number = number ∧ (∀ x ∈ b, x.number ≠ number) ∧
        info.name = d.name ∧ info.traits = d.traits ∧ info.champions = d.champions := by
  rw [buildOutputSets, outputSetsGo_eq]
  simp only [List.nil_append]
  rw [show (sets.map fun s => (s.number, (⟨s.name, s.traits, setChampions champs s.chars⟩ : TftSetInfo))).foldl
      (fun d kv => Dict.set d kv.1 kv.2) ([] : Dict Int TftSetInfo) = Dict.ofList ((sets.map (setDataOf champs)).map fun d =>
        (d.number, (⟨d.name, d.traits, d.champions⟩ : TftSetInfo))) by rw [List.map_map]; rfl]
  generalize sets.map (setDataOf champs) = l
  rw [Dict.get?_ofList, ← List.map_reverse, List.find?_map]
  simp only [Option.map_map, Option.map_eq_some_iff]
  constructor
  · rintro ⟨d, hd, rfl⟩
    obtain ⟨a, b, h1, h2, h3⟩ := (find?_reverse _ _ _).1 hd
    exact ⟨a, d, b, h1, by simpa using h2, fun x hx => by simpa using h3 x hx, rfl, rfl, rfl⟩
  · rintro ⟨a, d, b, h1, h2, h3, h4, h5, h6⟩
    refine ⟨d, (find?_reverse _ _ _).2 ⟨a, b, h1, by simpa using h2, fun x hx => by simpa using h3 x hx⟩, ?_⟩
    obtain ⟨n, t, c⟩ := info
    simp only at h4 h5 h6
    simp [h4, h5, h6]

/-! ## Items -/

open Classical in
/-- `parse_items` succeeds exactly when it returns, in order, the items that are not templates, with the names (and for old patches
the ids) of the items and traits they refer to. -/
theorem C54_items {P : Type} (items : List (RawItem P)) (traits : List (Nat × Option Str)) (out : List (TftItem P)) :
    parseItems items traits = .ok out ↔ (∀ i ∈ items, i.name ≠ none) ∧
      List.Forall₂ (Spec.ItemOutput items traits) (items.filter fun i => decide (Spec.RealItem i)) out := by
  unfold parseItems
  rcases keptItems_spec items with ⟨h1, h2⟩ | ⟨⟨i, hi, h1⟩, h2⟩
  · rw [h2]
    simp only [bind, Except.bind]
    rw [mapM_eq_ok]
    simp only [resolveItem_iff]
    exact ⟨fun h => ⟨h1, h⟩, fun h => h.2⟩
  · rw [h2]
    constructor
    · intro h; cases h
    · intro h; exact absurd h1 (h.1 i hi)

/-- The names in the composition of an exported item are names of exported items. -/
theorem C54_composition {P : Type} (items : List (RawItem P)) (traits : List (Nat × Option Str)) (out : List (TftItem P))
    (h : parseItems items traits = .ok out) : ∀ o ∈ out, ∀ n ∈ o.composition, ∃ o' ∈ out, o'.apiName = n := by
  classical
  obtain ⟨_, h⟩ := (C54_items items traits out).1 h
  intro o ho n hn
  obtain ⟨k, hk⟩ := List.mem_iff_getElem?.1 ho
  have hlen := h.length_eq
  obtain ⟨i, hi⟩ : ∃ i, (items.filter fun i => decide (Spec.RealItem i))[k]? = some i := by
    have : k < out.length := (List.getElem?_eq_some_iff.1 hk).1
    exact ⟨_, List.getElem?_eq_getElem (hlen ▸ this)⟩
  have hio : Spec.ItemOutput items traits i o := by
    have := List.forall₂_iff_get.1 h
    obtain ⟨h1, rfl⟩ := List.getElem?_eq_some_iff.1 hk
    obtain ⟨h2, rfl⟩ := List.getElem?_eq_some_iff.1 hi
    exact this.2 k h2 h1
  obtain ⟨m, hm⟩ := List.mem_iff_getElem?.1 hn
  obtain ⟨hm1, rfl⟩ := List.getElem?_eq_some_iff.1 hm
  have hc := List.forall₂_iff_get.1 hio.composition
  obtain ⟨j, ⟨a, b, hj1, _, hj2, _⟩, hj3⟩ := hc.2 m (by rw [hc.1]; exact hm1) hm1
  have hj : j ∈ items.filter fun i => decide (Spec.RealItem i) := by
    rw [List.mem_filter]
    exact ⟨by rw [hj1]; simp, by simpa using hj2⟩
  obtain ⟨q, hq⟩ := List.mem_iff_getElem?.1 hj
  obtain ⟨hq1, hq2⟩ := List.getElem?_eq_some_iff.1 hq
  have := (List.forall₂_iff_get.1 h).2 q hq1 (hlen ▸ hq1)
  refine ⟨_, List.get_mem out ⟨q, hlen ▸ hq1⟩, ?_⟩
  rw [this.apiName]
  simp only [List.get_eq_getElem] at hj3 ⊢
  rw [hj3, hq2]

/-- Otherwise: `TypeError` when an item has no name, and `KeyError` when an exported item refers to an unknown item (or to a template)
or to an unknown trait. -/
theorem C54_items_error {P : Type} (items : List (RawItem P)) (traits : List (Nat × Option Str)) (e : Err)
    (h : parseItems items traits = .error e) : (e = .type ∧ ∃ i ∈ items, i.name = none) ∨ (e = .key ∧ ∀ i ∈ items, i.name ≠ none) := by
  classical
  unfold parseItems at h
  rcases keptItems_spec items with ⟨h1, h2⟩ | ⟨⟨i, hi, h1⟩, h2⟩
  · rw [h2] at h
    right
    obtain ⟨a, _, ha⟩ := mapM_error _ _ _ h
    exact ⟨resolveItem_error _ _ _ _ ha, h1⟩
  · rw [h2] at h
    cases h
    exact .inl ⟨rfl, i, hi, h1⟩

/-! ## Translations -/

/-- In the output of a language, the texts of a trait are translated as many times as the trait is listed in the sets. -/
theorem C54_traits {P : Type} (tr : Option Str → Option Str) (t : TftTemplate P) (r : Nat) :
    (t.translate tr).traits[r]? = t.traits[r]?.map fun x =>
      { x with name := tr^[Spec.traitUses t r] x.name, desc := tr^[Spec.traitUses t r] x.desc } := by
  rw [translate_eq]
  simp only [getElem?_translateObjects, List.count_append]
  rw [← Spec.traitUses]
  congr 1
  funext x
  induction Spec.traitUses t r generalizing x with
  | zero => rfl
  | succ n ih => rw [Function.iterate_succ_apply, ih]; rfl

/-- The same for champions: name, names of traits, ability -/
theorem C54_champions {P : Type} (tr : Option Str → Option Str) (t : TftTemplate P) (r : Nat) :
    (t.translate tr).champs[r]? = t.champs[r]?.map fun x =>
      { x with name := tr^[Spec.champUses t r] x.name, traits := x.traits.map tr^[Spec.champUses t r]
               abilityName := tr^[Spec.champUses t r] x.abilityName, abilityDesc := tr^[Spec.champUses t r] x.abilityDesc } := by
  rw [translate_eq]
  simp only [getElem?_translateObjects, List.count_append]
  rw [← Spec.champUses]
  congr 1
  funext x
  induction Spec.champUses t r generalizing x with
  | zero => simp
  | succ n ih => rw [Function.iterate_succ_apply, ih]; simp [TftChamp.translate]

/-- Items are translated once; nothing else is changed. -/
theorem C54_rest {P : Type} (tr : Option Str → Option Str) (t : TftTemplate P) :
    (t.translate tr).items = t.items.map (fun i => { i with name := tr i.name, desc := tr i.desc }) ∧
    (t.translate tr).sets = t.sets ∧ (t.translate tr).setData = t.setData ∧
    (t.translate tr).traits.map (·.data) = t.traits.map (·.data) ∧ (t.translate tr).champs.map (·.data) = t.champs.map (·.data) := by
  rw [translate_eq]
  refine ⟨rfl, rfl, rfl, ?_, ?_⟩
  · apply List.ext_getElem?
    intro r
    simp only [List.getElem?_map, getElem?_translateObjects, Option.map_map]
    congr 1
    funext x
    simp only [Function.comp_apply]
    generalize List.count r _ = n
    induction n generalizing x with
    | zero => rfl
    | succ n ih => rw [Function.iterate_succ_apply, ih]; rfl
  · apply List.ext_getElem?
    intro r
    simp only [List.getElem?_map, getElem?_translateObjects, Option.map_map]
    congr 1
    funext x
    simp only [Function.comp_apply]
    generalize List.count r _ = n
    induction n generalizing x with
    | zero => rfl
    | succ n ih => rw [Function.iterate_succ_apply, ih]; rfl

/-- When no translation is itself a key, the traits and champions of the sets have the texts of the language. -/
theorem C54_translated {P : Type} (tr : Option Str → Option Str) (t : TftTemplate P) (h : ∀ v, tr (tr v) = tr v) (s : TftSetData) (hs : s ∈ t.setData) :
    (∀ r ∈ s.traits, (t.translate tr).traits[r]? = t.traits[r]?.map fun x => { x with name := tr x.name, desc := tr x.desc }) ∧
    (∀ r ∈ s.champions, (t.translate tr).champs[r]? = t.champs[r]?.map fun x =>
      { x with name := tr x.name, traits := x.traits.map tr, abilityName := tr x.abilityName, abilityDesc := tr x.abilityDesc }) := by
  constructor
  · intro r hr
    have hn : 0 < Spec.traitUses t r := by
      have : 0 < (t.setData.flatMap fun s => s.traits).count r := List.count_pos_iff.2 (List.mem_flatMap.2 ⟨s, hs, hr⟩)
      unfold Spec.traitUses
      omega
    rw [C54_traits]
    simp only [iterate_idem tr h _ hn]
  · intro r hr
    have hn : 0 < Spec.champUses t r := by
      have : 0 < (t.setData.flatMap fun s => s.champions).count r := List.count_pos_iff.2 (List.mem_flatMap.2 ⟨s, hs, hr⟩)
      unfold Spec.champUses
      omega
    have e : tr^[Spec.champUses t r] = tr := funext fun x => iterate_idem tr h _ hn x
    rw [C54_champions]
    simp only [e]

/-- The texts of a text table are those it gives, and the others are unchanged. -/
theorem C54_table (env : RstEnv) (d : Dict Str Str) (v : Option Str) : (TrTable.text d).tr env v = match v with
    | none => none
    | some s => some ((d.get? s).getD s) := by
  cases v with
  | none => rfl
  | some s => simp only [TrTable.tr]; cases d.get? s <;> rfl

/-- Texts of RST tables -/
theorem C54_rst_table (env : RstEnv) (r : Rst) (s : Str) : (TrTable.rst r).tr env (some s) = some ((r.getD env (.str s) (some s)).getD s) ∧
    (TrTable.rst r).tr env none = none := by
  constructor
  · simp only [TrTable.tr, Rst.getD, Rst.hasKey, Rst.getitem, keyToHash, Dict.contains]
    have key : ∀ x : Option Str, (if x.isSome = true then
          (match (match x with | some t => Except.ok t | none => Except.error Err.key : Res Str) with
            | .ok x => some x
            | .error _ => some s) else some s) =
        some ((match (match x with | some t => Except.ok t | none => Except.error Err.key : Res Str) with
            | .ok x => some x
            | .error _ => some s).getD s) := by
      intro x; cases x <;> rfl
    exact key _
  · simp [TrTable.tr, Rst.hasKey, keyToHash]

/-! ## Languages -/

theorem tftExport_mono {P : Type} (env : RstEnv) (table : Str → Res TrTable) (template : TftTemplate P) (langs : List Str) (out : Dict Str (TftTemplate P))
    (lang : Str) (h : lang ∉ langs) : (tftExport env table template out langs).1.get? lang = out.get? lang := by
  induction langs generalizing out with
  | nil => rfl
  | cons l langs ih =>
    rw [tftExport]
    cases table l with
    | error e => rfl
    | ok t =>
      simp only
      rw [ih _ (fun h' => h (List.mem_cons_of_mem _ h')), Dict.get?_set, if_neg]
      rintro rfl
      exact h List.mem_cons_self

/-- The file of a language depends on the template and its string table only, not on the other languages: for languages that can be
loaded, each one is the translation of the template by its table. -/
theorem C54_languages {P : Type} (env : RstEnv) (table : Str → Res TrTable) (template : TftTemplate P) (langs : List Str)
    (h : ∀ l ∈ langs, ∃ t, table l = .ok t) :
    (tftExport env table template [] langs).2 = .ok () ∧
    ∀ lang t, table lang = .ok t → (tftExport env table template [] langs).1.get? lang = if lang ∈ langs then some (template.translate (t.tr env)) else none := by
  suffices H : ∀ out, (tftExport env table template out langs).2 = .ok () ∧ ∀ lang t, table lang = .ok t →
      (tftExport env table template out langs).1.get? lang = if lang ∈ langs then some (template.translate (t.tr env)) else out.get? lang from H []
  induction langs with
  | nil => intro out; exact ⟨rfl, fun _ _ _ => rfl⟩
  | cons l langs ih =>
    intro out
    obtain ⟨t, ht⟩ := h l List.mem_cons_self
    rw [tftExport, ht]
    obtain ⟨h1, h2⟩ := ih (fun x hx => h x (List.mem_cons_of_mem _ hx)) (out.set l (template.translate (t.tr env)))
    refine ⟨h1, fun lang t' ht' => ?_⟩
    rw [h2 lang t' ht', Dict.get?_set]
    by_cases h3 : lang ∈ langs
    · simp [h3]
    · by_cases h4 : lang = l
      · subst h4
        rw [ht] at ht'
        cases ht'
        simp
      · simp [h3, h4]

/-- A language that cannot be loaded stops the export: the files of the languages before it are written, those of the languages after it
are not. -/
theorem C54_failure {P : Type} (env : RstEnv) (table : Str → Res TrTable) (template : TftTemplate P) (before after : List Str) (lang : Str) (e : Err)
    (h : ∀ l ∈ before, ∃ t, table l = .ok t) (he : table lang = .error e) :
    tftExport env table template [] (before ++ lang :: after) = ((tftExport env table template [] before).1, .error e) := by
  suffices H : ∀ out, tftExport env table template out (before ++ lang :: after) = ((tftExport env table template out before).1, .error e) from H []
  induction before with
  | nil =>
    intro out
    rw [List.nil_append]
    simp only [tftExport, he]
  | cons l langs ih =>
    intro out
    obtain ⟨t, ht⟩ := h l List.mem_cons_self
    rw [List.cons_append]
    simp only [tftExport, ht]
    exact ih (fun x hx => h x (List.mem_cons_of_mem _ hx)) _

/-! ## Concrete cases -/

def exSets : List TftSet := [⟨1, none, some "One".toList, ["a".toList, "zz".toList, "b".toList], [0], [], []⟩,
  ⟨2, none, some "Two".toList, ["b".toList], [0, 1], [], []⟩]
def exChamps : Dict Str Nat := [("a".toList, 0), ("b".toList, 1)]
def exTemplate : TftTemplate Unit := {
  traits := [⟨some "t0".toList, none, ()⟩, ⟨some "t1".toList, some "d1".toList, ()⟩]
  champs := [⟨some "c0".toList, [some "t0".toList], none, none, ()⟩, ⟨some "c1".toList, [some "t1".toList], some "x".toList, none, ()⟩]
  sets := (buildOutputSets exSets exChamps).1
  setData := (buildOutputSets exSets exChamps).2
  items := [] }

example : (buildOutputSets exSets exChamps).2.map (·.champions) = [[0, 1], [1]] := by decide +kernel

/-- Trait 0 is translated four times, trait 1 twice: with a table in which a translation is a key, the output is not the
translation of the text. -/
example : Spec.traitUses exTemplate 0 = 4 ∧ Spec.traitUses exTemplate 1 = 2 ∧
    ((exTemplate.translate ((TrTable.text [("t1".toList, "T1".toList), ("T1".toList, "T2".toList)]).tr
      ⟨fun _ => [], fun _ => [], fun _ => 0, fun _ => 0, id⟩)).traits.map (·.name)) =
      [some "t0".toList, some "T2".toList] := by decide +kernel

def exItems : List (RawItem Unit) := [⟨1, some "TFT_Item_Sword".toList, none, some "s".toList, none, [], [], [], ()⟩,
  ⟨2, some "TFT_Item_Template".toList, none, none, none, [], [], [], ()⟩,
  ⟨3, some "TFT_Item_Big".toList, none, some "b".toList, none, [1, 1], [7], [], ()⟩]

example : ((parseItems exItems [(7, some "Trait".toList)]).toOption.getD []).map (fun o => (o.apiName, o.composition, o.associatedTraits)) =
    [(some "TFT_Item_Sword".toList, [], []),
      (some "TFT_Item_Big".toList, [some "TFT_Item_Sword".toList, some "TFT_Item_Sword".toList], [some "Trait".toList])] := by decide +kernel

/-- An item made of a template makes the export fail. -/
example : parseItems (exItems ++ [⟨4, some "X".toList, none, none, none, [2], [], [], ()⟩]) [(7, some "Trait".toList)] = .error .key := by
  decide +kernel

end Cdtb
