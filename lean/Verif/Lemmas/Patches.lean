import Verif.Spec.Patches
import Verif.Lemmas.Dict
import Verif.Lemmas.Version
/-!
# Lemmas on grouping
-/
namespace Cdtb
set_option autoImplicit false
open Py

theorem groupBy_cases {α : Type} (same : α → α → Bool) (x : α) (xs : List α) :
    (groupBy same xs = [] ∧ groupBy same (x :: xs) = [[x]]) ∨
    (∃ gs, groupBy same xs = [] :: gs ∧ groupBy same (x :: xs) = [x] :: gs) ∨
    (∃ y g gs, groupBy same xs = (y :: g) :: gs ∧
      groupBy same (x :: xs) = if same x y then (x :: y :: g) :: gs else [x] :: (y :: g) :: gs) := by
  rcases h : groupBy same xs with _ | ⟨_ | ⟨y, g⟩, gs⟩
  · left; simp [groupBy, h]
  · right; left; exact ⟨gs, rfl, by simp [groupBy, h]⟩
  · right; right; exact ⟨y, g, gs, rfl, by simp [groupBy, h]⟩

theorem groupBy_flatten {α : Type} (same : α → α → Bool) (l : List α) : (groupBy same l).flatten = l := by
  induction l with
  | nil => rfl
  | cons x xs ih =>
    rcases groupBy_cases same x xs with ⟨h1, h2⟩ | ⟨gs, h1, h2⟩ | ⟨y, g, gs, h1, h2⟩
    · rw [h1] at ih; rw [h2]; simp at ih; simp [← ih]
    · rw [h1] at ih; rw [h2]; simp at ih; simp [← ih]
    · rw [h1] at ih; rw [h2]
      split <;> (simp at ih; simp [← ih])

theorem groupBy_ne_nil {α : Type} (same : α → α → Bool) (l : List α) : ∀ g ∈ groupBy same l, g ≠ [] := by
  induction l with
  | nil => simp [groupBy]
  | cons x xs ih =>
    rcases groupBy_cases same x xs with ⟨h1, h2⟩ | ⟨gs, h1, h2⟩ | ⟨y, g, gs, h1, h2⟩
    · rw [h2]; simp
    · exact absurd rfl (ih [] (by rw [h1]; simp))
    · rw [h1] at ih; rw [h2]
      split
      · intro g' hg'
        rcases List.mem_cons.1 hg' with rfl | h
        · simp
        · exact ih g' (List.mem_cons_of_mem _ h)
      · intro g' hg'
        rcases List.mem_cons.1 hg' with rfl | h
        · simp
        · exact ih g' h

/-- With a key function, all the elements of a group have the same key. -/
theorem groupBy_same {α β : Type} [DecidableEq β] (f : α → β) (same : α → α → Bool)
    (hs : ∀ a b, same a b = decide (f a = f b)) (l : List α) :
    ∀ g ∈ groupBy same l, ∀ a ∈ g, ∀ b ∈ g, f a = f b := by
  induction l with
  | nil => simp [groupBy]
  | cons x xs ih =>
    rcases groupBy_cases same x xs with ⟨h1, h2⟩ | ⟨gs, h1, h2⟩ | ⟨y, g, gs, h1, h2⟩
    · rw [h2]; simp
    · exact absurd rfl (groupBy_ne_nil same xs [] (by rw [h1]; simp))
    · rw [h1] at ih; rw [h2]
      split
      · rename_i hxy
        rw [hs, decide_eq_true_eq] at hxy
        intro g' hg'
        rcases List.mem_cons.1 hg' with rfl | h
        · have hy := ih (y :: g) (by simp)
          have hx : ∀ a ∈ x :: y :: g, f a = f y := by
            intro a ha
            rcases List.mem_cons.1 ha with rfl | ha
            · exact hxy
            · exact hy a ha y (by simp)
          intro a ha b hb
          rw [hx a ha, hx b hb]
        · exact ih g' (List.mem_cons_of_mem _ h)
      · intro g' hg'
        rcases List.mem_cons.1 hg' with rfl | h
        · simp
        · exact ih g' h

theorem groupBy_head {α : Type} (same : α → α → Bool) (x : α) (xs : List α) :
    ∃ g gs, groupBy same (x :: xs) = (x :: g) :: gs := by
  rcases groupBy_cases same x xs with ⟨h1, h2⟩ | ⟨gs, h1, h2⟩ | ⟨y, g, gs, h1, h2⟩
  · exact ⟨_, _, h2⟩
  · exact ⟨_, _, h2⟩
  · rw [h2]; split
    · exact ⟨_, _, rfl⟩
    · exact ⟨_, _, rfl⟩

/-- The keys of the groups are the keys of the sequence with repeats merged. -/
theorem groupBy_keys {α β : Type} [DecidableEq β] (f : α → β) (same : α → α → Bool)
    (hs : ∀ a b, same a b = decide (f a = f b)) (l : List α) :
    (groupBy same l).filterMap (fun g => g.head?.map f) = Spec.mergeRepeats (l.map f) := by
  induction l with
  | nil => rfl
  | cons x xs ih =>
    cases xs with
    | nil => simp [groupBy, Spec.mergeRepeats]
    | cons y r =>
      obtain ⟨g, gs, h⟩ := groupBy_head same y r
      rw [h] at ih
      simp only [groupBy] at h ⊢
      rw [h]
      simp only [hs, List.map_cons, Spec.mergeRepeats, decide_eq_true_eq]
      simp only [List.map_cons] at ih
      split
      · rename_i he
        rw [← ih]
        simp [he]
      · rename_i he
        rw [← ih]
        simp

/-! ## First element of each name -/

/-- Elements whose name was not seen before. -/
def firsts : List Str → List Elem → List Elem
  | _, [] => []
  | seen, e :: es => if e.name ∈ seen then firsts seen es else e :: firsts (seen ++ [e.name]) es

theorem firstByName_eq (d : Dict Str Elem) (l : List Elem) :
    firstByName d l = d ++ (firsts d.keys l).map (fun e => (e.name, e)) := by
  induction l generalizing d with
  | nil => simp [firstByName, firsts]
  | cons e es ih =>
    unfold firstByName firsts
    by_cases h : e.name ∈ d.keys
    · rw [if_pos (Dict.contains_iff.2 h), if_pos h, ih]
    · rw [if_neg (by rw [Dict.contains_iff]; exact h), if_neg h, ih, Dict.keys_set, if_neg h,
        Dict.set_of_not_mem h]
      simp

theorem firstByName_values (l : List Elem) : (firstByName [] l).values = firsts [] l := by
  rw [firstByName_eq]
  simp [Dict.values, Dict.keys, Function.comp_def]

theorem firsts_sublist (seen : List Str) (l : List Elem) : (firsts seen l).Sublist l := by
  induction l generalizing seen with
  | nil => exact List.Sublist.refl _
  | cons e es ih =>
    unfold firsts
    split
    · exact (ih _).cons _
    · exact (ih _).cons_cons _

theorem mem_firsts (seen : List Str) (l : List Elem) (e : Elem) :
    e ∈ firsts seen l ↔ e.name ∉ seen ∧ l.find? (fun x => decide (x.name = e.name)) = some e := by
  induction l generalizing seen with
  | nil => simp [firsts]
  | cons a es ih =>
    unfold firsts
    by_cases h : a.name ∈ seen
    · rw [if_pos h, ih]
      by_cases he : a.name = e.name
      · rw [he] at h; simp [h]
      · simp [List.find?_cons, he]
    · rw [if_neg h, List.mem_cons, ih]
      by_cases he : a.name = e.name
      · rw [he] at h
        simp [he, h, eq_comm]
      · have : e ≠ a := fun h' => he (by rw [h'])
        simp [he, Ne.symm he, this]

theorem firsts_nodup (seen : List Str) (l : List Elem) :
    ((firsts seen l).map (·.name)).Nodup := by
  induction l generalizing seen with
  | nil => simp [firsts]
  | cons a es ih =>
    unfold firsts
    by_cases h : a.name ∈ seen
    · rw [if_pos h]; exact ih _
    · rw [if_neg h, List.map_cons, List.nodup_cons]
      refine ⟨?_, ih _⟩
      intro hm
      obtain ⟨e, he, hn⟩ := List.mem_map.1 hm
      rw [mem_firsts] at he
      exact he.1 (by simp [hn])

theorem firsts_eq (seen : List Str) (l : List Elem) :
    firsts seen l = (Spec.newestOfEach l).filter (fun x => decide (x.name ∉ seen)) := by
  induction l generalizing seen with
  | nil => rfl
  | cons a es ih =>
    unfold firsts Spec.newestOfEach
    by_cases h : a.name ∈ seen
    · rw [if_pos h, ih, List.filter_cons_of_neg (by simpa using h), List.filter_filter]
      apply List.filter_congr
      intro x _
      by_cases hx : x.name ∈ seen
      · simp [hx]
      · have : x.name ≠ a.name := fun e => hx (e ▸ h)
        simp [hx, this]
    · rw [if_neg h, ih, List.filter_cons_of_pos (by simpa using h), List.filter_filter]
      congr 1
      apply List.filter_congr
      intro x _
      simp

theorem firsts_nil_eq (l : List Elem) : firsts [] l = Spec.newestOfEach l := by
  rw [firsts_eq]; simp

theorem firsts_cons_ne_nil (a : Elem) (l : List Elem) : ∃ es, firsts [] (a :: l) = a :: es := by
  simp [firsts]

theorem create_firsts (g : List Elem) (hg : g ≠ []) (hsame : ∀ a ∈ g, ∀ b ∈ g, a.version.s = b.version.s) :
    ∃ p, Patch.create (firstByName [] g).values = .ok p ∧ Spec.IsPatchOf g p ∧
      g.head?.map (·.version) = some p.version := by
  obtain ⟨a, l, rfl⟩ := List.exists_cons_of_ne_nil hg
  obtain ⟨es, hes⟩ := firsts_cons_ne_nil a l
  rw [firstByName_values, hes]
  have hsub : (a :: es).Sublist (a :: l) := hes ▸ firsts_sublist [] (a :: l)
  have hall : es.all (fun e' => e'.version.eq (.ver a.version)) = true := by
    rw [List.all_eq_true]
    intro e he
    simp only [Version.eq, decide_eq_true_eq]
    exact hsame e (hsub.subset (by simp [he])) a (by simp)
  refine ⟨⟨a.version, a :: es⟩, ?_, ?_, by simp⟩
  · simp only [Patch.create, hall, if_true]
  · exact ⟨fun e he => hsame e he a (by simp), ⟨a, by simp, rfl⟩, by rw [← hes, firsts_nil_eq]⟩

theorem mapM_forall₂ {α β : Type} {R : α → β → Prop} {f : α → Res β} {l : List α}
    (h : ∀ a ∈ l, ∃ b, f a = .ok b ∧ R a b) : ∃ bs, l.mapM f = .ok bs ∧ List.Forall₂ R l bs := by
  induction l with
  | nil => exact ⟨[], rfl, .nil⟩
  | cons a l ih =>
    obtain ⟨b, hb, hr⟩ := h a (by simp)
    obtain ⟨bs, hbs, hrs⟩ := ih (fun a ha => h a (by simp [ha]))
    refine ⟨b :: bs, ?_, .cons hr hrs⟩
    rw [List.mapM_cons, hb, hbs]; rfl

theorem mem_mergeRepeats {α : Type} [DecidableEq α] (l : List α) (x : α) : x ∈ Spec.mergeRepeats l ↔ x ∈ l := by
  induction l using Spec.mergeRepeats.induct with
  | case1 => simp [Spec.mergeRepeats]
  | case2 => simp [Spec.mergeRepeats]
  | case3 y r ih => simp [Spec.mergeRepeats, ih]
  | case4 y z r h ih => simp [Spec.mergeRepeats, h, ih]

theorem sameVersion_eq (a b : Elem) : sameVersion a b = decide (a.version.s = b.version.s) := rfl

/-- Groups and patches, in one statement. -/
theorem patches_spec (elems : List Elem) :
    ∃ ps, patches elems = .ok ps ∧
      List.Forall₂ (fun g p => Spec.IsPatchOf g p ∧ g.head?.map (·.version) = some p.version) (groupBy sameVersion elems) ps := by
  unfold patches
  apply mapM_forall₂
  intro g hg
  exact create_firsts g (groupBy_ne_nil _ _ g hg)
    (groupBy_same (fun e => e.version.s) sameVersion sameVersion_eq elems g hg)

end Cdtb
