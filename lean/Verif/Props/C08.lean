import Verif.Props.C07
/-!
# C08  Looking up a patch or an element returns the newest match, or None
-/
namespace Cdtb
set_option autoImplicit false
open Py Spec

/-- What "version" matches in a lookup: no constraint, or `==`. -/
def Wanted (version : Option VOther) (v : Version) : Prop :=
  match version with
  | none => True
  | some o => v.eq o = true

/-- `x` is the first item of `l` with `p`. -/
def IsFirst {α : Type} (l : List α) (p : α → Prop) (x : α) : Prop :=
  ∃ a b, l = a ++ x :: b ∧ p x ∧ ∀ y ∈ a, ¬p y

/-- `patch_element(name, version)`: the first element with the name and version, `None` exactly when
there is none. -/
theorem C08_element (elems : List Elem) (name : Str) (version : Option VOther) :
    (∀ e, storageElement elems name version = some e →
      IsFirst elems (fun e => e.name = name ∧ Wanted version e.version) e) ∧
    (storageElement elems name version = none ↔ ∀ e ∈ elems, ¬(e.name = name ∧ Wanted version e.version)) := by
  induction elems with
  | nil => simp [storageElement]
  | cons x xs ih =>
    have hdec : storageElement (x :: xs) name version = some x ∧ (x.name = name ∧ Wanted version x.version) ∨
        storageElement (x :: xs) name version = storageElement xs name version ∧ ¬(x.name = name ∧ Wanted version x.version) := by
      by_cases hn : x.name = name
      · cases version with
        | none => simp [storageElement, hn, Wanted]
        | some v => by_cases hv : x.version.eq v = true <;> simp [storageElement, hn, Wanted, hv]
      · simp [storageElement, hn]
    rcases hdec with ⟨h1, h2⟩ | ⟨h1, h2⟩
    · rw [h1]
      constructor
      · rintro e ⟨⟩; exact ⟨[], xs, rfl, h2, by simp⟩
      · constructor
        · simp
        · intro h; exact absurd h2 (h x (by simp))
    · rw [h1]
      constructor
      · intro e he
        obtain ⟨a, b, rfl, h3, h4⟩ := ih.1 e he
        refine ⟨x :: a, b, rfl, h3, ?_⟩
        intro y hy
        rcases List.mem_cons.1 hy with rfl | hy
        · exact h2
        · exact h4 y hy
      · rw [ih.2]
        constructor
        · intro h e he
          rcases List.mem_cons.1 he with rfl | he
          · exact h2
          · exact h e he
        · intro h e he; exact h e (by simp [he])

theorem find?_isFirst {α : Type} {l : List α} {p : α → Bool} {x : α} (h : l.find? p = some x) :
    IsFirst l (fun a => p a = true) x := by
  obtain ⟨h1, as, bs, h2, h3⟩ := List.find?_eq_some_iff_append.1 h
  exact ⟨as, bs, h2, h1, fun y hy => by simpa using h3 y hy⟩

/-- `patch(version)`: the first generated patch with that version, `None` exactly when there is none. -/
theorem C08_patch (elems : List Elem) (v : VOther) (ps : List Patch) (hps : patches elems = .ok ps) :
    (∀ p, storagePatch elems (some v) = .ok (some p) → IsFirst ps (fun p => p.version.eq v = true) p) ∧
    (storagePatch elems (some v) = .ok none ↔ ∀ p ∈ ps, p.version.eq v = false) ∧
    (∀ e, storagePatch elems (some v) ≠ .error e) := by
  simp only [storagePatch, hps, bind, Except.bind, Except.ok.injEq]
  refine ⟨fun p hp => find?_isFirst hp, ?_, by simp⟩
  rw [List.find?_eq_none]
  simp

/-- `patch()`: the first patch; on an empty storage it raises `StopIteration` instead of returning
`None` as documented. -/
theorem C08_latest_patch (elems : List Elem) :
    (elems = [] → storagePatch elems none = .error .stopIteration) ∧
    (elems ≠ [] → ∃ ps p, patches elems = .ok (p :: ps) ∧ storagePatch elems none = .ok (some p)) := by
  constructor
  · rintro rfl; rfl
  · intro h
    obtain ⟨x, xs, rfl⟩ := List.exists_cons_of_ne_nil h
    obtain ⟨ps, h1, h2⟩ := patches_spec (x :: xs)
    obtain ⟨g, gs, hg⟩ := groupBy_head sameVersion x xs
    rw [hg] at h2
    cases h2 with
    | @cons _ p _ ps h3 h4 => exact ⟨ps, p, h1, by simp [storagePatch, h1, bind, Except.bind]⟩

/-- The text of the version of a patch is found among the elements: `patch(v)` for a text or version
`v` succeeds exactly when some element has that version. -/
theorem C08_patch_found (elems : List Elem) (s : Str) :
    (∃ p, storagePatch elems (some (.str s)) = .ok (some p)) ↔ ∃ e ∈ elems, e.version.s = s := by
  obtain ⟨_, ps, hps, -, -, hv⟩ := C07_patches elems
  have hmem : (∃ p ∈ ps, p.version.s = s) ↔ ∃ e ∈ elems, e.version.s = s := by
    have := mem_mergeRepeats (elems.map fun e => e.version.s) s
    rw [← hv] at this
    simpa [List.mem_map] using this
  rw [← hmem]
  simp only [storagePatch, hps, bind, Except.bind, Except.ok.injEq]
  constructor
  · rintro ⟨p, hp⟩
    have h1 := List.mem_of_find?_eq_some hp
    have h2 := List.find?_some hp
    exact ⟨p, h1, by simpa [Version.eq] using h2⟩
  · rintro ⟨p, hp, hs⟩
    cases hf : ps.find? (fun p => p.version.eq (.str s)) with
    | some q => exact ⟨q, rfl⟩
    | none =>
      rw [List.find?_eq_none] at hf
      exact absurd (by simp [Version.eq, hs]) (hf p hp)

theorem groupBy_distinct {α β : Type} [DecidableEq β] (f : α → β) (l : List α) (h : (l.map f).Nodup) :
    groupBy (fun a b => decide (f a = f b)) l = l.map (fun a => [a]) := by
  induction l with
  | nil => rfl
  | cons x xs ih =>
    simp only [List.map_cons, List.nodup_cons] at h
    have := ih h.2
    unfold groupBy
    rw [this]
    cases xs with
    | nil => rfl
    | cons y r =>
      have hne : f x ≠ f y := fun e => h.1 (by simp [e])
      simp [hne]

theorem mapM_singletons {α β : Type} {f : List α → Res β} {g : α → β} (hf : ∀ a, f [a] = .ok (g a)) (l : List α) :
    (l.map fun a => [a]).mapM f = .ok (l.map g) := by
  induction l with
  | nil => rfl
  | cons a l ih => rw [List.map_cons, List.mapM_cons, hf, ih]; rfl

/-- `latest()` of a generated patch is the same patch. -/
theorem C08_latest (elems : List Elem) (ps : List Patch) (hps : patches elems = .ok ps) :
    ∀ p ∈ ps, p.latest = .ok p := by
  intro p hp
  obtain ⟨ps', h1, h2⟩ := patches_spec elems
  rw [hps] at h1; cases h1
  obtain ⟨g, hg, hgp⟩ : ∃ g ∈ groupBy sameVersion elems,
      Patch.create (firstByName [] g).values = .ok p := by
    unfold patches at hps
    have key : ∀ (l : List (List Elem)) (bs : List Patch),
        l.mapM (fun g => Patch.create (firstByName [] g).values) = .ok bs → p ∈ bs →
        ∃ g ∈ l, Patch.create (firstByName [] g).values = .ok p := by
      intro l
      induction l with
      | nil => intro bs h hb; simp [pure, Except.pure] at h; subst h; simp at hb
      | cons a l ih =>
        intro bs h hb
        rw [List.mapM_cons] at h
        cases ha : Patch.create (firstByName [] a).values with
        | error e => rw [ha] at h; simp [bind, Except.bind] at h
        | ok b =>
          rw [ha] at h
          cases hl : l.mapM (fun g => Patch.create (firstByName [] g).values) with
          | error e => rw [hl] at h; simp [bind, Except.bind] at h
          | ok cs =>
            rw [hl] at h
            simp [bind, Except.bind, pure, Except.pure] at h
            subst h
            rcases List.mem_cons.1 hb with rfl | hb
            · exact ⟨a, by simp, ha⟩
            · obtain ⟨g, hg, hgp⟩ := ih cs hl hb
              exact ⟨g, by simp [hg], hgp⟩
    exact key _ ps hps hp
  rw [firstByName_values] at hgp
  have hn := firsts_nodup [] g
  have hel : p.elements = firsts [] g := by
    unfold Patch.create at hgp
    split at hgp
    · simp at hgp
    · split at hgp
      · simp at hgp; rw [← hgp]; simp_all
      · simp at hgp
  unfold Patch.latest
  rw [hel, groupBy_distinct Elem.name _ hn, mapM_singletons (g := id) (fun a => rfl)]
  simp only [List.map_id, bind, Except.bind]
  exact hgp

/-- On a storage whose versions never come back, `patch(v)` and `patch_element(name, v)` agree: the
element found is the one of that name in the patch. -/
theorem C08_agree (elems : List Elem) (h : NeverBack (elems.map fun e => e.version.s)) (s : Str) (name : Str)
    (p : Patch) (hp : storagePatch elems (some (.str s)) = .ok (some p)) :
    storageElement elems name (some (.str s)) = p.elements.find? (fun e => decide (e.name = name)) := by
  obtain ⟨runs, ps, hps, hflat, hf2, hv⟩ := C07_patches elems
  have hnd := C07_unique elems h ps hps
  simp only [storagePatch, hps, bind, Except.bind, Except.ok.injEq] at hp
  have hpm := List.mem_of_find?_eq_some hp
  have hps' : p.version.s = s := by simpa [Version.eq] using List.find?_some hp
  -- the run of the patch
  have key : ∀ (runs : List (List Elem)) (ps : List Patch), List.Forall₂ IsPatchOf runs ps →
      (ps.map fun p => p.version.s).Nodup → p ∈ ps →
      ∃ a r b, runs = a ++ r :: b ∧ IsPatchOf r p ∧ (∀ g ∈ a, ∀ e ∈ g, e.version.s ≠ s) ∧
        (∀ g ∈ b, ∀ e ∈ g, e.version.s ≠ s) := by
    intro runs ps hf
    induction hf with
    | nil => simp
    | @cons g q gs qs hgq hrest ih =>
      intro hn hm
      simp only [List.map_cons, List.nodup_cons] at hn
      have hothers : ∀ g ∈ gs, ∃ q ∈ qs, IsPatchOf g q := by
        clear ih hn hm
        induction hrest with
        | nil => simp
        | @cons g' q' gs' qs' h1 h2 ih =>
          intro x hx
          rcases List.mem_cons.1 hx with rfl | hx
          · exact ⟨q', by simp, h1⟩
          · obtain ⟨q, hq, hxq⟩ := ih x hx
            exact ⟨q, by simp [hq], hxq⟩
      rcases List.mem_cons.1 hm with rfl | hm
      · refine ⟨[], g, gs, rfl, hgq, by simp, ?_⟩
        intro g' hg' e he hes
        obtain ⟨q', hq', hgq'⟩ := hothers g' hg'
        apply hn.1
        rw [List.mem_map]
        exact ⟨q', hq', by rw [← hgq'.version e he, hes, hps']⟩
      · obtain ⟨a, r, b, rfl, h1, h2, h3⟩ := ih hn.2 hm
        refine ⟨g :: a, r, b, rfl, h1, ?_, h3⟩
        intro g' hg' e he
        rcases List.mem_cons.1 hg' with rfl | hg'
        · rw [hgq.version e he]
          intro hqs
          apply hn.1
          rw [List.mem_map]
          exact ⟨p, hm, by rw [hps', hqs]⟩
        · exact h2 g' hg' e he
  obtain ⟨a, r, b, rfl, hr, ha, hb⟩ := key runs ps hf2 hnd hpm
  have hse : ∀ l : List Elem, storageElement l name (some (.str s)) =
      l.find? (fun e => decide (e.name = name ∧ e.version.s = s)) := by
    intro l
    induction l with
    | nil => rfl
    | cons x l ih =>
      unfold storageElement
      by_cases hn : x.name = name
      · by_cases hx : x.version.s = s <;> simp [hn, hx, Version.eq, ih]
      · simp [hn, ih]
  rw [hse, ← hflat]
  have hnone : ∀ gs : List (List Elem), (∀ g ∈ gs, ∀ e ∈ g, e.version.s ≠ s) →
      gs.flatten.find? (fun e => decide (e.name = name ∧ e.version.s = s)) = none := by
    intro gs h
    rw [List.find?_eq_none]
    intro e he
    obtain ⟨g, hg, he⟩ := List.mem_flatten.1 he
    simp [h g hg e he]
  rw [List.flatten_append, List.flatten_cons, List.find?_append, hnone a ha, List.find?_append, hnone b hb]
  simp only [Option.none_or, Option.or_none]
  have hfr : r.find? (fun e => decide (e.name = name ∧ e.version.s = s)) = r.find? (fun e => decide (e.name = name)) := by
    have hrv : ∀ e ∈ r, e.version.s = s := fun e he => by rw [hr.version e he, hps']
    clear hr hf2 hflat key
    induction r with
    | nil => rfl
    | cons x r ih =>
      rw [List.find?_cons, List.find?_cons, hrv x (by simp), ih (fun e he => hrv e (by simp [he]))]
      simp
  rw [hfr]
  obtain ⟨h1, h2, h3⟩ := C07_newest r p hr
  cases hfind : r.find? (fun e => decide (e.name = name)) with
  | some e =>
    have hen : e.name = name := by simpa using List.find?_some hfind
    have hep : e ∈ p.elements := (h3 e).2 (by rw [hen]; exact hfind)
    symm
    cases hf : p.elements.find? (fun e => decide (e.name = name)) with
    | none => rw [List.find?_eq_none] at hf; exact absurd (by simpa using hen) (hf e hep)
    | some e' =>
      have he'n : e'.name = name := by simpa using List.find?_some hf
      have he'p := (h3 e').1 (List.mem_of_find?_eq_some hf)
      rw [he'n, hfind] at he'p
      rw [he'p]
  | none =>
    symm
    rw [List.find?_eq_none] at hfind ⊢
    intro e he
    exact hfind e (h2.subset he)

/-- Non-vacuity, on a storage with two patches. -/
example :
    let v (a b : Int) : Version := ⟨join ['.'] ([a, b].map showInt), .nums [a, b]⟩
    let game := "game".toList
    let client := "client".toList
    let l : List Elem := [⟨game, v 9 2, 0⟩, ⟨client, v 9 2, 1⟩, ⟨game, v 9 2, 2⟩, ⟨client, v 9 1, 3⟩]
    storagePatch l (some (.str "9.1".toList)) = .ok (some ⟨v 9 1, [⟨client, v 9 1, 3⟩]⟩) ∧
    storagePatch l (some (.str "9.3".toList)) = .ok none ∧
    storageElement l client (some (.tup [9, 1])) = some ⟨client, v 9 1, 3⟩ ∧
    storageElement l game (some (.tup [9, 1])) = none := by decide +kernel

/-! ## Cases that meet the hypotheses -/

/-- `C08_agree` -/
example :
    let v (a b : Int) : Version := ⟨join ['.'] ([a, b].map showInt), .nums [a, b]⟩
    let game := "game".toList
    let client := "client".toList
    let l : List Elem := [⟨game, v 9 2, 0⟩, ⟨client, v 9 2, 1⟩, ⟨game, v 9 2, 2⟩, ⟨client, v 9 1, 3⟩]
    NeverBack (l.map fun e => e.version.s) ∧ storagePatch l (some (.str "9.2".toList)) = .ok (some ⟨v 9 2, [⟨game, v 9 2, 0⟩, ⟨client, v 9 2, 1⟩]⟩) := by
  intro v game client l
  refine ⟨?_, by decide +kernel⟩
  have hl : l.map (fun e => e.version.s) = ["9.2".toList, "9.2".toList, "9.2".toList, "9.1".toList] := by decide +kernel
  have hne : "9.2".toList ≠ "9.1".toList := by decide +kernel
  rw [hl]
  generalize "9.2".toList = x at hne ⊢
  generalize "9.1".toList = y at hne ⊢
  intro i j k a b hij hjk h1 h2 h3
  have hk : k < 4 := by
    have := (List.getElem?_eq_some_iff.1 h3).1
    simpa using this
  have : i < 4 ∧ j < 4 := by omega
  rcases this with ⟨hi, hj⟩
  interval_cases i <;> interval_cases j <;> interval_cases k <;> simp_all

end Cdtb
