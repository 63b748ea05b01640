import Verif.Lemmas.Patches
import Mathlib.Data.List.Lex
import Mathlib.Data.List.Forall2
/-!
# C07  patches() groups consecutive elements by version and keeps the newest of each name

`patches elems` is `Storage.patches()` for the elements generated by the storage. Versions are
compared by their text (see C01).
-/
namespace Cdtb
set_option autoImplicit false
open Py Spec

theorem patches_versions {gs : List (List Elem)} {ps : List Patch}
    (h : List.Forall₂ (fun g p => IsPatchOf g p ∧ g.head?.map (·.version) = some p.version) gs ps) :
    ps.map (fun p => p.version.s) = gs.filterMap (fun g => g.head?.map fun e => e.version.s) := by
  induction h with
  | nil => rfl
  | @cons g p gs ps hgp _ ih =>
    rw [List.map_cons, ih]
    cases g with
    | nil => simp at hgp
    | cons a g => simp at hgp; simp [hgp]

/-- `patches()` never fails; the elements are cut into runs, one per patch, each patch being made
from its run per `Spec.IsPatchOf`; the versions of the patches are those of the elements with
consecutive repeats merged. -/
theorem C07_patches (elems : List Elem) :
    ∃ (runs : List (List Elem)) (ps : List Patch), patches elems = .ok ps ∧
      runs.flatten = elems ∧ List.Forall₂ IsPatchOf runs ps ∧
      ps.map (fun p => p.version.s) = mergeRepeats (elems.map fun e => e.version.s) := by
  obtain ⟨ps, h1, h2⟩ := patches_spec elems
  refine ⟨groupBy sameVersion elems, ps, h1, groupBy_flatten _ _, List.Forall₂.imp (fun _ _ h => h.1) h2, ?_⟩
  rw [← groupBy_keys (fun e => e.version.s) sameVersion sameVersion_eq elems, patches_versions h2]

/-- Reading of `Spec.newestOfEach`: no two elements of a patch have the same name, and the one listed
for a name is the first of the run having it. -/
theorem C07_newest (run : List Elem) (p : Patch) (h : IsPatchOf run p) :
    (p.elements.map (·.name)).Nodup ∧ p.elements.Sublist run ∧
    ∀ e, e ∈ p.elements ↔ run.find? (fun x => decide (x.name = e.name)) = some e := by
  rw [h.elements, ← firsts_nil_eq]
  refine ⟨firsts_nodup _ _, firsts_sublist _ _, fun e => ?_⟩
  rw [mem_firsts]; simp

/-- When versions never come back, each version has a single patch. -/
theorem C07_unique (elems : List Elem) (h : NeverBack (elems.map fun e => e.version.s))
    (ps : List Patch) (hps : patches elems = .ok ps) : (ps.map fun p => p.version.s).Nodup := by
  obtain ⟨_, ps', h1, -, -, h2⟩ := C07_patches elems
  rw [hps] at h1
  cases h1
  rw [h2]
  generalize elems.map (fun e => e.version.s) = l at h
  clear hps h2 ps
  induction l using mergeRepeats.induct with
  | case1 => simp [mergeRepeats]
  | case2 => simp [mergeRepeats]
  | case3 y r ih =>
    rw [mergeRepeats, if_pos rfl]
    refine ih fun i j k x y' hij hjk hi hj hk => ?_
    exact h (i + 1) (j + 1) (k + 1) x y' (by omega) (by omega) (by simpa using hi) (by simpa using hj) (by simpa using hk)
  | case4 y z r hne ih =>
    rw [mergeRepeats, if_neg hne, List.nodup_cons]
    constructor
    · rw [mem_mergeRepeats, List.mem_iff_getElem?]
      rintro ⟨k, hk⟩
      exact hne (h 0 1 (k + 1) y z (by omega) (by omega) (by simp) (by simp) (by simpa using hk)).symm
    · refine ih fun i j k x y' hij hjk hi hj hk => ?_
      exact h (i + 1) (j + 1) (k + 1) x y' (by omega) (by omega) (by simpa using hi) (by simpa using hj) (by simpa using hk)

/-- A patch version built from numbers: its text is canonical. -/
theorem patchVersion_tup {t : List Int} {v : Version} (h : patchVersion (.tup t) = .ok v) :
    ∃ a b : Int, v = ⟨join ['.'] ([a, b].map showInt), .nums [a, b]⟩ := by
  match t with
  | [] => simp [patchVersion, baseVersion, bind, Except.bind] at h
  | [x] => simp [patchVersion, baseVersion, bind, Except.bind] at h
  | [x, y] => simp [patchVersion, baseVersion, bind, Except.bind] at h; exact ⟨x, y, by simp [← h]⟩
  | x :: y :: z :: r => simp [patchVersion, baseVersion, bind, Except.bind] at h; exact ⟨x, y, by simp [← h]⟩

/-- On canonical versions `>=` is `>` or the same text. -/
theorem ge_of_canonical {a b : Version} {t u : List Int} (ha : patchVersion (.tup t) = .ok a)
    (hb : patchVersion (.tup u) = .ok b) (h : a.cmp .ge b = .ok true) : a.s = b.s ∨ a.cmp .gt b = .ok true := by
  obtain ⟨x, y, rfl⟩ := patchVersion_tup ha
  obtain ⟨x', y', rfl⟩ := patchVersion_tup hb
  simp only [Version.cmp, tupleCmp_ge, tupleCmp_gt, tupleCmp_lt, Except.ok.injEq, decide_eq_true_eq,
    Bool.not_eq_true', decide_eq_false_iff_not, not_lt] at h ⊢
  rcases h.lt_or_eq with h | h
  · exact Or.inr h
  · left; rw [h]

theorem gt_irrefl_text {a b : Version} {t u : List Int} (ha : patchVersion (.tup t) = .ok a)
    (hb : patchVersion (.tup u) = .ok b) (h : a.cmp .gt b = .ok true) : a.s ≠ b.s := by
  obtain ⟨x, y, rfl⟩ := patchVersion_tup ha
  obtain ⟨x', y', rfl⟩ := patchVersion_tup hb
  simp only [Version.cmp, tupleCmp_gt, tupleCmp_lt, Except.ok.injEq, decide_eq_true_eq] at h ⊢
  intro hs
  have := join_showInt_inj (by simp) (by simp) hs
  rw [this] at h
  exact lt_irrefl _ h

theorem groups_heads_sublist (gs : List (List Elem)) (vs : List Version)
    (h : List.Forall₂ (fun g v => g.head?.map Elem.version = some v) gs vs) :
    vs.Sublist (gs.flatten.map Elem.version) := by
  induction h with
  | nil => simp
  | @cons g v gs vs hg _ ih =>
    cases g with
    | nil => simp at hg
    | cons e g =>
      simp at hg
      rw [List.flatten_cons, List.cons_append, List.map_cons, hg, List.map_append]
      exact (ih.trans (List.sublist_append_right _ _)).cons_cons _

/-- A storage that lists its elements from the newest (numbered versions, in canonical form) gives
patches in strictly decreasing order. -/
theorem C07_decreasing (elems : List Elem)
    (hv : ∀ e ∈ elems, ∃ t, patchVersion (.tup t) = .ok e.version)
    (hs : elems.Pairwise fun a b => a.version.cmp .ge b.version = .ok true)
    (ps : List Patch) (hps : patches elems = .ok ps) :
    ps.Pairwise fun p q => p.version.cmp .gt q.version = .ok true := by
  obtain ⟨ps', h1, h2⟩ := patches_spec elems
  rw [hps] at h1
  cases h1
  have hsub : (ps.map (·.version)).Sublist (elems.map Elem.version) := by
    have := groups_heads_sublist (groupBy sameVersion elems) (ps.map (·.version))
      (List.forall₂_map_right_iff.2 (h2.imp fun _ _ h => h.2))
    rwa [groupBy_flatten] at this
  have hsv : (elems.map Elem.version).Pairwise (fun a b => a.cmp .ge b = .ok true) := List.pairwise_map.2 hs
  have hvv : ∀ v ∈ elems.map Elem.version, ∃ t, patchVersion (.tup t) = .ok v := by
    intro v hv'
    obtain ⟨e, he, rfl⟩ := List.mem_map.1 hv'
    exact hv e he
  have hnb : NeverBack (elems.map fun e => e.version.s) := by
    intro i j k x y hij hjk hi hj hk
    rw [List.getElem?_map, Option.map_eq_some_iff] at hi hj hk
    obtain ⟨a, ha, rfl⟩ := hi
    obtain ⟨b, hb, rfl⟩ := hj
    obtain ⟨c, hc, hca⟩ := hk
    obtain ⟨hil, ha⟩ := List.getElem?_eq_some_iff.1 ha
    obtain ⟨hjl, hb⟩ := List.getElem?_eq_some_iff.1 hb
    obtain ⟨hkl, hc⟩ := List.getElem?_eq_some_iff.1 hc
    rcases Nat.lt_or_eq_of_le hij with hij | rfl
    · rcases Nat.lt_or_eq_of_le hjk with hjk | rfl
      · have h1 := List.pairwise_iff_getElem.1 hs i j hil hjl hij
        have h2 := List.pairwise_iff_getElem.1 hs j k hjl hkl hjk
        rw [ha, hb] at h1
        rw [hb, hc] at h2
        obtain ⟨t, ht⟩ := hv a (ha ▸ List.getElem_mem hil)
        obtain ⟨u, hu⟩ := hv b (hb ▸ List.getElem_mem hjl)
        obtain ⟨w, hw⟩ := hv c (hc ▸ List.getElem_mem hkl)
        rcases ge_of_canonical ht hu h1 with h | h
        · exact h.symm
        · exfalso
          obtain ⟨x, y, hx⟩ := patchVersion_tup ht
          obtain ⟨x', y', hx'⟩ := patchVersion_tup hu
          obtain ⟨x'', y'', hx''⟩ := patchVersion_tup hw
          rw [hx, hx''] at hca
          rw [hx, hx'] at h
          rw [hx', hx''] at h2
          simp only at hca
          rw [join_showInt_inj (by simp) (by simp) hca] at h2
          simp only [Version.cmp, tupleCmp_ge, tupleCmp_gt, tupleCmp_lt, Except.ok.injEq, decide_eq_true_eq,
            Bool.not_eq_true', decide_eq_false_iff_not] at h h2
          exact h2 h
      · rw [hb] at hc; rw [hc, hca]
    · rw [ha] at hb; rw [hb]
  have hnodup := C07_unique elems hnb ps hps
  have hge := hsv.sublist hsub
  rw [List.pairwise_map] at hge
  have hne : ps.Pairwise (fun p q => p.version.s ≠ q.version.s) := List.pairwise_map.1 hnodup
  refine (hge.and hne).imp_of_mem ?_
  intro p q hp hq ⟨h, hn⟩
  obtain ⟨t, ht⟩ := hvv _ (hsub.subset (List.mem_map_of_mem hp))
  obtain ⟨u, hu⟩ := hvv _ (hsub.subset (List.mem_map_of_mem hq))
  exact (ge_of_canonical ht hu h).resolve_left hn

/-- Non-vacuity: three elements of 9.2 and 9.1; the newest game of 9.2 is kept. -/
example :
    let v (a b : Int) : Version := ⟨join ['.'] ([a, b].map showInt), .nums [a, b]⟩
    let game := "game".toList
    let client := "client".toList
    let l : List Elem := [⟨game, v 9 2, 0⟩, ⟨client, v 9 2, 1⟩, ⟨game, v 9 2, 2⟩, ⟨client, v 9 1, 3⟩]
    patches l = .ok [⟨v 9 2, [⟨game, v 9 2, 0⟩, ⟨client, v 9 2, 1⟩]⟩, ⟨v 9 1, [⟨client, v 9 1, 3⟩]⟩] ∧
    (∀ e ∈ l, patchVersion (.tup (match e.version.t with | .nums t => t | .main => [])) = .ok e.version) ∧
    l.Pairwise (fun a b => a.version.cmp .ge b.version = .ok true) := by decide +kernel

/-- Boundary: in a storage that is not sorted, a version that comes back gives a second patch. -/
theorem C07_boundary : ∃ (elems : List Elem) (ps : List Patch), patches elems = .ok ps ∧
    ¬(ps.map fun p => p.version.s).Nodup := by
  let v (a b : Int) : Version := ⟨join ['.'] ([a, b].map showInt), .nums [a, b]⟩
  refine ⟨[⟨"game".toList, v 9 2, 0⟩, ⟨"game".toList, v 9 1, 1⟩, ⟨"game".toList, v 9 2, 2⟩], _, rfl, ?_⟩
  decide +kernel

end Cdtb
