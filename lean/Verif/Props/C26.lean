import Verif.Lemmas.Tree
import Verif.Spec.Paths
/-!
# C26 Reduced symlink paths cover exactly the unchanged files
-/
namespace Cdtb
set_option autoImplicit false
open Py Spec

theorem splitChar_append_sep (c : Char) (s t : Str) : splitChar c (s ++ c :: t) = splitChar c s ++ splitChar c t := by
  induction s with
  | nil => simp [splitChar]
  | cons x s ih =>
    rw [List.cons_append, splitChar, splitChar]
    by_cases h : x = c
    · rw [if_pos h, if_pos h, ih]; rfl
    · rw [if_neg h, if_neg h, ih]
      rcases hs : splitChar c s with _ | ⟨a, b⟩
      · exact absurd hs (splitChar_ne_nil c s)
      · rfl

theorem join_append {sep : Str} {a b : List Str} (ha : a ≠ []) (hb : b ≠ []) :
    join sep (a ++ b) = join sep a ++ sep ++ join sep b := by
  induction a with
  | nil => exact absurd rfl ha
  | cons x a ih =>
    by_cases h : a = []
    · subst h; rw [List.cons_append, List.nil_append, join_cons hb]; rfl
    · rw [List.cons_append, join_cons (by simp [h]), join_cons h, ih h]; simp [List.append_assoc]

theorem under_iff (r p : Str) : Under r p ↔ splitChar '/' r <+: splitChar '/' p := by
  constructor
  · rintro (rfl | ⟨t, rfl⟩)
    · exact List.prefix_refl _
    · rw [splitChar_append_sep]; exact List.prefix_append _ _
  · rintro ⟨t, ht⟩
    by_cases h : t = []
    · left
      rw [h, List.append_nil] at ht
      rw [← join_splitChar '/' p, ← ht, join_splitChar]
    · right
      refine ⟨join ['/'] t, ?_⟩
      rw [← join_splitChar '/' p, ← ht, join_append (splitChar_ne_nil _ _) h, join_splitChar]
      simp

theorem split_inj {a b : Str} (h : splitChar '/' a = splitChar '/' b) : a = b := by
  rw [← join_splitChar '/' a, h, join_splitChar]

theorem noConflict_iff (l : List Str) :
    NoConflict l ↔ ∀ a ∈ l, ∀ b ∈ l, splitChar '/' a <+: splitChar '/' b → a = b := by
  unfold NoConflict
  simp only [under_iff]

/-- Parts of paths: not empty, and without `/` -/
theorem parts_of_prefix {r : List Str} {p : Str} (hr : r ≠ []) (h : r <+: splitChar '/' p) : splitChar '/' (join ['/'] r) = r :=
  splitChar_join hr (fun x hx => splitChar_not_mem '/' p x (h.subset hx))

theorem topmost_exists {t1 t2 ex : Tree} (n : Nat) {r : List Str} (hn : r.length ≤ n) (h : Pick t1 t2 ex r) :
    ∃ s, s <+: r ∧ Topmost t1 t2 ex s := by
  induction n generalizing r with
  | zero =>
    have : r = [] := List.length_eq_zero_iff.1 (by omega)
    subst this
    exact ⟨[], List.prefix_refl _, h, fun s hs _ => List.prefix_nil.1 hs⟩
  | succ n ih =>
    by_cases hs : ∃ s, s <+: r ∧ s ≠ r ∧ Pick t1 t2 ex s
    · obtain ⟨s, h1, h2, h3⟩ := hs
      have hl : s.length < r.length := by
        rcases Nat.lt_or_ge s.length r.length with h | h
        · exact h
        · exact absurd (h1.eq_of_length_le h) h2
      obtain ⟨u, hu, ht⟩ := ih (r := s) (by omega) h3
      exact ⟨u, hu.trans h1, ht⟩
    · refine ⟨r, List.prefix_refl _, h, fun s h1 h2 => ?_⟩
      by_contra h3
      exact hs ⟨s, h1, h3, h2⟩

/-- For sets of paths where no path is both a file and a directory, when all the unchanged paths are in the previous set
and none is excluded: the returned paths cover exactly the unchanged ones among those of the previous set, contain no
excluded path, do not overlap, and are maximal. -/
theorem C26_reduce (paths1 paths2 excludes : List Str) (h1 : NoConflict (paths1 ++ excludes)) (h2 : NoConflict paths2)
    (hsub : ∀ p ∈ paths1, p ∈ paths2) (hdis : ∀ p ∈ paths1, p ∉ excludes) :
    ∃ ret, reduceCommonPaths paths1 paths2 excludes = .ok ret ∧ ret.Nodup ∧
      (∀ p ∈ paths2, (∃ r ∈ ret, Under r p) ↔ p ∈ paths1) ∧
      (∀ r ∈ ret, ∀ e ∈ excludes, ¬ Under r e) ∧
      (∀ r ∈ ret, ∃ p ∈ paths1, Under r p) ∧
      (∀ r ∈ ret, ∀ s ∈ ret, Under r s → r = s) ∧
      (∀ d, (∃ p ∈ paths1, Under d p) → (∀ p ∈ paths2, Under d p → p ∈ paths1) → (∀ e ∈ excludes, ¬ Under d e) →
        ∃ r ∈ ret, Under r d) := by
  have hc1 : NoConflict paths1 := fun a ha b hb => h1 a (List.mem_append_left _ ha) b (List.mem_append_left _ hb)
  have hcx : NoConflict excludes := fun a ha b hb => h1 a (List.mem_append_right _ ha) b (List.mem_append_right _ hb)
  obtain ⟨d1, e1, g1, q1⟩ := pathsToTree_spec paths1 ((noConflict_iff _).1 hc1)
  obtain ⟨d2, e2, g2, q2⟩ := pathsToTree_spec paths2 ((noConflict_iff _).1 h2)
  obtain ⟨dx, ex, gx, qx⟩ := pathsToTree_spec excludes ((noConflict_iff _).1 hcx)
  have hs : ∀ p, (Tree.node d1).Has p → (Tree.node d2).Has p := by
    intro p hp
    rw [q1] at hp; rw [q2]
    obtain ⟨p', hp', rfl⟩ := List.mem_map.1 hp
    exact List.mem_map.2 ⟨p', hsub p' hp', rfl⟩
  obtain ⟨rs, hn, er, hr⟩ := reduceRoot_spec g1 g2 gx hs
  -- what the returned paths are
  have child : ∀ n r', (∃ p, (Tree.node d1).Has (n :: p)) → ∃ c1 c2, (n, c1) ∈ d1 ∧ (Tree.node d2).item n = .ok c2 ∧
      (Pick c1 c2 ((Tree.node dx).getNone n) r' ↔ Pick (.node d1) (.node d2) (.node dx) (n :: r')) := by
    rintro n r' ⟨p, hp⟩
    obtain ⟨c1, hc1, _⟩ := (Tree.has_node_cons d1 n p).1 hp
    obtain ⟨c2, hc2, _⟩ := (Tree.has_node_cons d2 n p).1 (hs _ hp)
    have hi : (Tree.node d2).item n = .ok c2 := by unfold Tree.item Dict.get; simp only [hc2]
    exact ⟨c1, c2, Dict.mem_of_get? hc1, hi, (pick_cons hc1 hi).symm⟩
  have hfwd : ∀ r ∈ rs, r ≠ [] ∧ Pick (.node d1) (.node d2) (.node dx) r ∧
      ∀ s, s ≠ [] → s <+: r → Pick (.node d1) (.node d2) (.node dx) s → s = r := by
    intro r hmem
    obtain ⟨n, c1, c2, r', rfl, hm, hi, ht⟩ := (hr r).1 hmem
    have hg1 := Dict.get?_of_mem g1.wf hm
    refine ⟨by simp, (pick_cons hg1 hi).2 ht.1, ?_⟩
    intro s hs0 hs1 hs2
    cases s with
    | nil => exact absurd rfl hs0
    | cons m s =>
      obtain ⟨rfl, hs1'⟩ := List.cons_prefix_cons.1 hs1
      rw [ht.2 s hs1' ((pick_cons hg1 hi).1 hs2)]
  have hbwd : ∀ r, r ≠ [] → Pick (.node d1) (.node d2) (.node dx) r → ∃ s ∈ rs, s <+: r := by
    intro r h0 hp
    cases r with
    | nil => exact absurd rfl h0
    | cons n r' =>
      obtain ⟨p, hp1⟩ : ∃ p, (Tree.node d1).Has (n :: p) := by
        rcases hp with h | ⟨⟨p, h⟩, _⟩
        · exact ⟨_, h⟩
        · exact ⟨_, h⟩
      obtain ⟨c1, c2, hm, hi, hpk⟩ := child n r' ⟨p, hp1⟩
      obtain ⟨s, hs, ht⟩ := topmost_exists _ (Nat.le_refl _) (hpk.2 hp)
      exact ⟨n :: s, (hr _).2 ⟨n, c1, c2, s, rfl, hm, hi, ht⟩, List.cons_prefix_cons.2 ⟨rfl, hs⟩⟩
  -- each one is a prefix of an unchanged path
  have hpre : ∀ r ∈ rs, ∃ p ∈ paths1, r <+: splitChar '/' p := by
    intro r hmem
    obtain ⟨_, hp, _⟩ := hfwd r hmem
    rcases hp with h | ⟨⟨p, h⟩, _⟩
    · obtain ⟨p, hp, e⟩ := List.mem_map.1 ((q1 _).1 h)
      exact ⟨p, hp, by rw [e]; exact List.prefix_refl _⟩
    · obtain ⟨p', hp', e⟩ := List.mem_map.1 ((q1 _).1 h)
      exact ⟨p', hp', by rw [e]; exact List.prefix_append _ _⟩
  have hsplit : ∀ r ∈ rs, splitChar '/' (join ['/'] r) = r := by
    intro r hmem
    obtain ⟨p, _, h⟩ := hpre r hmem
    exact parts_of_prefix (hfwd r hmem).1 h
  have hinj : ∀ a ∈ rs, ∀ b ∈ rs, join ['/'] a = join ['/'] b → a = b := by
    intro a ha b hb h
    rw [← hsplit a ha, h, hsplit b hb]
  have hmain : (rs.map (join ['/'])).Nodup ∧
      (∀ p ∈ paths2, (∃ r ∈ rs.map (join ['/']), Under r p) ↔ p ∈ paths1) ∧
      (∀ r ∈ rs.map (join ['/']), ∀ e ∈ excludes, ¬ Under r e) ∧
      (∀ r ∈ rs.map (join ['/']), ∃ p ∈ paths1, Under r p) ∧
      (∀ r ∈ rs.map (join ['/']), ∀ s ∈ rs.map (join ['/']), Under r s → r = s) ∧
      (∀ d, (∃ p ∈ paths1, Under d p) → (∀ p ∈ paths2, Under d p → p ∈ paths1) → (∀ e ∈ excludes, ¬ Under d e) →
        ∃ r ∈ rs.map (join ['/']), Under r d) := by
    refine ⟨?_, ?_, ?_, ?_, ?_, ?_⟩
    · exact List.Nodup.map_on hinj hn
    · intro p hp2
      constructor
      · rintro ⟨x, hx, hu⟩
        obtain ⟨r, hr', rfl⟩ := List.mem_map.1 hx
        rw [under_iff, hsplit r hr'] at hu
        obtain ⟨_, hpk, _⟩ := hfwd r hr'
        rcases hpk with h | ⟨_, h, _⟩
        · obtain ⟨p', hp', e⟩ := List.mem_map.1 ((q1 _).1 h)
          have : p' = p := (noConflict_iff _).1 h2 p' (hsub p' hp') p hp2 (by rw [e]; exact hu)
          exact this ▸ hp'
        · obtain ⟨t, ht⟩ := hu
          have h3 := (h t).2 (by rw [q2, ht]; exact List.mem_map.2 ⟨p, hp2, rfl⟩)
          rw [q1, ht] at h3
          obtain ⟨p', hp', e⟩ := List.mem_map.1 h3
          exact split_inj e ▸ hp'
      · intro hp1
        obtain ⟨s, hs1, hs2⟩ := hbwd (splitChar '/' p) (splitChar_ne_nil _ _)
          (Or.inl ((q1 _).2 (List.mem_map.2 ⟨p, hp1, rfl⟩)))
        refine ⟨join ['/'] s, List.mem_map.2 ⟨s, hs1, rfl⟩, ?_⟩
        rw [under_iff, hsplit s hs1]; exact hs2
    · intro x hx e he hu
      obtain ⟨r, hr', rfl⟩ := List.mem_map.1 hx
      have hu' := hu
      rw [under_iff, hsplit r hr'] at hu
      obtain ⟨_, hpk, _⟩ := hfwd r hr'
      rcases hpk with h | ⟨⟨p, h⟩, _, h3⟩
      · obtain ⟨p', hp', e'⟩ := List.mem_map.1 ((q1 _).1 h)
        have : p' = e := h1 p' (List.mem_append_left _ hp') e (List.mem_append_right _ he)
          (by rw [under_iff, e']; exact hu)
        exact hdis p' hp' (this ▸ he)
      · obtain ⟨t, ht⟩ := hu
        by_cases h0 : t = []
        · -- the directory itself would be an excluded file
          rw [h0, List.append_nil] at ht
          obtain ⟨p', hp', e'⟩ := List.mem_map.1 ((q1 _).1 h)
          have : e = p' := h1 e (List.mem_append_right _ he) p' (List.mem_append_left _ hp')
            (by rw [under_iff, e', ← ht]; exact List.prefix_append _ _)
          exact hdis p' hp' (this ▸ he)
        · exact h3 t h0 (by rw [qx, ht]; exact List.mem_map.2 ⟨e, he, rfl⟩)
    · intro x hx
      obtain ⟨r, hr', rfl⟩ := List.mem_map.1 hx
      obtain ⟨p, hp, h⟩ := hpre r hr'
      exact ⟨p, hp, by rw [under_iff, hsplit r hr']; exact h⟩
    · intro x hx y hy hu
      obtain ⟨r, hr', rfl⟩ := List.mem_map.1 hx
      obtain ⟨s, hs', rfl⟩ := List.mem_map.1 hy
      rw [under_iff, hsplit r hr', hsplit s hs'] at hu
      rw [(hfwd s hs').2.2 r (hfwd r hr').1 hu (hfwd r hr').2.1]
    · rintro d ⟨p, hp, hdp⟩ hall hexc
      rw [under_iff] at hdp
      obtain ⟨s, hs1, hs2⟩ := hbwd (splitChar '/' d) (splitChar_ne_nil _ _) (by
        right
        obtain ⟨t, ht⟩ := hdp
        refine ⟨⟨t, by rw [q1, ht]; exact List.mem_map.2 ⟨p, hp, rfl⟩⟩, ?_, ?_⟩
        · intro u
          constructor
          · exact hs _
          · intro hu
            obtain ⟨p', hp', e⟩ := List.mem_map.1 ((q2 _).1 hu)
            rw [q1, ← e]
            exact List.mem_map.2 ⟨p', hall p' hp' (by rw [under_iff, e]; exact List.prefix_append _ _), rfl⟩
        · intro u _ hu
          obtain ⟨e', he', ee⟩ := List.mem_map.1 ((qx _).1 hu)
          exact hexc e' he' (by rw [under_iff, ee]; exact List.prefix_append _ _))
      refine ⟨join ['/'] s, List.mem_map.2 ⟨s, hs1, rfl⟩, ?_⟩
      rw [under_iff, hsplit s hs1]; exact hs2
  -- the special case of one empty path changes nothing
  have hret : reduceCommonPaths paths1 paths2 excludes = .ok (rs.map (join ['/'])) := by
    unfold reduceCommonPaths
    rw [e1, e2, ex]
    simp only [Bind.bind, Except.bind, er]
    by_cases hone : (decide ((rs.map (join ['/'])).length = 1) && decide ((rs.map (join ['/'])).head? = some [])) = true
    · rw [if_pos hone]
      rw [Bool.and_eq_true, decide_eq_true_eq, decide_eq_true_eq, List.length_map] at hone
      obtain ⟨r, rfl⟩ := List.length_eq_one_iff.1 hone.1
      have hj : join ['/'] r = [] := by simpa using hone.2
      have hr0 : r = [[]] := by
        rw [← hsplit r (List.mem_singleton.2 rfl), hj]; rfl
      subst hr0
      -- every item of the tree has this path above one of its leafs
      have hall : ∀ n ∈ d1.keys, n = [] := by
        intro n hn'
        obtain ⟨⟨n', c⟩, hm, rfl⟩ := List.mem_map.1 hn'
        have hg1 := Dict.get?_of_mem g1.wf hm
        obtain ⟨p, hp⟩ := (g1.good n' c hg1).exists_has
        obtain ⟨s, hs1, hs2⟩ := hbwd (n' :: p) (by simp) (Or.inl ((Tree.has_node_cons d1 n' p).2 ⟨c, hg1, hp⟩))
        rw [List.mem_singleton.1 hs1] at hs2
        exact (List.cons_prefix_cons.1 hs2).1.symm
      obtain ⟨n, c1, _, _, en, hm, _⟩ := (hr [[]]).1 (List.mem_singleton.2 rfl)
      have hk : d1.keys ≠ [] := List.ne_nil_of_mem (List.mem_map.2 ⟨_, hm, rfl⟩)
      have hlen : d1.keys.length ≤ 1 := by
        rcases hk2 : d1.keys with _ | ⟨a, _ | ⟨b, l⟩⟩
        · simp
        · simp
        · exfalso
          have hw := g1.wf
          unfold Dict.WF at hw
          rw [hk2] at hw
          have ha := hall a (by rw [hk2]; simp)
          have hb := hall b (by rw [hk2]; simp)
          rw [ha, hb] at hw
          simp at hw
      rcases hk2 : d1.keys with _ | ⟨a, _ | ⟨b, l⟩⟩
      · exact absurd hk2 hk
      · have ha := hall a (by rw [hk2]; simp)
        subst ha
        rfl
      · rw [hk2] at hlen; simp at hlen
    · rw [if_neg hone]; rfl
  exact ⟨_, hret, hmain⟩

theorem item_cases (t : Tree) (n : Str) : t = .leaf ∨ (∃ c, t.item n = .ok c) ∨ (t.item n = .error .key ∧ ∀ p, ¬ t.Has (n :: p)) := by
  cases t with
  | leaf => exact Or.inl rfl
  | node d =>
    right
    unfold Tree.item Dict.get
    rcases hg : Dict.get? d n with _ | c
    · refine Or.inr ⟨by simp only [hg], fun p h => ?_⟩
      obtain ⟨c, hc, _⟩ := (Tree.has_node_cons d n p).1 h
      rw [hg] at hc; cases hc
    · exact Or.inl ⟨c, by simp only [hg]⟩

/-- The loop, when some item is not in the second tree -/
theorem reduceItems_missing (parts : List Str) (t2 ex : Tree) (l : List (Str × Tree)) (h2 : t2 ≠ .leaf)
    (ih : ∀ n c1 c2, (n, c1) ∈ l → t2.item n = .ok c2 →
      (∃ rs, reduceTrees (parts ++ [n]) c1 c2 (ex.getNone n) = .ok rs) ∨
      reduceTrees (parts ++ [n]) c1 c2 (ex.getNone n) = .error .key)
    (hm : ∃ n c1, (n, c1) ∈ l ∧ ∀ c2, t2.item n = .ok c2 → reduceTrees (parts ++ [n]) c1 c2 (ex.getNone n) = .error .key) :
    reduceItems parts l t2 ex = .error .key := by
  induction l with
  | nil => obtain ⟨_, _, h, _⟩ := hm; cases h
  | cons x l ihl =>
    obtain ⟨n, c1⟩ := x
    rw [reduceItems]
    rcases item_cases t2 n with h | ⟨c2, h⟩ | ⟨h, _⟩
    · exact absurd h h2
    · rw [h]
      simp only [Bind.bind, Except.bind]
      rcases ih n c1 c2 (List.mem_cons_self) h with ⟨rs, hr⟩ | hr
      · rw [hr]
        have : reduceItems parts l t2 ex = .error .key := by
          refine ihl (fun m c c' hmem => ih m c c' (List.mem_cons_of_mem _ hmem)) ?_
          obtain ⟨m, c, hmem, hall⟩ := hm
          rcases List.mem_cons.1 hmem with e | hmem
          · cases e
            rw [hall c2 h] at hr; cases hr
          · exact ⟨m, c, hmem, hall⟩
        rw [this]
      · rw [hr]
    · rw [h]; rfl

theorem reduceTrees_missing {t1 : Tree} (h1 : t1.Good) : ∀ (parts : List Str) (t2 ex : Tree), t2.Good → ex.Good →
    (∀ a b, t1.Has a → t2.Has b → a <+: b ∨ b <+: a → a = b) → (∃ p, t1.Has p ∧ ¬ t2.Has p) →
    reduceTrees parts t1 t2 ex = .error .key := by
  induction h1 with
  | leaf =>
    rintro parts t2 ex h2 _ hc ⟨p, hp, hnp⟩
    exfalso
    rw [Tree.has_leaf] at hp
    subst hp
    obtain ⟨b, hb⟩ := h2.exists_has
    have := hc [] b rfl hb (Or.inl List.nil_prefix)
    exact hnp (this ▸ hb)
  | node d hw hne hg ih =>
    rintro parts t2 ex h2 hex hc ⟨p, hp, hnp⟩
    have hgood : (Tree.node d).Good := .node d hw hne hg
    rw [reduceTrees]
    rw [if_neg (by
      rw [Bool.and_eq_true, tree_eq_iff hgood h2]
      rintro ⟨h, _⟩
      exact hnp ((h p).1 hp))]
    have h2l : t2 ≠ .leaf := by
      rintro rfl
      have := hc p [] hp rfl (Or.inr List.nil_prefix)
      exact hnp (this ▸ rfl)
    have hch : ∀ n c1 c2, (n, c1) ∈ d → t2.item n = .ok c2 →
        (∃ p, c1.Has p ∧ ¬ c2.Has p) → reduceTrees (parts ++ [n]) c1 c2 (ex.getNone n) = .error .key := by
      intro n c1 c2 hm hi hx
      have hc1 := Dict.get?_of_mem hw hm
      refine ih n c1 hc1 _ c2 _ (item_good (Or.inl h2) hi) (getNone_good (Or.inl hex) n) ?_ hx
      intro a b ha hb hab
      have := hc (n :: a) (n :: b) ((Tree.has_node_cons d n a).2 ⟨c1, hc1, ha⟩) ((item_has hi b).2 hb)
        (by rcases hab with h | h
            · exact Or.inl (List.cons_prefix_cons.2 ⟨rfl, h⟩)
            · exact Or.inr (List.cons_prefix_cons.2 ⟨rfl, h⟩))
      simpa using this
    refine reduceItems_missing parts t2 ex d h2l ?_ ?_
    · intro n c1 c2 hm hi
      by_cases hx : ∃ p, c1.Has p ∧ ¬ c2.Has p
      · exact Or.inr (hch n c1 c2 hm hi hx)
      · left
        obtain ⟨rs, _, e, _⟩ := reduceTrees_spec (hg n c1 (Dict.get?_of_mem hw hm)) (parts ++ [n]) c2 (ex.getNone n)
          (item_good (Or.inl h2) hi) (getNone_good (Or.inl hex) n)
          (fun p hp => by by_contra h; exact hx ⟨p, hp, h⟩)
        exact ⟨_, e⟩
    · cases p with
      | nil => exact absurd hp (Tree.has_node_nil d)
      | cons n p =>
        obtain ⟨c1, hc1, hp1⟩ := (Tree.has_node_cons d n p).1 hp
        refine ⟨n, c1, Dict.mem_of_get? hc1, fun c2 hi => hch n c1 c2 (Dict.mem_of_get? hc1) hi ⟨p, hp1, ?_⟩⟩
        rw [← item_has hi]; exact hnp

/-- When an unchanged path is not in the previous set, `KeyError` is raised (again when no path is both a file and a
directory). -/
theorem C26_missing (paths1 paths2 excludes : List Str) (h1 : NoConflict (paths1 ++ paths2)) (hx : NoConflict excludes)
    (p : Str) (hp : p ∈ paths1) (hnp : p ∉ paths2) : reduceCommonPaths paths1 paths2 excludes = .error .key := by
  have hc1 : NoConflict paths1 := fun a ha b hb => h1 a (List.mem_append_left _ ha) b (List.mem_append_left _ hb)
  have hc2 : NoConflict paths2 := fun a ha b hb => h1 a (List.mem_append_right _ ha) b (List.mem_append_right _ hb)
  obtain ⟨d1, e1, g1, q1⟩ := pathsToTree_spec paths1 ((noConflict_iff _).1 hc1)
  obtain ⟨d2, e2, g2, q2⟩ := pathsToTree_spec paths2 ((noConflict_iff _).1 hc2)
  obtain ⟨dx, ex, gx, qx⟩ := pathsToTree_spec excludes ((noConflict_iff _).1 hx)
  have hcc : ∀ a b, (Tree.node d1).Has a → (Tree.node d2).Has b → a <+: b ∨ b <+: a → a = b := by
    intro a b ha hb hab
    obtain ⟨a', ha', rfl⟩ := List.mem_map.1 ((q1 _).1 ha)
    obtain ⟨b', hb', rfl⟩ := List.mem_map.1 ((q2 _).1 hb)
    rcases hab with h | h
    · rw [h1 a' (List.mem_append_left _ ha') b' (List.mem_append_right _ hb') ((under_iff _ _).2 h)]
    · rw [h1 b' (List.mem_append_right _ hb') a' (List.mem_append_left _ ha') ((under_iff _ _).2 h)]
  have hp1 : (Tree.node d1).Has (splitChar '/' p) := (q1 _).2 (List.mem_map.2 ⟨p, hp, rfl⟩)
  have hp2 : ¬ (Tree.node d2).Has (splitChar '/' p) := by
    intro h
    obtain ⟨p', hp', e⟩ := List.mem_map.1 ((q2 _).1 h)
    exact hnp (split_inj e ▸ hp')
  have key : reduceItems [] d1 (.node d2) (.node dx) = .error .key := by
    have hch : ∀ n c1 c2, (n, c1) ∈ d1 → (Tree.node d2).item n = .ok c2 →
        (∃ p, c1.Has p ∧ ¬ c2.Has p) → reduceTrees ([] ++ [n]) c1 c2 ((Tree.node dx).getNone n) = .error .key := by
      intro n c1 c2 hm hi hx
      have hc1 := Dict.get?_of_mem g1.wf hm
      refine reduceTrees_missing (g1.good n c1 hc1) _ c2 _ (item_good (Or.inr ⟨d2, rfl, g2⟩) hi)
        (getNone_good (Or.inr ⟨dx, rfl, gx⟩) n) ?_ hx
      intro a b ha hb hab
      have := hcc (n :: a) (n :: b) ((Tree.has_node_cons d1 n a).2 ⟨c1, hc1, ha⟩) ((item_has hi b).2 hb)
        (by rcases hab with h | h
            · exact Or.inl (List.cons_prefix_cons.2 ⟨rfl, h⟩)
            · exact Or.inr (List.cons_prefix_cons.2 ⟨rfl, h⟩))
      simpa using this
    refine reduceItems_missing [] _ _ d1 (by simp) ?_ ?_
    · intro n c1 c2 hm hi
      by_cases hx : ∃ p, c1.Has p ∧ ¬ c2.Has p
      · exact Or.inr (hch n c1 c2 hm hi hx)
      · left
        obtain ⟨rs, _, e, _⟩ := reduceTrees_spec (g1.good n c1 (Dict.get?_of_mem g1.wf hm)) ([] ++ [n]) c2 ((Tree.node dx).getNone n)
          (item_good (Or.inr ⟨d2, rfl, g2⟩) hi) (getNone_good (Or.inr ⟨dx, rfl, gx⟩) n)
          (fun p hp => by by_contra h; exact hx ⟨p, hp, h⟩)
        exact ⟨_, e⟩
    · generalize splitChar '/' p = q at hp1 hp2
      cases q with
      | nil => exact absurd hp1 (Tree.has_node_nil d1)
      | cons n p =>
        obtain ⟨c1, hc1, hp3⟩ := (Tree.has_node_cons d1 n p).1 hp1
        refine ⟨n, c1, Dict.mem_of_get? hc1, fun c2 hi => hch n c1 c2 (Dict.mem_of_get? hc1) hi ⟨p, hp3, ?_⟩⟩
        rw [← item_has hi]; exact hp2
  unfold reduceCommonPaths
  rw [e1, e2, ex]
  simp only [Bind.bind, Except.bind]
  rw [reduceTrees, if_neg (by simp [Tree.isNone]), key]

/-- Boundary: a path that is a file in one place and a directory in another one. The file first: an exception. The
directory first: its content is forgotten. -/
theorem C26_conflict (f x : Str) (hf : '/' ∉ f) (hx : '/' ∉ x) :
    pathsToTree [f, f ++ '/' :: x] = .error .type ∧ pathsToTree [f ++ '/' :: x, f] = pathsToTree [f] := by
  have h1 : splitChar '/' f = [f] := splitChar_of_not_mem hf
  have h2 : splitChar '/' (f ++ '/' :: x) = [f, x] := by
    rw [splitChar_append_sep, h1, splitChar_of_not_mem hx]; rfl
  constructor
  · unfold pathsToTree
    simp only [List.foldlM_cons, h1, h2, treeInsert, Dict.set, Dict.get?, Bind.bind, Except.bind, if_true]
    rfl
  · unfold pathsToTree
    simp only [List.foldlM_cons, h1, h2, treeInsert, Dict.set, Dict.get?, Bind.bind, Except.bind, if_true, Pure.pure, Except.pure]

/-- Non-vacuity -/
example : NoConflict (["a/x".toList, "b".toList] ++ ["c/new".toList]) ∧ ∀ p ∈ ["a/x".toList, "b".toList], p ∉ ["c/new".toList] := by
  refine ⟨?_, by decide +kernel⟩
  rw [noConflict_iff]; decide +kernel

/-! ## Cases that meet the hypotheses -/

/-- `C26_reduce` and `C26_missing` on small trees -/
example : reduceCommonPaths ["a/x".toList, "a/y".toList, "b/z".toList] ["a/x".toList, "a/y".toList, "b/z".toList, "b/t".toList] [] =
    .ok ["a".toList, "b/z".toList] ∧
    reduceCommonPaths ["a/x".toList] ["a/x".toList] ["a/new".toList] = .ok ["a/x".toList] ∧
    reduceCommonPaths ["a/x".toList] ["a/y".toList] [] = .error .key := by decide +kernel

end Cdtb
